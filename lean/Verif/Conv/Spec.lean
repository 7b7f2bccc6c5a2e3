import Mathlib.Algebra.Order.Field.Basic
import Mathlib.Algebra.BigOperators.Intervals

/-! What a user expects of a convolution, independent of the model. -/

namespace Zfit.Conv.Spec

open Finset

variable {K : Type} [Field K] [LinearOrder K]

/-- A function that is only known between `lo` and `hi` and taken as zero outside. -/
def cut (lo hi : K) (f : K → K) (y : K) : K := if lo ≤ y ∧ y ≤ hi then f y else 0

/-- The convolution of `f` with a kernel that has the weights `w m` at the offsets `s m`: `∑ w(s) f(x - s)`. -/
def smear (n : ℕ) (w s : ℕ → K) (f : K → K) (x : K) : K := ∑ m ∈ range n, w m * f (x - s m)

/-- The total of the weights `w` of `n` points. -/
def total (n : ℕ) (w : ℕ → K) : K := ∑ i ∈ range n, w i

/-- The mean of `n` points `x` with weights `w`. -/
def mean (n : ℕ) (w x : ℕ → K) : K := (∑ i ∈ range n, w i * x i) / total n w

/-- The variance of `n` points `x` with weights `w`. -/
def variance (n : ℕ) (w x : ℕ → K) : K := (∑ i ∈ range n, w i * (x i - mean n w x) ^ 2) / total n w

end Zfit.Conv.Spec
