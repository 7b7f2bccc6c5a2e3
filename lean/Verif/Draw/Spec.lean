import Verif.Draw.Model
import Mathlib.Topology.Algebra.InfiniteSum.ENNReal

namespace Zfit.Draw

open scoped ENNReal

/-- The expectation of a non-negative quantity. -/
noncomputable def expect {α : Type} (p : PMF α) (f : α → ℝ≥0∞) : ℝ≥0∞ := ∑' a, p a * f a

variable {E : Type} [DecidableEq E]

/-- How many times the event `e` is expected in a sample. -/
noncomputable def expected (p : PMF (List E)) (e : E) : ℝ≥0∞ := expect p (fun l => (l.count e : ℝ≥0∞))

/-- A sampling follows the probabilities `P`: the number of events is the one asked for, and each event is expected in
proportion to its probability. -/
structure Follows (s : ℕ → PMF (List E)) (P : E → ℝ≥0∞) : Prop where
  length : ∀ n, ∀ l ∈ (s n).support, l.length = n
  mean : ∀ n e, expected (s n) e = n * P e

/-- What the libraries guarantee about a multinomial draw: one number for each probability, in total the number asked for,
and on average the share given by the probability. -/
structure Multinomial (m : ℕ → List ℝ≥0∞ → PMF (List ℕ)) : Prop where
  length : ∀ n probs, probs.sum = 1 → ∀ c ∈ (m n probs).support, c.length = probs.length
  total : ∀ n probs, probs.sum = 1 → ∀ c ∈ (m n probs).support, c.sum = n
  mean : ∀ n probs, probs.sum = 1 → ∀ (i : ℕ) (h : i < probs.length),
    expect (m n probs) (fun c => ((c[i]?).getD 0 : ℕ)) = n * probs[i]

/-- A shuffle only changes the order. -/
def Shuffle (s : List E → PMF (List E)) : Prop := ∀ l, ∀ l' ∈ (s l).support, l'.Perm l

/-- The mean of a Poisson draw is its parameter. -/
def Poisson (p : ℝ≥0∞ → PMF ℕ) : Prop := ∀ y, y ≠ ⊤ → expect (p y) (fun k => (k : ℝ≥0∞)) = y

/-- The total weight of `f` in a region. -/
noncomputable def weight (f : E → ℝ≥0∞) (region : E → Bool) : ℝ≥0∞ := ∑' e, if region e then f e else 0

/-- The probabilities proportional to `f` in a region, zero outside. -/
noncomputable def given (f : E → ℝ≥0∞) (region : E → Bool) (e : E) : ℝ≥0∞ :=
  if region e then f e / weight f region else 0

/-- `Σ fracs_i · P_i`. -/
noncomputable def mixture (fracs : List ℝ≥0∞) (ps : List (E → ℝ≥0∞)) (e : E) : ℝ≥0∞ :=
  ((fracs.zip ps).map (fun t => t.1 * t.2 e)).sum

end Zfit.Draw
