import Verif.Kde.Model
import Verif.Kde.RulesModel
import Mathlib.Analysis.SpecialFunctions.Trigonometric.Basic

/-! Model of zfit/util/improved_sheather_jones.py and of the choice of adaptive bandwidths in zfit/models/kde.py.

Numbers are real.  `tf.signal.dct` of type 2 and `tf.signal.idct` of type 2, without a norm, are the sums of cosines of
their documentation (TensorFlow; trusted). The search for a root is a parameter. -/

namespace Zfit.Kde

open Zfit

/-- `tf.signal.dct(c, type=2)` for `n` numbers. -/
noncomputable def dct (n : ℕ) (c : ℕ → ℝ) (k : ℕ) : ℝ :=
  2 * ∑ j ∈ Finset.range n, c j * Real.cos (Real.pi * k * (2 * j + 1) / (2 * n))

/-- `tf.signal.idct(X, type=2)` for `n` numbers: the transform of type 3. -/
noncomputable def idct (n : ℕ) (X : ℕ → ℝ) (j : ℕ) : ℝ :=
  X 0 + 2 * ∑ k ∈ Finset.range (n - 1), X (k + 1) * Real.cos (Real.pi * (k + 1 : ℕ) * (2 * j + 1) / (2 * n))

/-- The sum of improved_sheather_jones.py 29-36 and 75-85: a quarter of the squared norm of the derivative of order `s`, after
smoothing with the time `t`.  `d2` are the squares of the coefficients, divided by 4; see `derivativeNorm_quarter`. -/
noncomputable def derivativeNorm (n : ℕ) (d2 : ℕ → ℝ) (s : ℕ) (t : ℝ) : ℝ :=
  1 / 2 * Real.pi ^ (2 * s) * ∑ k ∈ Finset.range (n - 1),
    (((k + 1 : ℕ) : ℝ) ^ 2) ^ s * d2 (k + 1) * Real.exp (-((k + 1 : ℕ) : ℝ) ^ 2 * Real.pi ^ 2 * t)

/-- zfit/util/improved_sheather_jones.py 15-36 `calc_f`. -/
noncomputable def calcF (n : ℕ) (d2 : ℕ → ℝ) (size : ℝ) (s : ℕ) (f : ℝ) : ℝ :=
  let odd := ((List.range s).map fun i => (2 * (i : ℝ) + 1)).prod
  let k0 := odd / Real.sqrt (2 * Real.pi)
  let const := (1 + (1 / 2 : ℝ) ^ ((s : ℝ) + 1 / 2)) / 3
  let time := (2 * const * k0 / (size * f)) ^ (2 / (3 + 2 * (s : ℝ)))
  derivativeNorm n d2 s time

/-- zfit/util/improved_sheather_jones.py 39-110 `_fixed_point`. -/
noncomputable def fixedPoint (n : ℕ) (d2 : ℕ → ℝ) (size t : ℝ) : ℝ :=
  let f := [6, 5, 4, 3, 2].foldl (fun f s => calcF n d2 size s f) (derivativeNorm n d2 7 t)
  t - (2 * Real.sqrt Real.pi * size * f) ^ (-2 / 5 : ℝ)

/-- What `KDE1DimISJ` keeps: the bandwidth it reports, the ends of the grid and the values on it. -/
structure Isj where
  bandwidth : ℝ
  gmin : ℝ
  gmax : ℝ
  values : ℕ → ℝ

/-- zfit/util/improved_sheather_jones.py 190-207 `_calculate_density`: before negative values are set to zero. -/
noncomputable def rawDensity (n : ℕ) (c : ℕ → ℝ) (t range : ℝ) (j : ℕ) : ℝ :=
  idct n (fun k => dct n c k * Real.exp (-(k : ℝ) ^ 2 * Real.pi ^ 2 * t / 2)) j / (2 * range)

/-- zfit/util/improved_sheather_jones.py 160-230 `_calculate_t_star`, `calculate_bandwidth_and_density`.  The search for
the root, lines 113-157, is the parameter `root`; it gets the number of different events and the function. -/
noncomputable def isj (root : ℝ → (ℝ → ℝ) → Option ℝ) (data : List ℝ) (n : ℕ) (method : Method) (weights : Option (List ℝ)) :
    Except Err Isj :=
  match gridEnds data 6 (1 / 2), minimum data, maximum data with
  | .ok (gmin, gmax), .ok lo, .ok hi =>
    let c := bin1d method data gmin gmax n weights
    let size : ℝ := data.dedup.length
    match root size (fixedPoint n (fun k => dct n c k ^ 2 / 4) size) with
    | none => .error .runtimeError
    | some t => .ok ⟨Real.sqrt t * (hi - lo), gmin, gmax, fun j => max 0 (rawDensity n c t (hi - lo) j)⟩
  | _, _, _ => .error .invalidArgument

/-- zfit/models/kde.py 358-389 `adaptive_factory`, `grid=False`: `pilot weights` is the density of the KDE with Silverman's
bandwidth that is built with the weights given; the weights are an argument of the function and are not passed on. -/
noncomputable def adaptiveExact (rule : List ℝ → (ℝ → ℝ) → Option (List ℝ) → Option (List ℝ)) (pilot : Option (List ℝ) → ℝ → ℝ)
    (data : List ℝ) (weights : Option (List ℝ)) : Option (List ℝ) := rule data (pilot none) weights

/-- zfit/models/kde.py 358-389 `adaptive_factory`, `grid=True`: the weights are among the `kwargs` that are passed on; the
bandwidths are those of the points of the grid, weighted with the binned sample. -/
noncomputable def adaptiveGrid (rule : List ℝ → (ℝ → ℝ) → Option (List ℝ) → Option (List ℝ)) (pilot : Option (List ℝ) → ℝ → ℝ)
    (size : ℕ) (grid gridData : List ℝ) (weights : Option (List ℝ)) : Option (List ℝ) :=
  rule grid (pilot weights) (some (gridData.map (· * (size : ℝ))))

end Zfit.Kde
