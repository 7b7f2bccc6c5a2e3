import Verif.Functor.ProductModel
import Mathlib.Probability.ProbabilityMassFunction.Monad

/-!
# Model of `sample` for extended PDFs, sums, truncated PDFs and products

/repo/zfit/core/basemodel.py, core/basepdf.py, core/sample.py, models/functor.py and models/truncated.py.

A random sample is a probability distribution of lists of events (`PMF (List E)`): floats are discrete, so are the events.
What the libraries draw (multinomial and Poisson numbers, shuffles) are parameters; the specification says what is expected of
them.  The sampling of a PDF with a given number of events is a parameter too where other PDFs build on it.
-/

namespace Zfit.Draw

open Zfit
open scoped ENNReal

/-! ### The number of events -/

/-- The argument `n`. -/
inductive NArg
  | none
  | str (s : String)
  | num (n : ℕ)
  deriving DecidableEq

/-- What is done: `extended_sampling`, or a given number of events. -/
inductive Plan
  | extended
  | count (n : ℕ)
  deriving DecidableEq

/-- `BasePDF._hook_sample` (basepdf.py:773-790). -/
def hookN (isExtended : Bool) (n : NArg) : Except Err Plan :=
  let n := if n = .none && isExtended then .str "extended" else n
  match n with
  | .str s =>
    if s = "extended" then (if isExtended then .ok .extended else .error .notExtended)
    else .error .valueError
  | .none => .error .valueError
  | .num k => .ok (.count k)

/-- `sample` (basemodel.py:1180-1205): a string is replaced by `None` before anything else. -/
def sampleN (isExtended : Bool) (n : NArg) : Except Err Plan :=
  hookN isExtended (match n with
    | .str _ => .none
    | n => n)

/-! ### Samples put together -/

variable {E : Type}

/-- `znp.concatenate(samples, axis=0)` of samples that are drawn one after the other. -/
noncomputable def together : List (PMF (List E)) → PMF (List E)
  | [] => PMF.pure []
  | p :: ps => p.bind (fun a => (together ps).bind (fun b => PMF.pure (a ++ b)))

/-- `SumPDF._sample` (functor.py:289-303): the numbers are drawn with the fractions as probabilities, each daughter is
sampled in the limits, the events are shuffled.  `multinomial n probs` is `counts_multinomial` (z/random.py:66-118). -/
noncomputable def sumSample (multinomial : ℕ → List ℝ≥0∞ → PMF (List ℕ)) (shuffle : List E → PMF (List E))
    (fracs : List ℝ≥0∞) (daughters : List (ℕ → PMF (List E))) (n : ℕ) : PMF (List E) :=
  (multinomial n fracs).bind (fun cs =>
    (together ((daughters.zip cs).map (fun t => t.1 t.2))).bind shuffle)

/-- `TruncatedPDF._sample` (truncated.py:257-280) for the space of the PDF, executed eagerly; otherwise the base class
samples.  `integrals` are the integrals of the wrapped PDF over the limits, `pieces` its sampling in each of them. -/
noncomputable def truncSample (multinomial : ℕ → List ℝ≥0∞ → PMF (List ℕ)) (integrals : List ℝ≥0∞)
    (pieces : List (ℕ → PMF (List E))) (n : ℕ) : PMF (List E) :=
  let counts := if 1 < pieces.length then multinomial n (integrals.map (· / integrals.sum)) else PMF.pure [n]
  counts.bind (fun cs => together ((cs.zip pieces).map (fun t => t.2 t.1)))

/-! ### Extended sampling -/

/-- A PDF as `extended_sampling` sees it, for given limits: its yield, whether it is a `BaseFunctor`, its daughters; and its
sampling with a given number of events. -/
inductive Node (E : Type) : Type
  | mk (yield : Option ℝ≥0∞) (functor : Bool) (sampler : ℕ → PMF (List E)) (daughters : List (Node E))

/-- `get_yield` (basepdf.py:791-797). -/
def Node.yield : Node E → Option ℝ≥0∞
  | .mk y _ _ _ => y

/-- `sample(n, limits)` with a number. -/
def Node.sampler : Node E → ℕ → PMF (List E)
  | .mk _ _ s _ => s

/-- `is_extended` (basepdf.py:765-771). -/
def Node.isExtended (p : Node E) : Bool := p.yield.isSome

mutual
/-- `extract_extended_pdfs` for one PDF (sample.py:512-527). -/
def extract : Node E → Except Err (List (Node E))
  | .mk y f s ds =>
    if y.isNone then .ok []
    else if f then
      if ds.all (·.isExtended) then extractAll ds
      else if ds.all (fun d => !d.isExtended) then .ok [.mk y f s ds]
      else .error .assertionError
    else .ok [.mk y f s ds]
/-- `extract_extended_pdfs` (sample.py:499-529). -/
def extractAll : List (Node E) → Except Err (List (Node E))
  | [] => .ok []
  | p :: ps => do
    let a ← extract p
    let b ← extractAll ps
    return a ++ b
end

/-- `extended_sampling` (sample.py:532-551). -/
noncomputable def extendedSampling (poisson : ℝ≥0∞ → PMF ℕ) (p : Node E) : Except Err (PMF (List E)) := do
  let ps ← extract p
  return together (ps.map (fun q => (poisson (q.yield.getD 0)).bind q.sampler))

/-- `sample(n, limits)` for a PDF (basemodel.py:1149-1205, basepdf.py:773-790). -/
noncomputable def sample (poisson : ℝ≥0∞ → PMF ℕ) (p : Node E) (n : NArg) : Except Err (PMF (List E)) := do
  match ← sampleN p.isExtended n with
  | .extended => extendedSampling poisson p
  | .count k => return p.sampler k

/-! ### Products -/

variable {R V : Type}

/-- `znp.concatenate(data_new, axis=-1)` (data.py:1710): rows side by side. -/
def hstack : List (List (List R)) → List (List R)
  | [] => []
  | [t] => t
  | t :: ts => List.zipWith (· ++ ·) t (hstack ts)

/-- The observables of a group of factors, see `Functor.groups`. -/
def groupObs (g : List (Functor.Factor R V)) : List String := Functor.productObs g

/-- `ProductPDF._sample` (functor.py:464-473): the factors (those with common observables together) are sampled
independently, in the order in which they are grouped; `draw g` is what is drawn for a group, with its columns in the order of
the observables of the group.  `.value()` forgets the observables. -/
def productSample (draw : List (Functor.Factor R V) → List (List R)) (fs : List (Functor.Factor R V)) :
    Except Err (List (List R)) :=
  match Functor.groups fs with
  | none => .error .functionNotImplemented
  | some gs => .ok (hstack (gs.map draw))

/-- A dataset: rows with the names of the columns. -/
structure Table (R : Type) where
  obs : List String
  rows : List (List R)

/-- The column of an observable. -/
def Table.column (t : Table R) (o : String) : List (Option R) := t.rows.map (fun r => r[t.obs.idxOf o]?)

/-- `sample` of a product (basemodel.py:1195-1200): the tensor gets the observables `obs` of the product and is cut to the
limits (`Data.from_tensor(tensor=tensor, obs=limits)`). -/
def sampleProduct (obs : List String) (inside : List R → Bool) (draw : List (Functor.Factor R V) → List (List R))
    (fs : List (Functor.Factor R V)) : Except Err (Table R) := do
  let rows ← productSample draw fs
  return ⟨obs, rows.filter inside⟩

end Zfit.Draw
