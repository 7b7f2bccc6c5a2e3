import Verif.Functor.SumModel

/-! Sums of sums: formulas of `SumPDF`s (zfit/models/functor.py, zfit/models/basefunctor.py), at fixed values of the parameters.

All PDFs are on the same observables; observables, names and labels are left out. -/

namespace Zfit.Functor

open Zfit Zfit.Pdf

variable {X P : Type} [DecidableEq P]

/-- What a user writes: a PDF, or `SumPDF(parts, fracs=fracs)`; the empty list of fractions stands for `None` (basefunctor.py:170). -/
inductive Formula (X P : Type)
  | pdf (d : Daughter X P)
  | sum (parts : List (Formula X P)) (fracs : List ℝ)

/-- `SumPDF(pdfs, fracs)` (functor.py:66-178) with the fractions and the yield of `mkSum` and the methods of `sumImpl`.  `n` is the norm the
sum takes over from its daughters (functor.py:37-58), `numInt` the numeric integrator. -/
noncomputable def makeSum (n : List P) (numInt : (X → Except Err ℝ) → List P → Except Err ℝ) (ds : List (Daughter X P))
    (fracs : List ℝ) : Except Err (Daughter X P) :=
  match mkSum (S := Unit) (ds.map fun d => ⟨[], d.impl.yield.map fun y _ => y⟩) (fracs.map fun f _ => f) none .none with
  | .error e => .error e
  | .ok s => .ok ⟨sumImpl ds (s.fracs.map (· ())) (s.yield.map (· ())) s.auto numInt, n⟩

mutual
/-- The PDF of a formula; the inner sums are made first. -/
noncomputable def Formula.build (n : List P) (numInt : (X → Except Err ℝ) → List P → Except Err ℝ) :
    Formula X P → Except Err (Daughter X P)
  | .pdf d => .ok d
  | .sum parts fracs => match buildAll n numInt parts with
    | .error e => .error e
    | .ok ds => makeSum n numInt ds fracs

/-- The PDFs of the parts of a sum. -/
noncomputable def buildAll (n : List P) (numInt : (X → Except Err ℝ) → List P → Except Err ℝ) :
    List (Formula X P) → Except Err (List (Daughter X P))
  | [] => .ok []
  | p :: ps => match Formula.build n numInt p with
    | .error e => .error e
    | .ok d => match buildAll n numInt ps with
      | .error e => .error e
      | .ok ds => .ok (d :: ds)
end

end Zfit.Functor
