import Verif.Hs3.DocModel
import Verif.Data.SaveModel
import Mathlib.Analysis.SpecialFunctions.Log.Basic

/-!
# Model of saving and loading unbinned likelihoods

/repo/zfit/core/loss.py: `BaseLossRepr` (160-180), `UnbinnedNLLRepr` (1126-1128), `_unbinned_nll_tf` (76-126), `_loss_func_watched` (1102-1112).

PDFs and how they are saved are those of DocModel.lean, data those of Verif/Data/SaveModel.lean; constraints are parameters of the
model.  The number 1e-307 that is added to the density before the logarithm is left out, and so are the constant that may be subtracted
and the extended term.
-/

namespace Zfit.Hs3

open Zfit Zfit.Dat

variable {E S C : Type}

/-- `UnbinnedNLL(model, data, fit_range, constraints, options)` (loss.py:198-249): the models, data and fit ranges are lists of the same
length. -/
structure Loss (E S C : Type) where
  terms : List (Pdf E S × Named × Option S)
  constraints : List C
  options : List (String × Bool)

/-- A loss with its three lists zipped (loss.py:86-89). -/
def Loss.of (models : List (Pdf E S)) (data : List Named) (ranges : List (Option S)) (constraints : List C)
    (options : List (String × Bool)) : Loss E S C := ⟨models.zip (data.zip ranges), constraints, options⟩

/-- The events of data as points: the value of every observable.  A PDF takes the columns it needs by their names. -/
def points (d : Data) : Except Err (List (String → ℚ)) :=
  match d.value none with
  | .error e => .error e
  | .ok v => .ok (v.1.rows.map fun r o => r.getD (d.space.obs.idxOf o) 0)

/-- `-Σ w log p` (loss.py:115-124, `_nll_calc_unbinned_tf` 129-157); without weights every weight is one. -/
noncomputable def sumLog (w : Option (List ℚ)) (probs : List ℚ) : ℝ :=
  -(List.zipWith (fun (w p : ℚ) => (w : ℝ) * Real.log p) (w.getD (List.replicate probs.length 1)) probs).sum

/-- One term of the likelihood (loss.py:98-125).  With a fit range the data is cut to it and the PDF is normalised over it; `box` gives the
space of data in that range, `basic` is the density of the basic PDFs. -/
noncomputable def term (box : S → DSpace) (basic : String → List String → S → S → E → (String → ℚ) → ℚ) (e : E) :
    Pdf E S × Named × Option S → Except Err ℝ
  | (p, d, none) => match points d.data with
    | .error err => .error err
    | .ok pts => .ok (sumLog d.data.weights (pts.map fun x => density basic e x p))
  | (p, d, some r) => match d.data.withSpace (box r) with
    | .error err => .error err
    | .ok d' => match points d' with
      | .error err => .error err
      | .ok pts => .ok (sumLog d'.weights (pts.map fun x => density (fun t ps s _ => basic t ps s r) e x p))

/-- The value of the likelihood (loss.py:1102-1112). -/
noncomputable def Loss.value (box : S → DSpace) (basic : String → List String → S → S → E → (String → ℚ) → ℚ) (cval : C → E → ℝ)
    (l : Loss E S C) (e : E) : Except Err ℝ :=
  match l.terms.mapM (term box basic e) with
  | .error err => .error err
  | .ok ts => .ok (ts.sum + (l.constraints.map fun c => cval c e).sum)

/-- Save and load one term: `BaseLossRepr` has the fields `model` and `data`, and none for the fit range (loss.py:160-173). -/
def reloadTerm : Pdf E S × Named × Option S → Except Err (Pdf E S × Named × Option S)
  | (p, d, _) => match reload p with
    | .error e => .error e
    | .ok p' => match d.save >>= DataDoc.load with
      | .error e => .error e
      | .ok d' => .ok (p', d', none)

/-- Save and load a loss.  The field `options` is filled from the attribute of this name, which losses do not have (the options are in
`_options`, loss.py:237): it is empty (172). -/
def Loss.reload (reloadC : C → Except Err C) (l : Loss E S C) : Except Err (Loss E S C) :=
  match l.terms.mapM reloadTerm with
  | .error e => .error e
  | .ok ts => match l.constraints.mapM reloadC with
    | .error e => .error e
    | .ok cs => .ok ⟨ts, cs, []⟩

end Zfit.Hs3
