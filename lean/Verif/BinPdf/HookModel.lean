import Verif.BinPdf.IntModel

/-!
# Model of the hooks of binned PDFs

`BaseBinnedPDF`, /repo/zfit/core/binnedpdf.py:285-530, 601-1309, and the binned PDFs of /repo/zfit/models/histogram.py,
template.py, histmodifier.py, binned_functor.py.  The methods call each other, possibly without end: the calls are
counted and a computation that has not finished within the given depth has no result (`none`).

Simplifications: a space is one box (limits per axis); hooks for the normalisation (`_normalization`,
`_ext_normalization`) and the logarithms are left out; the densities are evaluated on the pdf's own bins
(points: PointModel); parameters have fixed values during a call.
-/

namespace Zfit.BinPdf

open Zfit Zfit.Bin

/-- The content of the bins. -/
abbrev Arr := List Nat → Rat

/-- A box: limits of every axis. -/
abbrev Box := List (Rat × Rat)

/-- The result of a method: nothing if the call depth was exceeded, otherwise a value or an exception. -/
abbrev M (α : Type) := Option (Except Err α)

/-- Continue with the value. -/
def M.bind' {α β : Type} (m : M α) (f : α → M β) : M β :=
  match m with
  | some (.ok a) => f a
  | some (.error e) => some (.error e)
  | none => none

/-- `with suppress(SpecificFunctionNotImplemented): return first` and then the rest. -/
def suppress {α : Type} (first rest : M α) : M α :=
  match first with
  | some (.error .functionNotImplemented) => rest
  | r => r

/-- A binned PDF: binning, yield and the hooks its class implements. `none`: not overridden. -/
structure BPdf where
  edges : List (List Rat)
  /-- `self.space` and `self.norm` (1072-1076) -/
  space : Box
  norm : Box
  yield : Option Rat
  pdf : Option (Option Box → Except Err Arr) := none
  extPdf : Option (Option Box → Except Err Arr) := none
  counts : Option (Option Box → Except Err Arr) := none
  relCounts : Option (Option Box → Except Err Arr) := none
  unnormalizedPdf : Option (Except Err Arr) := none
  integrate : Option (List Box → Option Box → Except Err Rat) := none
  extIntegrate : Option (List Box → Option Box → Except Err Rat) := none
  sample : Option (Rat → List Box → Except Err Arr) := none
  /-- `binned_rect_integration` for limits of several pieces (not modelled) -/
  rectSeveral : Arr → List Box → Except Err Rat := fun _ _ => .error .multipleLimitsNotImplemented

/-- `np.prod(self.space.binning.widths, axis=0)`. -/
def BPdf.area (p : BPdf) (idx : List Nat) : Rat := ((p.edges.zip idx).map (fun q => width q.1 q.2)).prod

/-- The number of bins. -/
def BPdf.shape (p : BPdf) : List Nat := p.edges.map (fun e => e.length - 1)

/-- `binned_rect_integration(counts=..., edges=..., limits=...)`. -/
def BPdf.rect (p : BPdf) (c : Arr) : List Box → Except Err Rat
  | [l] => .ok (rectIntegration ⟨p.shape, c⟩ p.edges l)
  | ls => p.rectSeveral c ls

/-- `self.get_yield()` (1027-1030). -/
def BPdf.getYield (p : BPdf) : Except Err Rat :=
  match p.yield with
  | some y => .ok y
  | none => .error .notExtended

/-- A hook that is not overridden raises `SpecificFunctionNotImplemented` (374-376, 1227-1229, 1294-1296). -/
def callHook (h : Option (Option Box → Except Err Arr)) (norm : Option Box) : M Arr :=
  match h with
  | some f => some (f norm)
  | none => some (.error .functionNotImplemented)

/-- Requests for arrays: the methods `_call_pdf`, `_call_ext_pdf`, `_call_counts`, `_call_rel_counts`. `none`: `norm=False`. -/
inductive ReqA
  | pdf (norm : Option Box)
  | extPdf (norm : Option Box)
  | counts (norm : Option Box)
  | relCounts (norm : Option Box)

/-- Requests for numbers: `normalization`, `ext_normalization`, `_call_integrate`, `_auto_integrate`, `_call_ext_integrate`,
`_auto_ext_integrate`. -/
inductive ReqN
  | normalization (norm : Box)
  | extNormalization (norm : Box)
  | integrate (limits : List Box) (norm : Option Box)
  | autoIntegrate (limits : List Box) (norm : Option Box)
  | extIntegrate (limits : List Box) (norm : Option Box)
  | autoExtIntegrate (limits : List Box) (norm : Option Box)

/-- The density over the bin areas, e.g. `... / np.prod(widths)`. -/
def BPdf.overArea (p : BPdf) (m : M Arr) : M Arr := m.bind' (fun c => some (.ok (fun i => c i / p.area i)))

/-- `... * self.get_yield()`. -/
def BPdf.timesYield (p : BPdf) (m : M Arr) : M Arr :=
  m.bind' (fun c => M.bind' (some p.getYield) (fun y => some (.ok (fun i => c i * y))))

/-- `... / self.get_yield()`. -/
def BPdf.overYield (p : BPdf) (m : M Arr) : M Arr :=
  m.bind' (fun c => M.bind' (some p.getYield) (fun y => some (.ok (fun i => c i / y))))

/-- The hook if it supports the norm, otherwise without norm and divided by the normalisation: `_auto_pdf` (353-360),
`_auto_counts` (1215-1222), `_auto_rel_counts` (1298-1305), `_auto_ext_pdf` (445-452). -/
def autoNorm (normalization : Box → M Rat) (hook : Option Box → M Arr) (norm : Option Box) : M Arr :=
  match hook norm, norm with
  | some (.error .normNotImplemented), some n =>
    (hook none).bind' (fun u => (normalization n).bind' (fun z => some (.ok (fun i => u i / z))))
  | r, _ => r

/-- One call of a method returning an array, the calls it makes being `A` and `B`. -/
def BPdf.stepA (p : BPdf) (A : ReqA → M Arr) (B : ReqN → M Rat) : ReqA → M Arr
  -- _call_pdf (345-351); `_pdf` defaults to the relative counts (286-287); _fallback_pdf (362-366)
  | .pdf norm =>
    suppress
      (autoNorm (fun n => B (.normalization n))
        (fun n => match p.pdf with
          | some f => some (f n)
          | none => p.overArea (A (.relCounts n))) norm)
      (suppress (p.overArea (autoNorm (fun n => B (.normalization n)) (callHook p.relCounts) norm))
        (M.bind' (some (p.unnormalizedPdf.getD (.error .functionNotImplemented))) (fun u =>
          match norm with
          | none => some (.ok u)
          | some n => (B (.normalization n)).bind' (fun z => some (.ok (fun i => u i / z))))))
  -- _call_ext_pdf (437-456)
  | .extPdf norm =>
    suppress (autoNorm (fun n => B (.extNormalization n)) (callHook p.extPdf) norm)
      (suppress (p.overArea (autoNorm (fun n => B (.normalization n)) (callHook p.counts) norm))
        (p.timesYield (A (.pdf norm))))
  -- _call_counts (1169-1173), _fallback_counts (1224-1225)
  | .counts norm =>
    suppress (autoNorm (fun n => B (.normalization n)) (callHook p.counts) norm)
      (p.timesYield (autoNorm (fun n => B (.normalization n)) (callHook p.relCounts) norm))
  -- _call_rel_counts (1286-1292), _fallback_rel_counts (1307-1309)
  | .relCounts norm =>
    suppress (autoNorm (fun n => B (.normalization n)) (callHook p.relCounts) norm)
      (suppress (p.overYield (autoNorm (fun n => B (.normalization n)) (callHook p.counts) norm))
        ((A (.pdf norm)).bind' (fun d => some (.ok (fun i => d i * p.area i)))))

/-- Sum over the pieces (`z.reduce_sum`). -/
def sumPieces (f : Box → M Rat) : List Box → M Rat
  | [] => some (.ok 0)
  | b :: bs => (f b).bind' (fun x => (sumPieces f bs).bind' (fun y => some (.ok (x + y))))

/-- One call of a method returning a number. -/
def BPdf.stepN (p : BPdf) (A : ReqA → M Arr) (B : ReqN → M Rat) : ReqN → M Rat
  -- normalization (692-701): the integral over the space
  | .normalization n => B (.integrate [n] none)
  -- ext_normalization (1198-1210)
  | .extNormalization n =>
    M.bind' (some p.getYield) (fun y => (B (.normalization n)).bind' (fun z => some (.ok (z / y))))
  -- _call_integrate (743-755)
  | .integrate limits norm =>
    suppress (B (.autoIntegrate limits norm)) ((A (.relCounts norm)).bind' (fun c => some (p.rect c limits)))
  -- _auto_integrate (757-769)
  | .autoIntegrate limits norm =>
    match p.integrate with
    | none => some (.error .functionNotImplemented)
    | some f =>
      match f limits norm, norm with
      | .error .normNotImplemented, some n =>
        (B (.autoIntegrate limits none)).bind' (fun u => (B (.normalization n)).bind' (fun z => some (.ok (u / z))))
      | .error .normNotImplemented, none => B (.autoIntegrate limits none)
      | .error .multipleLimitsNotImplemented, _ => sumPieces (fun b => B (.autoIntegrate [b] norm)) limits
      | r, _ => some r
  -- _call_ext_integrate (810-820)
  | .extIntegrate limits norm =>
    suppress (B (.autoExtIntegrate limits norm)) ((A (.counts norm)).bind' (fun c => some (p.rect c limits)))
  -- _auto_ext_integrate (822-834): the pieces are integrated with `_auto_integrate`
  | .autoExtIntegrate limits norm =>
    match p.extIntegrate with
    | none => some (.error .functionNotImplemented)
    | some f =>
      match f limits norm, norm with
      | .error .normNotImplemented, some n =>
        (B (.autoExtIntegrate limits none)).bind' (fun u =>
          (B (.extNormalization n)).bind' (fun z => some (.ok (u / z))))
      | .error .normNotImplemented, none => B (.autoExtIntegrate limits none)
      | .error .multipleLimitsNotImplemented, _ => sumPieces (fun b => B (.autoIntegrate [b] norm)) limits
      | r, _ => some r

mutual
/-- The methods with at most the given depth of calls. -/
def BPdf.runA (p : BPdf) : Nat → ReqA → M Arr
  | 0, _ => none
  | n + 1, r => p.stepA (BPdf.runA p n) (BPdf.runN p n) r
/-- The methods with at most the given depth of calls. -/
def BPdf.runN (p : BPdf) : Nat → ReqN → M Rat
  | 0, _ => none
  | n + 1, r => p.stepN (BPdf.runA p n) (BPdf.runN p n) r
end

/-- The public methods `ext_pdf`, `counts` check that the pdf is extended (407-408, 1139-1140), `norm=None` means the default norm
(262-264). -/
def BPdf.publicNorm (p : BPdf) : Option (Option Box) → Option Box
  | none => some p.norm
  | some n => n

/-- `counts(norm=...)` with depth. -/
def BPdf.countsM (p : BPdf) (fuel : Nat) (norm : Option (Option Box)) : M Arr :=
  match p.yield with
  | none => some (.error .notExtended)
  | some _ => p.runA fuel (.counts (p.publicNorm norm))

/-- `ext_pdf(norm=...)` with depth. -/
def BPdf.extPdfM (p : BPdf) (fuel : Nat) (norm : Option (Option Box)) : M Arr :=
  match p.yield with
  | none => some (.error .notExtended)
  | some _ => p.runA fuel (.extPdf (p.publicNorm norm))

/-- `_call_sample` (966-981): the result of the `_sample` hook is not returned; the fallback draws from a multinomial
distribution (external: `multinomial`) with the relative counts, for the pdf's own space only. -/
def BPdf.callSample (p : BPdf) (multinomial : Rat → Arr → Arr) (fuel : Nat) (n : Rat) (limits : List Box) : M Arr :=
  let fallback : M Arr :=
    if limits ≠ [p.space] then some (.error .workInProgress)
    else (p.runA fuel (.relCounts (some p.norm))).bind' (fun probs => some (.ok (multinomial n probs)))
  match p.sample with
  | none => fallback
  | some f =>
    match f n limits with
    | .ok _ => fallback
    | .error .functionNotImplemented => fallback
    | .error e => some (.error e)

/-- The arguments `fixed_params` of `create_sampler`. -/
inductive FixedParams
  | none
  | yes
  | no
  | list (params : List (String × Rat))

/-- The parameter values `create_sampler` samples with (binnedpdf.py:892-913): those given, otherwise the current ones. -/
def createSamplerParams (current : List (String × Rat)) (params : Option (List (String × Rat))) (fixed : FixedParams) :
    Except Err (List (String × Rat)) :=
  let use (ps : Option (List (String × Rat))) : List (String × Rat) :=
    current.map (fun c => (c.1, (dictGet (ps.getD []) c.1).getD c.2))
  match fixed with
  | .none => .ok (use params)
  | f =>
    if params.isSome then .error .valueError
    else match f with
      | .no => .error .breakingApiChange
      | .list l => .ok (use (some l))
      | _ => .ok (use none)

end Zfit.BinPdf
