import Verif.Common.Py
import Verif.Common.Except
import Mathlib.Algebra.Order.Field.Rat
import Mathlib.Data.Rat.Defs

/-!
# Model of /repo/zfit/util/plotter.py

Numbers are exact rationals.  A PDF is what the plotter sees of it: its label, its observables, its limits, its density
and its density times the yield.  Drawing (`ax.plot`, labels of axes, legend) is the list of points handed to the
plotting function and the label.  Not modelled: the warning about experimental features, colours and styles other than
as entries of `plotkwargs`, spaces with several limits, limits that are `False`.
-/

namespace Zfit.Plot

open Zfit

abbrev Range := Rat × Rat

/-- A PDF as seen by the plotter (plotter.py:54-140; core/basepdf.py:322-369, 850-933).  `dens` is `pdf(x)` of a PDF of
one observable, `ext` is `ext_pdf(x)` if it is extended; for a PDF of several observables `marg o` is the integral over
all observables but `o`, `mass o r` the integral of that over the range `r`, and `yield` its yield. -/
structure Pdf where
  label : String
  obs : List String
  limits : Option (String → Range)
  dens : Rat → Rat
  ext : Option (Rat → Rat)
  marg : String → Rat → Rat
  mass : String → Range → Rat
  yield : Option Rat

/-- `model.is_extended`. -/
def Pdf.isExtended (m : Pdf) : Bool := m.ext.isSome || m.yield.isSome

/-- A PDF of one observable with the density `d` and the yield `y` (`ext_pdf`, basepdf.py:357-363: density times yield). -/
def basic (label o : String) (r : Option Range) (d : Rat → Rat) (y : Option Rat) : Pdf :=
  ⟨label, [o], r.map fun r _ => r, d, y.map fun y x => d x * y, fun _ _ => 0, fun _ _ => 0, y⟩

/-- What is given for `obs`: names of observables, or a space with limits. -/
inductive ObsArg
  | names (l : List String)
  | space (l : List (String × Range))
  deriving DecidableEq, Repr

/-- The arguments of `plotpdf` (plotter.py:54-66).  `axOk` is false if `ax` is something else than axes; `plotkwargs`
is a dictionary. -/
structure Args where
  extended : Option Bool := none
  obs : Option ObsArg := none
  scale : Option Rat := none
  num : Option Nat := none
  full : Option Bool := none
  axOk : Bool := true
  plotkwargs : Option (List (String × String)) := none

/-- What the plotting function is called with: the points, and the keyword arguments; and the observable on the axis. -/
structure Curve where
  xs : List Rat
  ys : List Rat
  kwargs : List (String × String)
  xobs : String
  extended : Bool
  deriving DecidableEq, Repr

/-- `znp.linspace(lower, upper, num=num)`. -/
def linspace (lo up : Rat) (num : Nat) : List Rat :=
  if num = 1 then [lo] else (List.range num).map fun (i : Nat) => lo + (i : Rat) * ((up - lo) / ((num : Rat) - 1))

/-- `model.space.with_obs(obs)` for names: those it has, in their order; an exception if it has none. -/
def withObs (m : Pdf) (l : List String) : Except Err (List String × Option (String → Range)) :=
  let k := l.filter fun o => o ∈ m.obs
  if k.isEmpty then .error .obsIncompatible else .ok (k, m.limits)

/-- plotter.py:101-112: the observables to draw and their limits. -/
def drawSpace (m : Pdf) : Option ObsArg → Except Err (List (String × Range))
  | none =>
    match m.limits with
    | none => .error .valueError
    | some r => .ok (m.obs.map fun o => (o, r o))
  | some (.space l) => .ok l
  | some (.names l) =>
    match withObs m l with
    | .error e => .error e
    | .ok (_, none) => .error .valueError
    | .ok (k, some r) => .ok (k.map fun o => (o, r o))

/-- `model.create_projection_pdf(obs=obs, label=model.label)` (basepdf.py:882-933): the density of the projection is
normalised over the limits of `obs`. -/
def projection (m : Pdf) (o : String) (r : Range) : Pdf :=
  basic m.label o (some r) (fun x => m.marg o x / m.mass o r) m.yield

/-- `model.ext_pdf(x) if extended else model.pdf(x)` (plotter.py:124, basepdf.py:350-352). -/
def heights (m : Pdf) (extended : Bool) : Except Err (Rat → Rat) :=
  if extended then
    match m.ext with
    | some f => .ok f
    | none => .error .notExtended
  else .ok m.dens

/-- `if "label" not in plotkwargs and full: plotkwargs["label"] = model.label` (plotter.py:132-133). -/
def labelled (full : Bool) (label : String) (kw : List (String × String)) : List (String × String) :=
  if (dictGet kw "label").isNone && full then dictSet kw "label" label else kw

/-- `plot_model_pdfV1` (plotter.py:54-140).  The second part of the result is the dictionary `plotkwargs` as the caller
has it afterwards. -/
def draw (m : Pdf) (a : Args) : Except Err (Curve × Option (List (String × String))) :=
  let extended := a.extended.getD m.isExtended
  match drawSpace m a.obs with
  | .error e => .error e
  | .ok [(o, r)] =>
    let model := if m.obs.length = 1 then m else projection m o r
    match heights model extended with
    | .error e => .error e
    | .ok f =>
      if a.axOk then
        let xs := linspace r.1 r.2 (a.num.getD 300)
        let kw := labelled (a.full.getD true) m.label (a.plotkwargs.getD [])
        .ok (⟨xs, xs.map fun x => f x * a.scale.getD 1, kw, o, extended⟩, a.plotkwargs.map fun _ => kw)
      else .error .valueError
  | .ok _ => .error .valueError

/-! ## The plotters attached to PDFs -/

/-- An entry of `defaults` of a `PDFPlotter` (entries for `ax`, `linestyle`, `plotfunc` and `plotkwargs` are left out). -/
inductive Setting
  | extended (v : Option Bool)
  | obs (v : Option ObsArg)
  | scale (v : Option Rat)
  | num (v : Option Nat)
  | full (v : Option Bool)

def Setting.apply (a : Args) : Setting → Args
  | .extended v => { a with extended := v }
  | .obs v => { a with obs := v }
  | .scale v => { a with scale := v }
  | .num v => { a with num := v }
  | .full v => { a with full := v }

/-- The function a plotter draws with: that of zfit, or one given by the user. -/
abbrev DrawFn := Pdf → Args → Except Err (Curve × Option (List (String × String)))

/-- `PDFPlotter` (plotter.py:205-235). -/
structure Plotter where
  pdf : Pdf
  pdfplotter : DrawFn
  defaults : List Setting

/-- `PDFPlotter(pdf, pdfplotter, defaults=...)` (plotter.py:206-222). -/
def Plotter.make (pdf : Pdf) (pdfplotter : Option DrawFn) (defaults : Option (List Setting)) : Plotter :=
  ⟨pdf, pdfplotter.getD draw, defaults.getD []⟩

/-- `PDFPlotter._plotpdf` (plotter.py:228-230): `kwargs |= self.defaults`, then `plot_model_pdfV1`. -/
def Plotter.plotpdf (p : Plotter) (a : Args) : Except Err (Curve × Option (List (String × String))) :=
  draw p.pdf (p.defaults.foldl Setting.apply a)

/-- The loop of `SumCompPlotter._plotpdf` (plotter.py:257-262): every component with its fraction; the dictionary
`plotkwargs` is one object. -/
def drawParts : List (Plotter × Rat) → Rat → Args → Except Err (List Curve × Option (List (String × String)))
  | [], _, a => .ok ([], a.plotkwargs)
  | (p, frac) :: ps, scale, a =>
    match p.plotpdf { a with scale := some (frac * scale) } with
    | .error e => .error e
    | .ok (c, kw) =>
      match drawParts ps scale { a with plotkwargs := kw } with
      | .error e => .error e
      | .ok (cs, kw') => .ok (c :: cs, kw')

/-- `SumCompPlotter._plotpdf` (plotter.py:251-262). -/
def drawComponents (parts : List (Plotter × Rat)) (a : Args) : Except Err (List Curve × Option (List (String × String))) :=
  drawParts parts (a.scale.getD 1) a

/-- The parts of a sum as the component plotter has them: every PDF with its own plotter (basepdf.py:169-170). -/
def partsOf (parts : List (Pdf × Rat)) : List (Plotter × Rat) := parts.map fun p => (Plotter.make p.1 none none, p.2)

/-- `SumPDF(pdfs, fracs, extended=y)` (models/functor.py:122-196): PDFs of one observable in the same range with the
same normalisation range; the density is the sum of the densities times the fractions. -/
def sumByFracs (label o : String) (r : Range) (parts : List (Pdf × Rat)) (y : Option Rat) : Pdf :=
  basic label o (some r) (fun x => (parts.map fun p => p.1.dens x * p.2).sum) y

/-- The fractions of a sum of extended PDFs: the yields over their sum (models/basefunctor.py:150-250). -/
def yieldFracs (parts : List (Pdf × Rat)) : List (Pdf × Rat) :=
  parts.map fun p => (p.1, p.2 / (parts.map (·.2)).sum)

/-- `SumPDF(pdfs)` of extended PDFs, given with their yields (functor.py:160-164, 199-207): extended with the sum of the
yields; `ext_pdf` is the sum of those of the parts. -/
def sumByYields (label o : String) (r : Range) (parts : List (Pdf × Rat)) : Pdf :=
  { sumByFracs label o r (yieldFracs parts) (some (parts.map (·.2)).sum) with
    ext := some fun x => (parts.map fun p => p.1.dens x * p.2).sum }

end Zfit.Plot
