import Verif.Common.Except
import Mathlib.Data.List.Sort
import Mathlib.Order.Basic

/-! `TruncatedPDF` in one observable (zfit/models/truncated.py). -/

namespace Zfit.Functor

open Zfit

variable {α V : Type} [LinearOrder α]

/-- The loop of `check_overlap` for one limit against the later ones (truncated.py:65-69); the limits are pairs of lower
and upper edge. -/
def overlapsLater (l : α × α) (later : List (α × α)) : Bool := later.any (fun m => decide (m.1 < l.2))

/-- `check_overlap` (truncated.py:62-70). -/
def checkOverlap : List (α × α) → Except Err Unit
  | [] => .ok ()
  | l :: ls => if overlapsLater l ls then .error .valueError else checkOverlap ls

/-- `check_limits` (truncated.py:25-59) for limits that are spaces with one observable: sort by the lower edge, check the
overlap. -/
def checkLimits (limits : List (α × α)) : Except Err (List (α × α)) :=
  let sorted := limits.insertionSort (fun a b => a.1 ≤ b.1)
  (checkOverlap sorted).map (fun _ => sorted)

/-- `limit.inside(x)` for one event (closed interval). -/
def inLimit (l : α × α) (x : α) : Bool := decide (l.1 ≤ x) && decide (x ≤ l.2)

/-- `znp.any([limit.inside(x) for limit in self._limits], axis=0)` (truncated.py:217-218). -/
def inAny (limits : List (α × α)) (x : α) : Bool := limits.any (inLimit · x)

/-- `znp.transpose(znp.where(inside))`: the positions of the true entries (truncated.py:219), starting to count at `k`. -/
def trueIdx : Nat → List Bool → List Nat
  | _, [] => []
  | k, b :: bs => if b then k :: trueIdx (k + 1) bs else trueIdx (k + 1) bs

/-- `xarray[inside]`. -/
def select {β : Type} : List β → List Bool → List β
  | x :: xs, b :: bs => if b then x :: select xs bs else select xs bs
  | _, _ => []

/-- `tf.scatter_nd(indices, updates, shape)`: zeros, with each update added at its position. -/
def scatter [Zero V] [Add V] (n : Nat) (indices : List Nat) (updates : List V) : List V :=
  (indices.zip updates).foldl (fun acc e => acc.modify e.1 (· + e.2)) (List.replicate n 0)

/-- `_unnormalized_pdf` (truncated.py:210-222); `f` is the wrapped PDF's `pdf(x, norm=False)`. -/
def truncEval [Zero V] [Add V] (limits : List (α × α)) (f : α → V) (xs : List α) : List V :=
  let inside := xs.map (inAny limits)
  scatter xs.length (trueIdx 0 inside) ((select xs inside).map f)

/-- `_integrate` (truncated.py:224-238) for the space of the PDF, when executed eagerly; `int` is the wrapped PDF's
`integrate(limit, norm=False)`.  For other limits it raises, and the integral is done numerically. -/
def truncIntegrate [Zero V] [Add V] (space : α × α) (limits : List (α × α)) (int : α × α → Except Err V) (lim : α × α) :
    Except Err V :=
  if lim ≠ space then .error .functionNotImplemented
  else do
    let vs ← limits.mapM int
    return vs.foldl (· + ·) 0

/-- `scaled_yield` (truncated.py:171-175). -/
def scaledYield [Zero V] [Add V] [Mul V] [Div V] (y : V) (space : α × α) (limits : List (α × α)) (int : α × α → Except Err V) :
    Except Err V := do
  let base ← int space
  let pieces ← limits.mapM int
  return y * (pieces.map (· / base)).foldl (· + ·) 0

end Zfit.Functor
