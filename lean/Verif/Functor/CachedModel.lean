import Verif.Common.Py
import Mathlib.Algebra.Order.Field.Rat
import Mathlib.Algebra.Order.Ring.Abs

/-!
# Model of `CachedPDF`

/repo/zfit/models/cache.py.  Data with one observable (a list of numbers) and exact rational numbers; `V` is the type of
what the wrapped PDF returns.
-/

namespace Zfit.Functor

open Zfit

/-- `reduce_all(abs(a - b) < tol)`: elementwise, a list of one element is repeated (broadcasting); other different
lengths raise. -/
def close (tol : Rat) (a b : List Rat) : Except Err Bool :=
  if a.length = b.length then .ok ((a.zip b).all (fun e => decide (|e.1 - e.2| < tol)))
  else match a, b with
    | _, [v] => .ok (a.all (fun u => decide (|u - v| < tol)))
    | [u], _ => .ok (b.all (fun v => decide (|u - v| < tol)))
    | _, _ => .error .invalidArgument

/-- The variables of one of the two caches (cache.py:100-125): `_cached_pdf_params`, `_cached_x` and `_pdf_cache`, or
`_cached_pdf_params_for_integration`, `_cached_integral_limits` and `_integral_cache`. -/
structure Cache (V : Type) where
  params : List Rat
  key : Option (List Rat)
  value : V

/-- As constructed with `nAll` parameters (cache.py:102-124); `value` is a placeholder never returned. -/
def Cache.init {V : Type} (nAll : Nat) (placeholder : V) : Cache V := ⟨List.replicate nAll 0, none, placeholder⟩

/-- `same_args` (cache.py:150-160, 187-202). -/
def sameArgs (tol : Rat) (cachedParams params key cachedKey : List Rat) : Except Err Bool := do
  let keySame ← close tol key cachedKey
  if params.length > 0 then
    let paramsSame ← close tol params cachedParams
    return paramsSame && keySame
  else return keySame

/-- The common course of `_pdf` (cache.py:127-167) and `_integrate` (cache.py:169-212): compares the parameters and the
data or limits with the ones stored, and returns the stored value or a new one (`compute`, the wrapped PDF's value for
the present parameters), which is stored. -/
def cachedCall {V : Type} (tol : Rat) (st : Cache V) (params key : List Rat) (compute : V) : Cache V × Except Err V :=
  let cachedKey := st.key.getD (key.map (· + 19))
  let st := { st with key := some cachedKey }
  match sameArgs tol st.params params key cachedKey with
  | .error e => (st, .error e)
  | .ok true => (st, .ok st.value)
  | .ok false =>
    ({ params := if params.length > 0 then params else st.params, key := some key, value := compute }, .ok compute)

/-- The parameters of the wrapped PDF at some moment: their values, and which of them float. -/
structure World where
  all : List Rat
  floating : List Bool

/-- The values of the floating parameters: `get_params()` (cache.py:149). -/
def World.floats (w : World) : List Rat := ((w.all.zip w.floating).filter (·.2)).map (·.1)

/-- The wrapped PDF: its `pdf` and `integrate`, given the values of all parameters, the data or the limits, and whether
to normalise (`norm="space"`: other normalisation ranges do not reach the caches). -/
structure Wrapped where
  pdf : List Rat → List Rat → Bool → List Rat
  integrate : List Rat → List Rat → Bool → Rat

/-- `CachedPDF._pdf` (cache.py:127-167): the parameters compared are the floating ones. -/
def cachedPdf (tol : Rat) (m : Wrapped) (st : Cache (List Rat)) (w : World) (x : List Rat) (norm : Bool) :
    Cache (List Rat) × Except Err (List Rat) := cachedCall tol st w.floats x (m.pdf w.all x norm)

/-- `CachedPDF._integrate` (cache.py:169-212): the parameters compared are all of them; `limits` is lower and upper. -/
def cachedIntegrate (tol : Rat) (m : Wrapped) (st : Cache Rat) (w : World) (limits : List Rat) (norm : Bool) :
    Cache Rat × Except Err Rat := cachedCall tol st w.all limits (m.integrate w.all limits norm)

/-- A sequence of calls; between any two of them the user may have changed the parameters. -/
def cachedCalls {S C R : Type} (call : S → C → S × R) : S → List C → List R
  | _, [] => []
  | st, c :: cs => (call st c).2 :: cachedCalls call (call st c).1 cs

end Zfit.Functor
