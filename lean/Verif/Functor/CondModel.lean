import Verif.Param.Model

/-!
# Model of `ConditionalPDFV1`

/repo/zfit/models/conditional.py.  The events are mapped one after the other (`tf.map_fn`, as in eager mode); the columns
of an event are a list of numbers.  What the wrapped PDF does for one event, given the parameters, is arbitrary and may
raise.
-/

namespace Zfit.Functor

open Zfit Zfit.Par

variable {R : Type}

/-- `for param, index in param_x_indices.items(): param.assign(values[..., index])` (conditional.py:125-126, 164-165,
194-195). -/
def assignEvent (cond : List (Nat × Nat)) (s : Store) (e : List Rat) : Store :=
  assignAll s (cond.map (fun c => (c.1, e.getD c.2 0)))

/-- `tf_map(eval_…, x_values)`: per event, assign the conditional parameters, then evaluate. -/
def mapEvents (cond : List (Nat × Nat)) (eval : Store → List Rat → Except Err R) :
    List (List Rat) → Store → Store × Except Err (List R)
  | [], s => (s, .ok [])
  | e :: es, s =>
    let s' := assignEvent cond s e
    match eval s' e with
    | .error err => (s', .error err)
    | .ok v =>
      match mapEvents cond eval es s' with
      | (s'', .ok vs) => (s'', .ok (v :: vs))
      | (s'', .error err) => (s'', .error err)

/-- `_pdf` (conditional.py:104-133): the loop inside `with set_values(params, params)`. -/
def condPdf (cond : List (Nat × Nat)) (eval : Store → List Rat → Except Err R) (events : List (List Rat)) (s : Store) :
    Store × Except Err (List R) :=
  let b := cond.map (fun c => (c.1, (s c.1).value))
  match setAll s b with
  | (s', some e) => (s', .error e)
  | (s', none) =>
    let r := mapEvents cond eval events s'
    match setAll r.1 b with
    | (s'', some e) => (s'', .error e)
    | (s'', none) => (s'', r.2)

/-- `_single_hook_integrate` (conditional.py:146-173): the same loop, not protected. -/
def condIntegrate (cond : List (Nat × Nat)) (eval : Store → List Rat → Except Err R) (events : List (List Rat)) (s : Store) :
    Store × Except Err (List R) := mapEvents cond eval events s

/-- `_single_hook_sample` (conditional.py:175-204): needs as many events in `x` as requested; each drawn event is
followed by the event it was drawn for. -/
def condSample (cond : List (Nat × Nat)) (draw : Store → List Rat → Except Err (List Rat)) (n : Nat)
    (events : List (List Rat)) (s : Store) : Store × Except Err (List (List Rat)) :=
  if n ≠ events.length then (s, .error .invalidArgument)
  else
    match mapEvents cond draw events s with
    | (s', .ok vs) => (s', .ok ((vs.zip events).map (fun p => p.1 ++ p.2)))
    | (s', .error e) => (s', .error e)

end Zfit.Functor
