import Verif.Common.Py
import Verif.Common.Except
import Mathlib.Data.Rat.Defs
import Mathlib.Data.Nat.Notation
import Mathlib.Algebra.BigOperators.Group.List.Basic
import Mathlib.Algebra.Ring.Defs

/-! Model of the helpers of `zfit.z` for functions written by users: `safe_where`, `run_no_nan` and `nth_pow`
(zfit/z/zextension.py), `poly_complex` (zfit/z/math.py) and `sample_with_replacement` (zfit/z/random.py). -/

namespace Zfit.Zh

open Zfit

/-- A number of a tensor: `none` is anything that is not finite (NaN or an infinity). Finite numbers are exact. -/
abbrev Fl (K : Type) := Option K

variable {K : Type}

/-- Product of floats: finite only if both are (`0 * inf` and `0 * nan` are NaN). -/
def Fl.mul [Mul K] : Fl K → Fl K → Fl K
  | some a, some b => some (a * b)
  | _, _ => none

/-- Sum of floats: finite only if both are. -/
def Fl.add [Add K] : Fl K → Fl K → Fl K
  | some a, some b => some (a + b)
  | _, _ => none

/-- An elementwise function of TensorFlow together with what its gradient does: the upstream gradient and the
argument give the gradient of the argument. -/
structure Fn (K : Type) where
  val : Fl K → Fl K
  back : Fl K → Fl K → Fl K

/-- A function with a derivative: the upstream gradient is multiplied by the derivative at the argument. -/
def Fn.smooth [Mul K] (val der : Fl K → Fl K) : Fn K := ⟨val, fun x g => g.mul (der x)⟩

/-- `tf.ones_like`: no gradient flows to its argument. -/
def Fn.ones [Zero K] [One K] : Fn K := ⟨fun _ => some 1, fun _ _ => some 0⟩

/-- `tf.where(condition, x, y)` for one element. -/
def where3 (c : Bool) (x y : Fl K) : Fl K := if c then x else y

/-- zfit/z/zextension.py 111-136 `safe_where`, the value of one element (133-136). -/
def safeWhere1 (c : Bool) (func safeFunc safer : Fn K) (v : Fl K) : Fl K :=
  let safeX := where3 c v (safer.val v)
  where3 c (func.val safeX) (safeFunc.val v)

/-- The gradient of `safe_where` (zextension.py 133-136) for one element, from the gradients of `tf.where`: the upstream gradient goes
to the branch taken and zero to the other one, each is pulled back through its function, and all contributions to
`values` are added. -/
def safeWhereGrad1 [Zero K] [Add K] (c : Bool) (func safeFunc safer : Fn K) (v g : Fl K) : Fl K :=
  let safeX := where3 c v (safer.val v)
  let gSafeX := func.back safeX (where3 c g (some 0))
  let gDirect := where3 c gSafeX (some 0)
  let gSafer := safer.back v (where3 c (some 0) gSafeX)
  let gSafeFunc := safeFunc.back v (where3 c (some 0) g)
  (gDirect.add gSafer).add gSafeFunc

/-- `tf.where(condition, func(values), safe_func(values))` and its gradient, which `safe_where` replaces
(docstring, zextension.py 118). -/
def plainWhereGrad1 [Zero K] [Add K] (c : Bool) (func safeFunc : Fn K) (v g : Fl K) : Fl K :=
  (func.back v (where3 c g (some 0))).add (safeFunc.back v (where3 c (some 0) g))

/-- zfit/z/zextension.py 111-136 `safe_where` for tensors of one dimension; conditions of another shape than the
values (broadcasting) are rejected here. -/
def safeWhere (cond : List Bool) (func safeFunc safer : Fn K) (values : List (Fl K)) : Except Err (List (Fl K)) :=
  if cond.length = values.length then .ok (List.zipWith (fun c v => safeWhere1 c func safeFunc safer v) cond values)
  else .error .invalidArgument

/-- The gradient of `safe_where` with respect to `values`. -/
def safeWhereGrad [Zero K] [Add K] (cond : List Bool) (func safeFunc safer : Fn K) (values upstream : List (Fl K)) :
    Except Err (List (Fl K)) :=
  if cond.length = values.length ∧ upstream.length = values.length then
    .ok (List.zipWith (fun (cg : Bool × Fl K) v => safeWhereGrad1 cg.1 func safeFunc safer v cg.2) (cond.zip upstream) values)
  else .error .invalidArgument

/-! ### run_no_nan -/

/-- `tf.where(isfinite(values))`: the positions of the finite values (zextension.py 145-146). -/
def finiteIdx (vals : List (Fl K)) : List ℕ := (List.range vals.length).filter fun i => ((vals[i]?).map Option.isSome).getD false

/-- `tf.gather_nd(x, indices)` for events. -/
def gather {X : Type} (x : List X) (idx : List ℕ) : Except Err (List X) :=
  idx.mapM fun i => match x[i]? with
    | some v => .ok v
    | none => .error .invalidArgument

/-- `tf.scatter_nd(indices, updates, shape)`: zeros, to which the updates are added at their positions. -/
def scatter [Zero K] [Add K] (idx : List ℕ) (upd : List (Fl K)) (n : ℕ) : Except Err (List (Fl K)) :=
  if idx.length = upd.length then
    (idx.zip upd).foldlM (init := List.replicate n (some 0)) fun out iu => match out[iu.1]? with
      | some v => .ok (out.set iu.1 (v.add iu.2))
      | none => .error .invalidArgument
  else .error .invalidArgument

/-- zfit/z/zextension.py 139-155 `run_no_nan(func, x)`: `func` is called a second time with the events for which the
first call was finite. `func` is any function of the events; its values are real (for complex values only the sum of
real and imaginary part is tested, 143-144). -/
def runNoNan {X : Type} [Zero K] [Add K] (func : List X → List (Fl K)) (x : List X) : Except Err (List (Fl K)) := do
  let first := func x
  let idx := finiteIdx first
  let newX ← gather x idx
  scatter idx (func newX) first.length

/-! ### nth_pow, poly_complex -/

/-- zfit/z/zextension.py 44-60 `nth_pow`: a loop of products. -/
def nthPow [Mul K] [One K] (x : K) (n : ℤ) : Except Err K :=
  if n < 0 then .error .valueError else .ok ((List.range n.toNat).foldl (fun p _ => p * x) 1)

/-- `tf.add_n`. -/
def addN [Add K] : List K → Except Err K
  | [] => .error .valueError
  | a :: l => .ok (l.foldl (· + ·) a)

/-- zfit/z/math.py 27-41 `poly_complex(*args, real_x)`: the last argument is `x`. The power is `znp.power` unless `real_x`
is None (`realX = none`), then `nth_pow`; exact powers are used for both. -/
def polyComplex [Add K] [Mul K] [One K] [Pow K ℕ] (args : List K) (realX : Option Bool) : Except Err K :=
  match args.getLast? with
  | none => .error .indexError
  | some x => do
    let coefs := args.dropLast
    let terms ← ((List.range coefs.length).zip coefs).mapM fun pc => do
      let pw ← match realX with
        | some _ => .ok (x ^ pc.1)
        | none => nthPow x pc.1
      .ok (pc.2 * pw)
    addN terms

/-! ### sample_with_replacement -/

/-- A tensor: its shape and its elements by multi-index. -/
structure Tensor (K : Type) where
  shape : List ℕ
  elem : List ℕ → K

/-- An axis counted from the end if negative. -/
def axisOf (ndim : ℕ) (axis : ℤ) : Except Err ℕ :=
  if 0 ≤ axis ∧ axis < ndim then .ok axis.toNat
  else if axis < 0 ∧ -ndim ≤ axis then .ok (axis + ndim).toNat
  else .error .invalidArgument

/-- The multi-index is inside a shape. -/
def InShape (i shape : List ℕ) : Prop := List.Forall₂ (· < ·) i shape

/-- `tf.gather(a, indices, axis)` for indices of any shape. -/
def gatherAxis (a : Tensor K) (sampleShape : List ℕ) (idx : List ℕ → ℕ) (ax : ℕ) : Tensor K where
  shape := a.shape.take ax ++ sampleShape ++ a.shape.drop (ax + 1)
  elem i := a.elem (i.take ax ++ idx ((i.drop ax).take sampleShape.length) :: i.drop (ax + sampleShape.length))

/-- zfit/z/random.py 34-61 `sample_with_replacement`. `draw d` is what the generator gives: integers from 0 to `d - 1` for the
positions of the sample. Nothing can be drawn from an empty axis. -/
def sampleWithReplacement (draw : ℕ → List ℕ → ℕ) (a : Tensor K) (axis : ℤ) (sampleShape : List ℕ) : Except Err (Tensor K) := do
  let ax ← axisOf a.shape.length axis
  let dim := a.shape.getD ax 0
  if dim = 0 then .error .invalidArgument
  else .ok (gatherAxis a sampleShape (draw dim) ax)

end Zfit.Zh
