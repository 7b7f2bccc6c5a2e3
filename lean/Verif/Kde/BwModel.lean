import Verif.Kde.Model
import Verif.Common.Except

/-! Model of what the KDE classes of zfit/models/kde.py do with their argument `bandwidth`.

Numbers are exact. The rules themselves (silverman, ... : `Kde/RulesModel.lean`) and the grid (`Kde/Model.lean`) are parameters
here. -/

namespace Zfit.Kde

open Zfit

variable {K : Type} [Field K] [LinearOrder K]

/-- The classes with an argument `bandwidth`: `GaussianKDE1DimV1` (kde.py 584), `KDE1DimExact` (792), `KDE1DimGrid` (1054) and
`KDE1DimFFT` (1358). -/
inductive KdeCls
  | gaussV1
  | exact
  | grid
  | fft
  deriving DecidableEq

/-- The adaptive rules. -/
inductive Adapt
  | geom
  | std
  | zfit
  deriving DecidableEq

/-- A rule for the bandwidth; the adaptive ones exist for events and for grids (kde.py 359-399). -/
inductive BwRule
  | scott
  | silverman
  | isj
  | adaptive (a : Adapt) (onGrid : Bool)
  deriving DecidableEq

/-- The tables `_bandwidth_methods` of the classes (kde.py 451-454, 586-587, 793-801, 1056-1063; `KDE1DimFFT` inherits the one of
`KDEHelper`). -/
def bwMethods : KdeCls → List (String × BwRule)
  | .gaussV1 => [("scott", .scott), ("silverman", .silverman), ("adaptive", .adaptive .std false), ("isj", .isj)]
  | .exact => [("scott", .scott), ("silverman", .silverman), ("adaptive_geom", .adaptive .geom false),
      ("adaptive_std", .adaptive .std false), ("adaptive_zfit", .adaptive .zfit false), ("isj", .isj)]
  | .grid => [("scott", .scott), ("silverman", .silverman), ("adaptive_geom", .adaptive .geom true),
      ("adaptive_zfit", .adaptive .zfit true)]
  | .fft => [("scott", .scott), ("silverman", .silverman)]

/-- A bandwidth: a number, a parameter or an array of one dimension. -/
inductive BwVal (K : Type)
  | num (h : K)
  | par (p : ℕ)
  | arr (h : List K)
  deriving DecidableEq

/-- The argument `bandwidth`. A callable is called with the data and the weights (its other arguments are left out). -/
inductive BwIn (K : Type)
  | none
  | name (s : String)
  | val (v : BwVal K)
  | callable (f : List K → Option (List K) → Except Err (BwVal K))

/-- kde.py 1317-1323 `bw_is_arraylike`. -/
def BwVal.arrayLike (allow1d : Bool) : BwVal K → Bool
  | .arr h => decide (h.length > 1) || allow1d
  | _ => false

/-- `bw_is_arraylike` of the argument: names, callables and None have no shape. -/
def BwIn.arrayLike (allow1d : Bool) : BwIn K → Bool
  | .val v => v.arrayLike allow1d
  | _ => false

/-- kde.py 500-510: the names for which a dummy is reported. -/
def dummyNames : List String := ["adaptiveV1", "adaptive", "adaptive_zfit", "adaptive_std", "adaptive_geom"]

/-- kde.py 483-516 `_convert_input_bandwidth`: the bandwidth used and the value given to the parameter `bandwidth`. -/
def convertBandwidth (cls : KdeCls) (rule : BwRule → List K → Option (List K) → Except Err (BwVal K)) (bw : BwIn K)
    (data : List K) (weights : Option (List K)) : Except Err (BwVal K × BwVal K) := do
  let bw : BwIn K := match bw with
    | .none => .name "silverman"
    | bw => bw
  let used : BwVal K ← match bw with
    | .none => .error .valueError
    | .name s => match dictGet (bwMethods cls) s with
      | some r => rule r data weights
      | none => .error .valueError
    | .val v => .ok v
    | .callable f => f data weights
  let dummy := bw.arrayLike true || (match bw with
    | .name s => decide (s ∈ dummyNames)
    | _ => false)
  .ok (used, if dummy then .num (-999999) else used)

/-- kde.py 420-428 `check_bw_grid_shapes`. -/
def checkGridShape (bw : BwVal K) (n : ℕ) : Except Err Unit :=
  match bw with
  | .arr h => if h.length > 1 then (if h.length ≠ n then .error .shapeIncompatible else .ok ()) else .ok ()
  | _ => .ok ()

/-- The array handed to the padding (kde.py 544, `allow1d=False`). -/
def BwIn.array? : BwIn K → Option (List K)
  | .val (.arr h) => if h.length > 1 then some h else Option.none
  | _ => Option.none

/-- The argument after the padding: the padded array, or what was given (kde.py 579-581). -/
def BwIn.padded (bw : BwIn K) : Option (List K) → BwIn K
  | some h => .val (.arr h)
  | Option.none => bw

/-- What a KDE consists of: the centres of its kernels, the data and weights it was made from, the bandwidth used and the value of
its parameter `bandwidth`. -/
structure KdeOut (K : Type) where
  centres : List K
  data : List K
  weights : Option (List K)
  used : BwVal K
  reported : BwVal K

/-- The constructors up to the bandwidth: `GaussianKDE1DimV1` (kde.py 717-734, no padding), `KDE1DimExact` (971-984, 1009),
`KDE1DimGrid` (1234-1301) and `KDE1DimFFT` (1528-1571). `grid n data` are the points of `generate_1d_grid`. The first argument
`rule` gives the value of a rule for the data and weights. -/
def initKde (rule : BwRule → List K → Option (List K) → Except Err (BwVal K)) (grid : ℕ → List K → List K) (cls : KdeCls)
    (bw : BwIn K) (pad : Padding K) (limits : Option (K × K)) (data : List K) (weights : Option (List K)) (numGrid : ℕ) :
    Except Err (KdeOut K) :=
  match cls with
  | .gaussV1 => do
    let (used, rep) ← convertBandwidth .gaussV1 rule bw data weights
    .ok ⟨data, data, weights, used, rep⟩
  | .exact => do
    let (data, weights, arr) ← padreflect pad limits data weights bw.array?
    let (used, rep) ← convertBandwidth .exact rule (bw.padded arr) data weights
    .ok ⟨data, data, weights, used, rep⟩
  | .grid => do
    let refused : Bool := match bw with
      | .name s => s = "isj" || s = "adaptive_std"
      | _ => false
    if refused then .error .valueError else
    let (data, weights, _) ← padreflect pad limits data weights bw.array?
    let n := min data.length numGrid
    let (used, rep) ← convertBandwidth .grid rule bw data weights
    let _ ← checkGridShape used (grid n data).length
    .ok ⟨grid n data, data, weights, used, rep⟩
  | .fft => do
    match bw with
    | .val (.par _) => .error .typeError
    | bw => do
      let (data, weights, _) ← padreflect pad limits data weights bw.array?
      let (used, _) ← convertBandwidth .fft rule bw data weights
      let n := min data.length numGrid
      let _ ← checkGridShape used n
      .ok ⟨grid n data, data, weights, used, used⟩

end Zfit.Kde
