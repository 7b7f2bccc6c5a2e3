import Verif.Data.Model

/-!
# Data and tables: `to_pandas`, `from_pandas`, `from_root`, reading single columns

/repo/zfit/core/data.py.  A table (a `pd.DataFrame`, the branches of a tree in a file) is the list of its columns with different names,
in order; the index of a DataFrame plays no role.  Everything else is as in Verif/Data/Model.lean.
-/

namespace Zfit.Frame

open Zfit Zfit.Dat

/-- The columns of a table by name. -/
abbrev Table := List (String × List Rat)

def Table.names (t : Table) : List String := t.map (·.1)

/-! ## Reading -/

/-- What reading gives: an array of one column per observable, or a single column, or a list of columns. -/
inductive Read
  | array (t : Tensor)
  | column (c : List Rat)
  | columns (l : List (List Rat))
  deriving DecidableEq, Repr

/-- `znp.squeeze(out, axis=-1)`: only for one column. -/
def squeeze (t : Tensor) : Except Err (List Rat) :=
  if t.cols = 1 then .ok (t.rows.map fun r => r.headD 0) else .error .invalidArgument

/-- `Data.value(obs)` with a string (data.py:948-975). -/
def column (d : Data) (o : String) : Except Err (List Rat × Data) := do
  let r ← d.value (some [o])
  return (← squeeze r.1, r.2)

/-- `Data.value(axis=…)` (data.py:960-975): axes as integers, a single one or several. -/
def valueAxis (d : Data) (axes : List Nat) : Except Err (List Rat × Data) :=
  if axes.any (fun a => decide (d.space.obs.length ≤ a)) then .error .valueError
  else do
    let r ← d.ds.value (some axes)
    return (← squeeze r.1, { d with ds := r.2 })

/-- `[self.value(obs=ob) for ob in obs_str]` (data.py:943), with the data after it. -/
def columns : Data → List String → Except Err (List (List Rat) × Data)
  | d, [] => .ok ([], d)
  | d, o :: os => do
    let r ← column d o
    let rest ← columns r.2 os
    return (r.1 :: rest.1, rest.2)

/-- What can be asked for: nothing, one name, several names. -/
inductive Ask
  | all
  | one (o : String)
  | many (l : List String)
  deriving DecidableEq, Repr

/-- `obs_str` (data.py:933-939). -/
def Ask.strs (own : List String) : Ask → List String
  | .all => own
  | .one o => [o]
  | .many l => l

/-- The test for unknown names (data.py:940-942), not made if nothing was given. -/
def Ask.known (own : List String) : Ask → Bool
  | .all => true
  | .one o => decide (o ∈ own)
  | .many l => l.all fun o => decide (o ∈ own)

/-- Whether a single column comes back and not a list (data.py:934-937, 944-945). -/
def Ask.noList (own : List String) (alwaysList : Bool) : Ask → Bool
  | .all => decide (own.length = 1)
  | .one _ => !alwaysList
  | .many _ => false

/-- `unstack_x` (data.py:920-946). -/
def unstack (d : Data) (ask : Ask) (alwaysList : Bool) : Except Err (Read × Data) :=
  if !ask.known d.space.obs then .error .obsIncompatible
  else do
    let r ← columns d (ask.strs d.space.obs)
    return (if ask.noList d.space.obs alwaysList then .column (r.1.headD []) else .columns r.1, r.2)

/-- `Data.value(obs)` (data.py:948-975). -/
def value (d : Data) : Ask → Except Err (Read × Data)
  | .all => do
    let r ← d.value none
    return (.array r.1, r.2)
  | .one o => do
    let r ← column d o
    return (.column r.1, r.2)
  | .many l => do
    let r ← d.value (some l)
    return (.array r.1, r.2)

/-- `data[item]` (data.py:1101-1114, 1173-1176): every exception becomes a `RuntimeError`.  An integer is an axis. -/
def getItem (d : Data) (ask : Ask) : Except Err (Read × Data) :=
  match value d ask with
  | .error _ => .error .runtimeError
  | .ok r => .ok r

/-! ## Tables -/

/-- `{ob: self.value(obs=ob) for ob in obs_str}` (data.py:912). -/
def collect : Data → List String → Table → Except Err (Table × Data)
  | d, [], acc => .ok (acc, d)
  | d, o :: os, acc => do
    let r ← column d o
    collect r.2 os (dictSet acc o r.1)

/-- `pd.DataFrame.from_dict`: all columns have to be equally long. -/
def frame (t : Table) : Except Err Table :=
  if t.all fun c => decide (c.2.length = ((t.head?.map (·.2)).getD []).length) then .ok t else .error .valueError

/-- `to_pandas` (data.py:899-918). -/
def toPandas (d : Data) (obs : Option (List String)) (weightsname : Option String) : Except Err (Table × Data) := do
  let r ← collect d (obs.getD d.space.obs) []
  let t ← frame (match d.weights with
    | none => r.1
    | some w => dictSet r.1 (weightsname.getD "") w)
  return (t, r.2)

/-- The argument `weights`: nothing, the name of a column, or an array. -/
inductive WArg
  | none
  | column (name : String)
  | array (w : List Rat)
  deriving DecidableEq, Repr

/-- The part of `from_pandas` where the weights are a column (data.py:505-508): the column is not an observable. -/
def withColumn (df : Table) (space : DSpace) (c : String) (guarantee : Bool) : Except Err Data := do
  let s ← space.withObs (space.obs.filter fun o => o ≠ c)
  Data.fromMapping s df (dictGet df c) guarantee

/-- `from_pandas` (data.py:423-523) of a DataFrame; without `obs` all columns are observables. -/
def fromPandas (df : Table) (obs : Option DSpace) (weights : WArg) (guarantee : Bool) : Except Err Data :=
  let space := obs.getD ⟨df.names, none⟩
  if space.obs.any fun o => decide (o ∉ df.names) then .error .valueError
  else
    match weights with
    | .array w => Data.fromMapping space df (some w) guarantee
    | .none => if "" ∈ df.names then withColumn df space "" guarantee else Data.fromMapping space df none guarantee
    | .column c => if c ∈ df.names then withColumn df space c guarantee else .error .valueError

/-- `from_pandas` of a `pd.Series`: it has no `columns`, which are asked for before it is converted (data.py:488-491). -/
def fromSeries (name : String) (col : List Rat) (obs : Option DSpace) (weights : WArg) (guarantee : Bool) : Except Err Data :=
  match obs with
  | none => .error .attributeError
  | some s => fromPandas [(name, col)] (some s) weights guarantee

/-- The columns of the branches, as `data[branches].to_numpy()`; a branch that the tree does not have is an exception of `uproot`. -/
def branchesOf (tree : Table) (branches : List String) : Except Err Tensor := do
  let cols ← branches.mapM fun b => (dictGet tree b).elim (.error .keyError) .ok
  stackCols cols

/-- `from_root` (data.py:605-692) with the tree as a table; `aliases` (`obs_alias`) maps observables to branches. -/
def fromRoot (tree : Table) (obs : Option DSpace) (aliases : Option (List (String × String))) (weights : WArg) : Except Err Data :=
  match obs, aliases with
  | none, none => .error .valueError
  | _, _ =>
    let al := aliases.getD []
    let space := obs.getD ⟨al.map (·.2), none⟩
    let branches := space.obs.map fun o => (dictGet al o).getD o
    do
      let t ← branchesOf tree branches
      let w ← match weights with
        | .column c => (dictGet tree c).elim (.error .keyError) fun w => .ok (some w)
        | .array w => .ok (some w)
        | .none => .ok none
      Data.fromTensor space t w false

end Zfit.Frame
