import Verif.Data.Model

/-!
# Model of saving and loading data: `DataRepr` (/repo/zfit/core/data.py:1127-1172) and `SpaceRepr`
(/repo/zfit/serialization/spacerepr.py), used by `to_dict`/`from_dict` and `to_asdf`/`from_asdf`
(/repo/zfit/core/serialmixin.py).

The document is what `DataRepr.dict()` contains; how pydantic and asdf store it is not modelled (they give back what they
were given).  Labels of spaces, dtypes and hashes are not modelled; numbers are exact.
-/

namespace Zfit.Dat

open Zfit

/-- Data with the two strings a user can give (data.py:131-142, 218): the label defaults to the name, or to "Data". -/
structure Named where
  data : Data
  name : Option String
  label : String
  deriving DecidableEq, Repr

/-- The names `Data.__init__` stores (data.py:218, 232). -/
def Named.make (d : Data) (name label : Option String) : Named := ⟨d, name, label.getD (name.getD "Data")⟩

/-- `SpaceRepr` of a space with one observable (spacerepr.py:17-22). -/
structure SpaceDoc where
  name : String
  lo : Rat
  hi : Rat
  deriving DecidableEq, Repr

/-- `DataRepr` (data.py:1127-1135): there is no field for the label. -/
structure DataDoc where
  data : Tensor
  spaces : List SpaceDoc
  weights : Option (List Rat)
  name : Option String
  deriving DecidableEq, Repr

/-- `[v.get_subspace(o) for o in v.obs]` (data.py:1144-1148), each through `SpaceRepr.from_orm` (spacerepr.py:24-47), which
reads `lower` and `upper`: they raise without limits (space.py:1576-1582) and for a `MultiSpace` (2805-2814). -/
def saveSpaces (s : DSpace) : Except Err (List SpaceDoc) :=
  match s.lims with
  | none => .error .limitsNotSpecified
  | some [leaf] => .ok (List.zipWith (fun o l => ⟨o, l.1, l.2⟩) s.obs leaf)
  | some _ => .error .multipleLimitsNotImplemented

/-- `Data.to_dict` (serialmixin.py:131-141) with the validators of `DataRepr` (data.py:1137-1158). -/
def Named.save (d : Named) : Except Err DataDoc := do
  let v ← d.data.value none
  let spaces ← saveSpaces d.data.space
  return ⟨v.1, spaces, d.data.weights, d.name⟩

/-- `SpaceRepr._to_orm` (spacerepr.py:57-60): `Space(obs=name, limits=(lower, upper))`, which rejects limits in the wrong
order (space.py:392-398). -/
def SpaceDoc.load (s : SpaceDoc) : Except Err DSpace :=
  if s.lo < s.hi then .ok ⟨[s.name], some [[(s.lo, s.hi)]]⟩ else .error .invalidArgument

/-- The product of the loaded spaces (data.py:1166-1170). -/
def loadSpaces (l : List SpaceDoc) : Except Err DSpace := do
  let spaces ← l.mapM SpaceDoc.load
  match spaces with
  | [] => throw .indexError
  | s :: rest => rest.foldlM DSpace.mul s

/-- `Data.from_dict` (serialmixin.py:143-162) with `DataRepr._to_orm` (data.py:1160-1172): `LightDataset(data)` (1786-1797) and
`Data(data=.., obs=.., weights=.., name=..)`, which cuts the data to the limits. -/
def DataDoc.load (doc : DataDoc) : Except Err Named := do
  let space ← loadSpaces doc.spaces
  let d ← Data.make space (.tensor doc.data (List.range doc.data.cols)) doc.weights false
  return Named.make d doc.name none

end Zfit.Dat
