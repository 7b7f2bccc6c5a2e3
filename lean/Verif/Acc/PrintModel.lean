import Verif.Acc.Model
import Verif.Args.Object

/-!
# The table printed for the parameters of a result

/repo/zfit/minimizers/fitresult.py: `format_value` (1604-1628), `color_on_bool` (1631-1643), `ParamHolder.__str__` (1673-1698).  The layout
by `tabulate`, colours and what Python's format of a number (`g7` for "> 6.7g", `g2` for "> 6.2g") looks like are left out.
-/

namespace Zfit.Acc

open Zfit

/-- What a dictionary of a parameter has under a key: a number, the dictionary of `hesse` with its "error", the one of `errors` with
"lower" and "upper", or something else, which is printed as it is. -/
inductive Entry
  | num (x : ℚ)
  | sym (error : ℚ)
  | asym (lower upper : ℚ)
  | other (text : String)
  deriving DecidableEq, Repr

/-- `" " * (n - len(s)) + s`. -/
def padTo (n : ℕ) (s : String) : String := String.ofList (List.replicate (n - s.length) ' ') ++ s

/-- `f"{np.sign(x): >+}"[0]`. -/
def signOf (x : ℚ) : String := if x < 0 then "-" else "+"

/-- `format_value` (1604-1628) with `highprec=True`; the size of the lower error is taken (1620), not that of the upper one. -/
def formatValue (g7 g2 : ℚ → String) : Entry → String
  | .num x => g7 x
  | .sym e => "+/-" ++ padTo 8 (g2 e)
  | .asym l u => signOf l ++ padTo 7 (g2 |l|) ++ "   " ++ (signOf u ++ padTo 7 (g2 u))
  | .other t => t

/-- `OrderedSet.update`: the new ones at the end. -/
def addNew (acc : List String) (k : String) : List String := if k ∈ acc then acc else acc ++ [k]

/-- The columns (1675-1680): "value" and "hesse" first, then the others in the order in which they appear. -/
def columnKeys (d : List (Key × List (String × Entry))) : List String :=
  let keys := (d.flatMap (fun e => e.2.map (·.1))).foldl addNew []
  keys.foldl addNew (["value", "hesse"].filter (· ∈ keys))

/-- What is given to `tabulate`. -/
structure Table where
  heads : List String
  rows : List (List String)
  deriving DecidableEq, Repr

/-- One row (1683-1694): the name, one cell for each column, and for a parameter, not for the name left by `freeze`, whether it is at its
limit, which is asked of the parameter as it is now. -/
def printRow (g7 g2 : ℚ → String) (obj : Par → Args.PObj) (keys : List String) (e : Key × List (String × Entry)) : List String :=
  e.1.label :: (keys.map (fun k => formatValue g7 g2 ((dictGet e.2 k).getD (.other " "))) ++
    match e.1 with
    | .par p => [if (obj p).atLimit then "True" else "False"]
    | .name _ => [])

/-- `ParamHolder.__str__` (1673-1698); `obj` gives the parameters as they are when the table is printed. -/
def printTable (g7 g2 : ℚ → String) (obj : Par → Args.PObj) (d : List (Key × List (String × Entry))) : Except Err Table :=
  let keys := columnKeys d
  let heads := "name" :: (keys ++ ["at limit"])
  if "value" ∈ heads then
    .ok ⟨heads.set (heads.idxOf "value") "value  (rounded)", d.map (printRow g7 g2 obj keys)⟩
  else .error .valueError

end Zfit.Acc
