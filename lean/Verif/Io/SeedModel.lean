import Verif.Common.Py
import Mathlib.Data.Nat.Notation

/-!
# Model of `zfit.settings.set_seed`

/repo/zfit/settings.py:13-81.  The derived seeds come from a numpy generator: `np.random.default_rng(seed).integers(…)` is an
arbitrary function `gen` of the seed.  `os.urandom` is a list of numbers that are used up one by one (`generate_urandom_seed`,
84-89).
-/

namespace Zfit.Io

open Zfit

/-- An argument: `None`, `True`, `False` or a number. -/
inductive SeedArg | none | yes | no | num (n : ℕ)
  deriving DecidableEq, Repr

/-- The argument `seed`: `None`, `True` or a number. -/
inductive MainSeed | none | yes | num (n : ℕ)
  deriving DecidableEq, Repr

/-- The seeds of the three generators (`none`: whatever state it is in). -/
structure Generators where
  numpy : Option ℕ
  backend : Option ℕ
  zfit : Option ℕ
  deriving DecidableEq, Repr

/-- What is returned: `zfit`, `numpy`, `backend` (a number, or `False`) and `seed` if it is not `True`. -/
structure Seeds where
  zfit : SeedArg
  numpy : SeedArg
  backend : SeedArg
  seed : Option ℕ
  deriving DecidableEq, Repr

/-- The next random number of the operating system (0 when the model's list is used up). -/
def urandom : List ℕ → ℕ × List ℕ
  | [] => (0, [])
  | n :: rest => (n, rest)

/-- `if numpy is None: numpy = True` (39-44). -/
def orTrue : SeedArg → SeedArg
  | .none => .yes
  | a => a

/-- One derived seed (47-53, 54-60, 69-75): only an argument `True` is replaced, and only then the chain goes on.  Gives the
argument, the seed for the next one and the remaining random numbers. -/
def derive (gen : ℕ → ℕ) (arg : SeedArg) (seed : MainSeed) (ur : List ℕ) : SeedArg × MainSeed × List ℕ :=
  match arg with
  | .yes =>
    match seed with
    | .yes => (.num (urandom ur).1, .yes, (urandom ur).2)
    | .num s => (.num (gen s), .num (gen s), ur)
    | .none => (.num (gen 0), .num (gen 0), ur)
  | a => (a, seed, ur)

/-- `if numpy is not None and numpy is not False: np.random.seed(numpy)` (62-65, 76-77). -/
def applySeed (arg : SeedArg) (old : Option ℕ) : Option ℕ :=
  match arg with
  | .num n => some n
  | _ => old

/-- `set_seed` (36-81). -/
def setSeed (gen : ℕ → ℕ) (ur : List ℕ) (seed : MainSeed) (numpy backend zfit : SeedArg) (g : Generators) :
    Seeds × Generators × List ℕ :=
  let (seed, ur) := match seed with
    | .none => (MainSeed.num (urandom ur).1, (urandom ur).2)
    | s => (s, ur)
  let initial := seed
  let (numpy, seed, ur) := derive gen (orTrue numpy) seed ur
  let (backend, seed, ur) := derive gen (orTrue backend) seed ur
  let (zfit, _, ur) := derive gen (orTrue zfit) seed ur
  ({ zfit := zfit, numpy := numpy, backend := backend,
     seed := match initial with | .num s => some s | _ => none },
   { numpy := applySeed numpy g.numpy, backend := applySeed backend g.backend, zfit := applySeed zfit g.zfit }, ur)

end Zfit.Io
