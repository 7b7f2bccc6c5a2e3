import Verif.Io.SeedModel

/-! Properties of `set_seed` (C65). -/

namespace Zfit.Io

open Zfit

/-- A generator is left alone when its argument is `False`. -/
def disabled (a : SeedArg) : Prop := a = .no

/-- C65: with a given seed the result does not depend on the state of the generators or on the operating system: what is
returned is the same, and every generator that is not switched off is in the same state afterwards. -/
theorem set_seed_reproducible (gen : ℕ → ℕ) (ur ur' : List ℕ) (s : ℕ) (numpy backend zfit : SeedArg) (g g' : Generators) :
    (setSeed gen ur (.num s) numpy backend zfit g).1 = (setSeed gen ur' (.num s) numpy backend zfit g').1 ∧
    (numpy ≠ .no → (setSeed gen ur (.num s) numpy backend zfit g).2.1.numpy
      = (setSeed gen ur' (.num s) numpy backend zfit g').2.1.numpy) ∧
    (backend ≠ .no → (setSeed gen ur (.num s) numpy backend zfit g).2.1.backend
      = (setSeed gen ur' (.num s) numpy backend zfit g').2.1.backend) ∧
    (zfit ≠ .no → (setSeed gen ur (.num s) numpy backend zfit g).2.1.zfit
      = (setSeed gen ur' (.num s) numpy backend zfit g').2.1.zfit) := by
  refine ⟨?_, ?_, ?_, ?_⟩
  · cases numpy <;> cases backend <;> cases zfit <;> rfl
  · intro h
    cases numpy with
    | no => exact (h rfl).elim
    | _ => rfl
  · intro h
    cases backend with
    | no => exact (h rfl).elim
    | _ => cases numpy <;> rfl
  · intro h
    cases zfit with
    | no => exact (h rfl).elim
    | _ => cases numpy <;> cases backend <;> rfl

/-- C65: a generator that is switched off is not touched and `False` is returned for it; any other gets exactly the seed
that is returned. -/
theorem set_seed_returned (gen : ℕ → ℕ) (ur : List ℕ) (seed : MainSeed) (numpy backend zfit : SeedArg) (g : Generators) :
    (if numpy = .no then (setSeed gen ur seed numpy backend zfit g).2.1.numpy = g.numpy ∧
        (setSeed gen ur seed numpy backend zfit g).1.numpy = .no
      else ∃ n, (setSeed gen ur seed numpy backend zfit g).2.1.numpy = some n ∧
        (setSeed gen ur seed numpy backend zfit g).1.numpy = .num n) ∧
    (if backend = .no then (setSeed gen ur seed numpy backend zfit g).2.1.backend = g.backend ∧
        (setSeed gen ur seed numpy backend zfit g).1.backend = .no
      else ∃ n, (setSeed gen ur seed numpy backend zfit g).2.1.backend = some n ∧
        (setSeed gen ur seed numpy backend zfit g).1.backend = .num n) ∧
    (if zfit = .no then (setSeed gen ur seed numpy backend zfit g).2.1.zfit = g.zfit ∧
        (setSeed gen ur seed numpy backend zfit g).1.zfit = .no
      else ∃ n, (setSeed gen ur seed numpy backend zfit g).2.1.zfit = some n ∧
        (setSeed gen ur seed numpy backend zfit g).1.zfit = .num n) := by
  have key : ∀ (a : SeedArg) (s : MainSeed) (ur : List ℕ) (old : Option ℕ),
      if a = .no then applySeed (derive gen (orTrue a) s ur).1 old = old ∧ (derive gen (orTrue a) s ur).1 = .no
      else ∃ n, applySeed (derive gen (orTrue a) s ur).1 old = some n ∧ (derive gen (orTrue a) s ur).1 = .num n := by
    intro a s ur old
    cases a with
    | no => simp [orTrue, derive, applySeed]
    | num n => simp [orTrue, derive, applySeed]
    | none => cases s <;> simp [orTrue, derive, applySeed]
    | yes => cases s <;> simp [orTrue, derive, applySeed]
  unfold setSeed
  refine ⟨key _ _ _ _, key _ _ _ _, key _ _ _ _⟩

/-- C65: a given number is used as it is. -/
theorem set_seed_explicit (gen : ℕ → ℕ) (ur : List ℕ) (seed : MainSeed) (numpy backend zfit : SeedArg) (g : Generators) (n : ℕ) :
    (numpy = .num n → (setSeed gen ur seed numpy backend zfit g).2.1.numpy = some n) ∧
    (backend = .num n → (setSeed gen ur seed numpy backend zfit g).2.1.backend = some n) ∧
    (zfit = .num n → (setSeed gen ur seed numpy backend zfit g).2.1.zfit = some n) := by
  refine ⟨?_, ?_, ?_⟩ <;> rintro rfl <;> rfl

/-- C65: what was returned by a call without seed can be used to repeat it: giving the returned `seed` and the same flags
sets the same seeds, in any later state. -/
theorem set_seed_rerun (gen : ℕ → ℕ) (ur ur' : List ℕ) (numpy backend zfit : SeedArg) (g g' : Generators) (s : ℕ)
    (hs : (setSeed gen ur .none numpy backend zfit g).1.seed = some s) :
    (setSeed gen ur' (.num s) numpy backend zfit g').1 = (setSeed gen ur .none numpy backend zfit g).1 := by
  have e : s = (urandom ur).1 := by
    simp only [setSeed, Option.some.injEq] at hs
    exact hs.symm
  subst e
  cases numpy <;> cases backend <;> cases zfit <;> rfl

/-- C65: or the returned seeds themselves can be given. -/
theorem set_seed_restore (gen : ℕ → ℕ) (ur ur' : List ℕ) (seed seed' : MainSeed) (numpy backend zfit : SeedArg)
    (g g' : Generators) :
    let r := (setSeed gen ur seed numpy backend zfit g).1
    let g1 := (setSeed gen ur seed numpy backend zfit g).2.1
    let g2 := (setSeed gen ur' seed' r.numpy r.backend r.zfit g').2.1
    (numpy ≠ .no → g2.numpy = g1.numpy) ∧ (backend ≠ .no → g2.backend = g1.backend) ∧ (zfit ≠ .no → g2.zfit = g1.zfit) := by
  intro r g1 g2
  obtain ⟨h1, h2, h3⟩ := set_seed_returned gen ur seed numpy backend zfit g
  refine ⟨fun hn => ?_, fun hn => ?_, fun hn => ?_⟩
  · rw [if_neg hn] at h1
    obtain ⟨n, ha, hb⟩ := h1
    rw [show g1.numpy = some n from ha]
    exact (set_seed_explicit gen ur' seed' r.numpy r.backend r.zfit g' n).1 hb
  · rw [if_neg hn] at h2
    obtain ⟨n, ha, hb⟩ := h2
    rw [show g1.backend = some n from ha]
    exact (set_seed_explicit gen ur' seed' r.numpy r.backend r.zfit g' n).2.1 hb
  · rw [if_neg hn] at h3
    obtain ⟨n, ha, hb⟩ := h3
    rw [show g1.zfit = some n from ha]
    exact (set_seed_explicit gen ur' seed' r.numpy r.backend r.zfit g' n).2.2 hb

/-- C65: which seeds are used. With a given seed the three are a chain of derived seeds, in the order numpy, backend, zfit; with
`seed=True` they are successive random numbers of the operating system. -/
theorem set_seed_chain (gen : ℕ → ℕ) (numpy backend zfit : SeedArg) (g : Generators) (hn : numpy = .none ∨ numpy = .yes)
    (hb : backend = .none ∨ backend = .yes) (hz : zfit = .none ∨ zfit = .yes) :
    (∀ s ur, (setSeed gen ur (.num s) numpy backend zfit g).2.1 = ⟨some (gen s), some (gen (gen s)), some (gen (gen (gen s)))⟩) ∧
    (∀ a b c ur, (setSeed gen (a :: b :: c :: ur) .yes numpy backend zfit g).2 = (⟨some a, some b, some c⟩, ur)) ∧
    (∀ a ur, (setSeed gen (a :: ur) .none numpy backend zfit g).2 = (⟨some (gen a), some (gen (gen a)), some (gen (gen (gen a)))⟩, ur)
      ∧ (setSeed gen (a :: ur) .none numpy backend zfit g).1.seed = some a) := by
  rcases hn with rfl | rfl <;> rcases hb with rfl | rfl <;> rcases hz with rfl | rfl <;>
    exact ⟨fun _ _ => rfl, fun _ _ _ _ => rfl, fun _ _ => ⟨rfl, rfl⟩⟩

/-- An example: numpy switched off, the others derived one after the other. -/
example : setSeed (fun s => s + 1) [] (.num 10) .no .none .yes ⟨some 5, none, none⟩
    = (⟨.num 12, .no, .num 11, some 10⟩, ⟨some 5, some 11, some 12⟩, []) := by decide

end Zfit.Io
