import Verif.Instances
import Verif.PartialMap.Simulation
/-
A concrete map for the examples beside the theorems: two pairs, a lone left item and a lone right item, and a
hash function under which everything collides, over any table implementation.
-/
namespace Verif.PartialMap.Demo
open PartialSpec OptionalPair

variable [RawImpl] [LawfulRaw]

def demoItems : List (OptionalPair Nat Nat) := [someBoth 1 10, someBoth 2 20, someLeft 3, someRight 30]

/-- `[SomeBoth(1, 10), SomeBoth(2, 20), SomeLeft(3), SomeRight(30)].into_iter().collect()` -/
def demo : PartialMap Nat Nat := (fromIter constHash demoItems).toOption.getD (withHasher constHash)

theorem demo_eq : fromIter constHash demoItems = .ok demo := by
  obtain ⟨m', e, _⟩ := extend_refines (withHasher_repr constHash) demoItems
  have : demo = m' := by simp [demo, fromIter, e, Except.toOption]
  rw [this]; exact e

theorem demo_reachable : Reachable demo :=
  .step (op := .extend demoItems) (o := .unit) (.new constHash) (by simp) (by simp) (by simp) (by
    have := demo_eq
    simp only [fromIter] at this
    simp only [exec, this]; rfl)

theorem demo_shows : Shows demo [someRight 30, someLeft 3, someBoth 2 20, someBoth 1 10] := by
  obtain ⟨m', e, h, _⟩ := extend_refines (withHasher_repr constHash) demoItems
  have := demo_eq
  rw [fromIter, e] at this
  cases this
  exact h.shows

theorem demo_hb : demo.hb = constHash := by
  obtain ⟨m', e, _, h, _⟩ := extend_refines (withHasher_repr constHash) demoItems
  have := demo_eq
  rw [fromIter, e] at this
  cases this
  exact h

end Verif.PartialMap.Demo
