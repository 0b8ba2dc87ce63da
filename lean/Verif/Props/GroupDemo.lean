import Verif.Instances
import Verif.GroupMap.Torn
/-
A concrete map for the examples beside the theorems: a group of two, a group of one, a lone right item, and a hash
function under which everything collides, over any table implementation.
-/
namespace Verif.GroupMap.Demo
open GroupSpec

variable [RawImpl] [LawfulRaw]

def demoItems : List (Option Nat × Nat) := [(some 1, 10), (some 2, 10), (some 3, 20), (none, 30)]

/-- `[(Some(1), 10), (Some(2), 10), (Some(3), 20), (None, 30)].into_iter().collect()` -/
def demo : GroupMap Nat Nat := (fromIterOpt constHash demoItems).toOption.getD (withHasher constHash)

/-- its contents: the right items, and the pairs -/
def demoC : Contents Nat Nat := ⟨[30, 20, 10], [(3, 20), (2, 10), (1, 10)]⟩

theorem demo_new : NewPairs (GroupSpec.empty : Contents Nat Nat) demoItems := by
  simp [NewPairs, demoItems, hasPair, GroupSpec.empty, GroupSpec.insert, findR, findL, eraseL]

theorem demo_refines : ∃ m', fromIterOpt constHash demoItems = .ok m' ∧ Repr m' demoC ∧ m'.hb = constHash := by
  obtain ⟨m', e, h, n⟩ := extendOpt_refines (withHasher_repr constHash) demoItems demo_new
  exact ⟨m', e, h, n.hb⟩

theorem demo_eq : fromIterOpt constHash demoItems = .ok demo := by
  obtain ⟨m', e, _⟩ := demo_refines
  have : demo = m' := by simp [demo, e, Except.toOption]
  rw [this]; exact e

theorem demo_reachable : Reachable demo :=
  (Reachable.new constHash).extendOpt (withHasher_repr constHash) demoItems demo_new demo_eq

theorem demo_repr : Repr demo demoC := by
  obtain ⟨m', e, h, _⟩ := demo_refines
  rw [demo_eq] at e
  cases e
  exact h

theorem demo_shows : Shows demo demoC := demo_repr.shows

theorem demo_hb : demo.hb = constHash := by
  obtain ⟨m', e, _, h⟩ := demo_refines
  rw [demo_eq] at e
  cases e
  exact h

end Verif.GroupMap.Demo
