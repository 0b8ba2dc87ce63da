import Verif.Instances
import Verif.CycleMap.SpecLemmas
/-
A concrete map for the examples beside the theorems: three pairs and a hash function under which everything
collides, over any table implementation.  Where a particular one is needed (`…_false`), `messyRaw` is used.
-/
namespace Verif.CycleMap.Demo
open CycleSpec OptionalPair

variable [RawImpl] [LawfulRaw]

/-- `[(1, 10), (2, 20), (3, 30)].into_iter().collect()` -/
def demo : CycleMap Nat Nat := (fromIter constHash [(1, 10), (2, 20), (3, 30)]).toOption.getD (withHasher constHash)

theorem demo_eq : fromIter constHash [(1, 10), (2, 20), (3, 30)] = .ok demo := by
  obtain ⟨m', e, _⟩ := extend_refines (withHasher_repr constHash) [(1, 10), (2, 20), (3, 30)]
  have : demo = m' := by simp [demo, fromIter, e, Except.toOption]
  rw [this]; exact e

theorem demo_reachable : Reachable demo :=
  .step (op := .extend [(1, 10), (2, 20), (3, 30)]) (o := .unit) (.new constHash) (by simp) (by simp) (by
    have := demo_eq
    simp only [fromIter] at this
    simp only [exec, this]; rfl)

theorem demo_shows : Shows demo [(3, 30), (2, 20), (1, 10)] := by
  obtain ⟨m', e, h, _⟩ := extend_refines (withHasher_repr constHash) [(1, 10), (2, 20), (3, 30)]
  have := demo_eq
  rw [fromIter, e] at this
  cases this
  exact h.shows

theorem demo_hb : demo.hb = constHash := by
  obtain ⟨m', e, _, h, _⟩ := extend_refines (withHasher_repr constHash) [(1, 10), (2, 20), (3, 30)]
  have := demo_eq
  rw [fromIter, e] at this
  cases this
  exact h

end Verif.CycleMap.Demo
