import Verif.CycleMap.Simulation
import Verif.PartialMap.Simulation
import Verif.GroupMap.Always
import Verif.Props.CycleDemo
import Verif.Props.PartialDemo
import Verif.Props.GroupDemo
import Verif.Instances
/-! Properties C85 (items are stored under their own hash) for the three maps, and C86 (what holds of every
`GroupMap`, also after the calls that break it). -/
set_option linter.unusedSectionVars false
namespace Verif.CycleMap
variable [RawImpl] [LawfulRaw] {L R : Type} [BEq L] [BEq R] [EquivBEq L] [EquivBEq R]

/-- C85: in both tables every item is stored under its own hash, whatever moved the elements around. -/
theorem C85_hashes {m : CycleMap L R} (h : Reachable m) :
    (∀ e ∈ m.left.entries, e.1 = m.hb.hl e.2.value) ∧ (∀ e ∈ m.right.entries, e.1 = m.hb.hr e.2.value) := by
  obtain ⟨c, hc⟩ := h.repr
  exact ⟨fun e he => (hc.hashesL e he).symm, fun e he => (hc.hashesR e he).symm⟩

open Demo in
example : ∀ e ∈ (demo.reserve 8).left.entries, e.1 = 0 := by
  intro e he
  have := (C85_hashes (.step (op := .reserve 8) demo_reachable (by simp) (by simp) rfl)).1 e he
  rw [this, show (demo.reserve 8).hb = constHash from demo_hb]; rfl

end Verif.CycleMap

namespace Verif.PartialMap
variable [RawImpl] [LawfulRaw] {L R : Type} [BEq L] [BEq R] [EquivBEq L] [EquivBEq R]

/-- C85: in both tables every item is stored under its own hash, whatever moved the elements around. -/
theorem C85_hashes {m : PartialMap L R} (h : Reachable m) :
    (∀ e ∈ m.left.entries, e.1 = m.hb.hl e.2.value) ∧ (∀ e ∈ m.right.entries, e.1 = m.hb.hr e.2.value) := by
  obtain ⟨c, hc⟩ := h.repr
  exact ⟨fun e he => (hc.hashesL e he).symm, fun e he => (hc.hashesR e he).symm⟩

open Demo in
example : ∀ e ∈ (demo.reserveRight 8).right.entries, e.1 = 0 := by
  intro e he
  have := (C85_hashes (.step (op := .reserveRight 8) demo_reachable (by simp) (by simp) (by simp) rfl)).2 e he
  rw [this, show (demo.reserveRight 8).hb = constHash from demo_hb]; rfl

end Verif.PartialMap

namespace Verif.GroupMap
variable [RawImpl] [LawfulRaw] {L R : Type} [BEq L] [BEq R] [EquivBEq L] [EquivBEq R]
variable {m m' : GroupMap L R}

/-- C85: after any history, also one with the calls that break the map, every item is stored under its own hash
in both tables. -/
theorem C85_hashes (n : Nat) (hb : BuildHasher L R) (ops : List (Op L R)) (os : List (Out L R))
    (hc : LawfulClones ops) (h : (withCapacityAndHasher n hb).run ops = .ok (os, m)) :
    (∀ e ∈ m.left.entries, e.1 = hb.hl e.2.value) ∧ (∀ e ∈ m.right.entries, e.1 = hb.hr e.2.value) := by
  obtain ⟨h1, h2⟩ := run_always (withCapacity_always n hb) hc h
  change m.hb = hb at h2
  rw [← h2]
  exact ⟨fun e he => (h1.left.hash e he).symm, fun e he => (h1.right.hash e he).symm⟩

/-- C86: after any history, also one with the calls that break the map, `iter_left` yields no item twice,
`contains_left` and `contains_right` agree with `iter_left` and `iter_right`, and the lengths count them.
(`iter_right` may yield an item twice, see `C66_duplicates`.) -/
theorem C86_items (n : Nat) (hb : BuildHasher L R) (ops : List (Op L R)) (os : List (Out L R))
    (hc : LawfulClones ops) (h : (withCapacityAndHasher n hb).run ops = .ok (os, m)) :
    m.iterLeft.Pairwise (fun a b => (a == b) = false) ∧
    (∀ l, m.containsLeft l = m.iterLeft.any (l == ·)) ∧ (∀ r, m.containsRight r = m.iterRight.any (r == ·)) ∧
    m.lenLeft = m.iterLeft.length ∧ m.lenRight = m.iterRight.length := by
  obtain ⟨h1, -⟩ := run_always (withCapacity_always n hb) hc h
  refine ⟨?_, fun l => ?_, fun r => ?_, ?_, ?_⟩
  · rw [iterLeft, List.pairwise_map, RawTable.toList, List.pairwise_map]
    exact h1.left.apart.imp fun h => h.2
  · rw [containsLeft, h1.left.get_isSome (hash_left m.hb l), iterLeft, List.any_map]
    exact congrArg _ (funext fun x => BEq.comm)
  · rw [containsRight, h1.right.get_isSome (hash_right m.hb r), iterRight, List.any_map]
    exact congrArg _ (funext fun x => BEq.comm)
  · simp [lenLeft, RawTable.len, iterLeft, RawTable.toList]
  · simp [lenRight, RawTable.len, iterRight, RawTable.toList]

/-- C86: after any history no id is in use twice on one side, and all are below the counter. -/
theorem C86_ids (n : Nat) (hb : BuildHasher L R) (ops : List (Op L R)) (os : List (Out L R))
    (hc : LawfulClones ops) (h : (withCapacityAndHasher n hb).run ops = .ok (os, m)) :
    (m.left.toList.map (·.id)).Nodup ∧ (m.right.toList.map (·.id)).Nodup ∧
    (∀ x ∈ m.left.toList, x.id < m.leftCounter) ∧ (∀ x ∈ m.right.toList, x.id < m.rightCounter) := by
  obtain ⟨h1, -⟩ := run_always (withCapacity_always n hb) hc h
  refine ⟨?_, ?_, ?_, ?_⟩
  · rw [List.Nodup, List.pairwise_map, RawTable.toList, List.pairwise_map]
    exact h1.left.apart.imp fun h => h.1
  · rw [List.Nodup, List.pairwise_map, RawTable.toList, List.pairwise_map]
    exact h1.right.apart.imp fun h => h
  · intro x hx
    obtain ⟨e, he, rfl⟩ := List.mem_map.1 hx
    exact h1.left.all e he
  · intro x hx
    obtain ⟨e, he, rfl⟩ := List.mem_map.1 hx
    exact h1.right.all e he

/-- a history that breaks the map: `swap_right_remove` on a group, then more calls -/
def Demo.breaking : List (Op Nat Nat) :=
  [.insert 1 10, .insert 2 10, .swapRightRemove 10 20, .insertRight 30, .insert 3 30, .swapRight 30 20, .removeLeft 3]

open Demo in
/-- the hypotheses of C85 and C86 are met by a map that is broken indeed: 1 is there but has no partner,
and 20 is there twice -/
example : letI := messyRaw
    ∃ os m, (withCapacityAndHasher 4 spreadHash).run breaking = .ok (os, m) ∧ LawfulClones breaking ∧
      m.getRight 1 = none ∧ m.containsLeft 1 = true ∧ m.iterLeft.length = 2 ∧ m.iterRight.count 20 = 2 := by
  letI := messyRaw
  refine ⟨_, _, rfl, fun cl cr h => by simp [breaking] at h, ?_, ?_, ?_, ?_⟩ <;> decide

end Verif.GroupMap
