import Verif.Swiss.Good
import Verif.CycleMap.Closed
import Verif.CycleMap.Always
import Verif.PartialMap.Closed
import Verif.GroupMap.Closed
import Verif.Props.CycleBasic
import Verif.Props.PartialBasic
import Verif.Props.GroupBasic
/-! Property C94: the hash table with control bytes, group probing, tombstones and load limit (`Verif/Swiss/Table.lean`)
meets the contract under which the other properties are proved, and the maps keep its tables in order. -/
set_option linter.unusedSectionVars false
namespace Verif.Swiss
variable {T : Type} {w : Nat}

/-- What is asked of a table at work: its slots hold its elements in iteration order, some slot is `EMPTY` (so that
the probe loop of a search for an absent element ends), the load limit is respected, a search probes the control
bytes and does nothing else, and it finds whatever is there. -/
structure Healthy (w : Nat) (t : RawTable T) : Prop where
  items : Swiss.items (slots w t) = t.entries
  empty : ∃ i, emptyAt (slots w t) i = true
  load : used (slots w t) ≤ capOf (slots w t).length
  probe : ∀ h p, @RawImpl.find (swissRaw w) T t h p = (findSlot w (slots w t) h p).map (rank (slots w t))
  found : ∀ e ∈ t.entries, ∀ p : T → Bool, p e.2 = true → (findSlot w (slots w t) e.1 p).isSome = true

theorem Good.healthy {t : RawTable T} (h : Good w t) : Healthy w t := by
  have hf := find_eq_probe h
  obtain ⟨s, hs, rfl⟩ := h
  have e := slots_ofSlots (w := w) hs.toSound
  refine ⟨?_, ?_, ?_, hf, ?_⟩
  · rw [e]; rfl
  · rw [e]
    by_contra hc
    have h1 : used s = s.length := by
      rw [used, List.countP_eq_length]
      intro x hx
      obtain ⟨i, hi⟩ := List.getElem?_of_mem hx
      cases hx : x.isEmpty with
      | false => rfl
      | true => exact (hc ⟨i, by simp [emptyAt, hi, hx]⟩).elim
    have h2 := hs.load
    obtain ⟨m, hm⟩ := hs.pow
    have h3 : 0 < 2 ^ m := Nat.two_pow_pos m
    rw [h1, capOf] at h2
    split at h2 <;> omega
  · rw [e]; exact hs.load
  · intro a ha p hp
    rw [e]
    obtain ⟨x, hx, hxe⟩ := List.mem_filterMap.1 (show a ∈ Swiss.items s from ha)
    obtain ⟨i, hi⟩ := List.getElem?_of_mem hx
    cases x with
    | empty => cases hxe
    | deleted => cases hxe
    | full b =>
      cases hxe
      exact Option.isSome_iff_ne_none.2 (hs.findSlot_complete hi hp)

/-- C94: for every group width, the table meets the contract on `find` and the mutations, and the one on capacity. -/
theorem C94_contract (w : Nat) : @LawfulRaw (swissRaw w) ∧ @LawfulCap (swissRaw w) := ⟨swissRaw_lawful w, swissRaw_cap w⟩

variable {L R : Type} [BEq L] [BEq R] [EquivBEq L] [EquivBEq R]

/-- C94: in every reachable `CycleMap` both tables are healthy. -/
theorem C94_cycle_tables {m : CycleMap L R} (h : @CycleMap.Reachable (swissRaw w) L R _ _ m) :
    Healthy w m.left ∧ Healthy w m.right := by
  have := @CycleMap.Reachable.closed (swissRaw w) (swissRaw_lawful w) L R _ _ m _ (good_closed w) _ _ h
  exact ⟨this.1.healthy, this.2.healthy⟩

/-- C94: in every `CycleMap`, after any history, also one with a `drain` that was dropped early, both tables are
healthy. -/
theorem C94_cycle_tables_always {m : CycleMap L R} (n : Nat) (hb : BuildHasher L R) (ops : List (CycleMap.Op L R))
    (os : List (CycleMap.Out L R)) (hc : CycleMap.LawfulClones ops)
    (h : @CycleMap.run (swissRaw w) L R _ _ (@CycleMap.withCapacityAndHasher (swissRaw w) L R _ _ n hb) ops = .ok (os, m)) :
    Healthy w m.left ∧ Healthy w m.right := by
  have := @CycleMap.run_keeps (swissRaw w) (swissRaw_lawful w) L R _ _ _ _ _ m _ (good_closed w)
    (@CycleMap.withCapacity_always (swissRaw w) (swissRaw_lawful w) L R _ _ _ _ n hb) _ _ hc h
  exact ⟨(this.1.imp (good_new n)).healthy, (this.2.imp (good_new n)).healthy⟩

/-- C94: in every reachable `PartialCycleMap` both tables are healthy. -/
theorem C94_partial_tables {m : PartialMap L R} (h : @PartialMap.Reachable (swissRaw w) L R _ _ m) :
    Healthy w m.left ∧ Healthy w m.right := by
  have := @PartialMap.Reachable.closed (swissRaw w) (swissRaw_lawful w) L R _ _ m _ (good_closed w) _ _ h
  exact ⟨this.1.healthy, this.2.healthy⟩

/-- C94: in every `GroupMap`, after any history, also one with calls that break the map, both tables are healthy. -/
theorem C94_group_tables {m : GroupMap L R} (n : Nat) (hb : BuildHasher L R) (ops : List (GroupMap.Op L R))
    (os : List (GroupMap.Out L R))
    (h : @GroupMap.run (swissRaw w) L R _ _ (@GroupMap.withCapacityAndHasher (swissRaw w) L R _ _ n hb) ops = .ok (os, m)) :
    Healthy w m.left ∧ Healthy w m.right := by
  have := @GroupMap.run_keeps (swissRaw w) (swissRaw_lawful w) L R _ _ _ m _ (good_closed w) _ _ h
  exact ⟨(this.1.imp (good_new n)).healthy, (this.2.imp (good_new n)).healthy⟩

/-- C94: on this table, with nothing assumed about tables, every safe history of a `CycleMap` goes on without a panic
and with the results of a list of pairs. -/
theorem C94_cycle_history (w : Nat) (hb : BuildHasher L R) (ops : List (CycleMap.Op L R)) (hs : CycleMap.SafeRun [] ops) :
    ∃ os m' c', @CycleMap.run (swissRaw w) L R _ _ (@CycleMap.withHasher (swissRaw w) L R _ _ hb) ops = .ok (os, m') ∧
      CycleMap.Steps [] ops os c' ∧ @CycleMap.Shows (swissRaw w) L R _ _ m' c' :=
  @CycleMap.C05_history (swissRaw w) (swissRaw_lawful w) L R _ _ _ _ hb ops hs

/-- C94: the same for `PartialCycleMap`. -/
theorem C94_partial_history (w : Nat) (hb : BuildHasher L R) (ops : List (PartialMap.Op L R))
    (hs : PartialMap.SafeRun hb [] ops) :
    ∃ os m' c', @PartialMap.run (swissRaw w) L R _ _ (@PartialMap.withHasher (swissRaw w) L R _ _ hb) ops = .ok (os, m') ∧
      PartialMap.Steps [] ops os c' ∧ @PartialMap.Shows (swissRaw w) L R _ _ m' c' :=
  @PartialMap.C34_history (swissRaw w) (swissRaw_lawful w) L R _ _ _ _ hb ops hs

/-- C94: the same for `GroupMap`. -/
theorem C94_group_history (w : Nat) (hb : BuildHasher L R) (ops : List (GroupMap.Op L R))
    (hs : GroupMap.SafeRun GroupSpec.empty ops) :
    ∃ os m' c', @GroupMap.run (swissRaw w) L R _ _ (@GroupMap.withHasher (swissRaw w) L R _ _ hb) ops = .ok (os, m') ∧
      GroupMap.Steps GroupSpec.empty ops os c' ∧ @GroupMap.Shows (swissRaw w) L R _ _ m' c' :=
  @GroupMap.C60_history (swissRaw w) (swissRaw_lawful w) L R _ _ _ _ hb ops hs

/-- a map on the table with groups of 16 slots, all of whose items collide -/
example : Healthy 4 (@CycleMap.Demo.demo (swissRaw 4)).left :=
  (C94_cycle_tables (@CycleMap.Demo.demo_reachable (swissRaw 4) (swissRaw_lawful 4))).1

example : Healthy 1 (@PartialMap.Demo.demo (swissRaw 1)).right :=
  (C94_partial_tables (@PartialMap.Demo.demo_reachable (swissRaw 1) (swissRaw_lawful 1))).2

example : ∃ os m' c', @CycleMap.run (swissRaw 4) Nat Nat _ _ (@CycleMap.withHasher (swissRaw 4) Nat Nat _ _ constHash)
      [.insert 1 10, .insert 2 20, .insert 2 10, .swapRight 10 30] = .ok (os, m') ∧
    CycleMap.Steps [] [.insert 1 10, .insert 2 20, .insert 2 10, .swapRight 10 30] os c' ∧
    @CycleMap.Shows (swissRaw 4) Nat Nat _ _ m' c' :=
  C94_cycle_history 4 constHash _ (by simp [CycleMap.SafeRun, CycleMap.Safe])

end Verif.Swiss
