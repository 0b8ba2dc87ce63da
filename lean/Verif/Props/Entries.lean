import Verif.CycleMap.Always
import Verif.PartialMap.Always
import Verif.GroupMap.Always
import Verif.Props.Always
import Verif.Props.Storage
/-! Property C116: `Eq`, `Hash`, `Clone` and `extract` of the entries the tables are made of. -/
set_option linter.unusedSectionVars false
namespace Verif.CycleMap
variable [RawImpl] [LawfulRaw] {L R T : Type} [BEq L] [BEq R] [EquivBEq L] [EquivBEq R] [BEq T] [EquivBEq T]

/-- C116: equality of entries is an equivalence relation, two of them are equal exactly if they have the same id and
hold equal items, and equal ones hash equally (the contract between `Eq` and `Hash`). -/
theorem C116_entry_eq (x y z : MappingPair T) :
    x.beq x = true ∧ x.beq y = y.beq x ∧ (x.beq y = true → y.beq z = true → x.beq z = true) ∧
    (x.beq y = true ↔ x.id = y.id ∧ (x.extract == y.extract) = true) ∧
    (∀ h : T → UInt64, (∀ a b, (a == b) = true → h a = h b) → x.beq y = true → x.hashWith h = y.hashWith h) := by
  refine ⟨by simp [MappingPair.beq], ?_, ?_, by simp [MappingPair.beq, MappingPair.extract], ?_⟩
  · simp only [MappingPair.beq, BEq.comm (a := x.value), BEq.comm (a := x.id)]
  · simp only [MappingPair.beq, Bool.and_eq_true, beq_iff_eq]
    exact fun a b => ⟨a.1.trans b.1, BEq.trans a.2 b.2⟩
  · simp only [MappingPair.beq, Bool.and_eq_true]
    exact fun h hh a => hh _ _ a.2

/-- C116: comparing an entry with an item is comparing what `extract` gives, with the same answer as the predicate
under which the tables are searched; a clone is equal to the original and refers to the same partner, provided the
clone of the item is equal to the item. -/
theorem C116_entry_item (x : MappingPair T) (c : T → T) (hc : ∀ a, (c a == a) = true) :
    (∀ a : T, x.beqItem a = (x.extract == a) ∧ x.beqItem a = equivalentKey a x) ∧
    (x.clone c).beq x = true ∧ (x.clone c).extract = c x.extract ∧ (x.clone c).hash = x.hash := by
  refine ⟨fun a => ⟨rfl, BEq.comm⟩, ?_, rfl, rfl⟩
  simp [MappingPair.beq, MappingPair.clone, hc]

/-- entries of different pairings are different although they hold equal items; entries of one pairing with a different
record of the partner's hash are equal -/
example : (⟨5, 7, 0⟩ : MappingPair Nat).beq ⟨5, 7, 1⟩ = false ∧ (⟨5, 7, 1⟩ : MappingPair Nat).beq ⟨5, 8, 1⟩ = true ∧
    ((⟨5, 7, 1⟩ : MappingPair Nat).clone id).beqItem 5 = true :=
  ⟨by decide, by decide, by rw [((C116_entry_item _ id (by simp)).1 5).1]; rfl⟩

/-- C116: after any history, also one with the calls that break the map, no two of the entries stored in one table
are equal. -/
theorem C116_entries_differ {m : CycleMap L R} (n : Nat) (hb : BuildHasher L R) (ops : List (Op L R)) (os : List (Out L R))
    (hc : LawfulClones ops) (h : (withCapacityAndHasher n hb).run ops = .ok (os, m)) :
    m.left.toList.Pairwise (fun x y => x.beq y = false) ∧ m.right.toList.Pairwise (fun x y => x.beq y = false) := by
  obtain ⟨h1, -⟩ := run_always (withCapacity_always n hb) hc h
  refine ⟨?_, ?_⟩
  · rw [RawTable.toList, List.pairwise_map]
    refine h1.left.apart.imp fun h => ?_
    simp [MappingPair.beq, h.2]
  · rw [RawTable.toList, List.pairwise_map]
    refine h1.right.apart.imp fun h => ?_
    simp [MappingPair.beq, show _ = _ from h]

open Demo in
/-- with the history `breaking`: both tables hold several entries, none equal to another -/
example : letI := messyRaw
    ∃ os m, (withCapacityAndHasher 4 spreadHash).run breaking = .ok (os, m) ∧
      m.left.toList.Pairwise (fun x y => x.beq y = false) ∧ 2 ≤ m.left.len ∧ 2 ≤ m.right.len := by
  let _ := messyRaw
  have := messyRaw_lawful
  obtain ⟨x, e, h⟩ := ran (e := (withCapacityAndHasher 4 spreadHash).run breaking)
    (p := fun x => decide (2 ≤ x.2.left.len ∧ 2 ≤ x.2.right.len)) (by decide +kernel)
  have hd := C116_entries_differ 4 spreadHash breaking _ (fun cl cr h => by simp [breaking] at h) e
  simp only [decide_eq_true_eq] at h
  exact ⟨_, _, e, hd.1, h.1, h.2⟩

end Verif.CycleMap

namespace Verif.PartialMap
variable [RawImpl] [LawfulRaw] {L R T : Type} [BEq L] [BEq R] [EquivBEq L] [EquivBEq R] [BEq T] [EquivBEq T]

/-- C116: equality of entries is an equivalence relation, two of them are equal exactly if they have the same id and
hold equal items, and equal ones hash equally (the contract between `Eq` and `Hash`). -/
theorem C116_entry_eq (x y z : MappingPair T) :
    x.beq x = true ∧ x.beq y = y.beq x ∧ (x.beq y = true → y.beq z = true → x.beq z = true) ∧
    (x.beq y = true ↔ x.id = y.id ∧ (x.extract == y.extract) = true) ∧
    (∀ h : T → UInt64, (∀ a b, (a == b) = true → h a = h b) → x.beq y = true → x.hashWith h = y.hashWith h) := by
  refine ⟨by simp [MappingPair.beq], ?_, ?_, by simp [MappingPair.beq, MappingPair.extract], ?_⟩
  · simp only [MappingPair.beq, BEq.comm (a := x.value), BEq.comm (a := x.id)]
  · simp only [MappingPair.beq, Bool.and_eq_true, beq_iff_eq]
    exact fun a b => ⟨a.1.trans b.1, BEq.trans a.2 b.2⟩
  · simp only [MappingPair.beq, Bool.and_eq_true]
    exact fun h hh a => hh _ _ a.2

/-- C116: comparing an entry with an item is comparing what `extract` gives, with the same answer as the predicate
under which the tables are searched; a clone is equal to the original and refers to the same partner, provided the
clone of the item is equal to the item. -/
theorem C116_entry_item (x : MappingPair T) (c : T → T) (hc : ∀ a, (c a == a) = true) :
    (∀ a : T, x.beqItem a = (x.extract == a) ∧ x.beqItem a = equivalentKey a x) ∧
    (x.clone c).beq x = true ∧ (x.clone c).extract = c x.extract ∧ (x.clone c).hash = x.hash := by
  refine ⟨fun a => ⟨rfl, BEq.comm⟩, ?_, rfl, rfl⟩
  simp [MappingPair.beq, MappingPair.clone, hc]

/-- entries of different pairings are different although they hold equal items; entries of one pairing with a different
record of the partner's hash are equal -/
example : (⟨5, some 7, 0⟩ : MappingPair Nat).beq ⟨5, some 7, 1⟩ = false ∧ (⟨5, some 7, 1⟩ : MappingPair Nat).beq ⟨5, none, 1⟩ = true ∧
    ((⟨5, some 7, 1⟩ : MappingPair Nat).clone id).beqItem 5 = true :=
  ⟨by decide, by decide, by rw [((C116_entry_item _ id (by simp)).1 5).1]; rfl⟩

/-- C116: after any history, also one with the calls that break the map, no two of the entries stored in one table
are equal. -/
theorem C116_entries_differ {m : PartialMap L R} (n : Nat) (hb : BuildHasher L R) (ops : List (Op L R)) (os : List (Out L R))
    (hc : LawfulClones ops) (h : (withCapacityAndHasher n hb).run ops = .ok (os, m)) :
    m.left.toList.Pairwise (fun x y => x.beq y = false) ∧ m.right.toList.Pairwise (fun x y => x.beq y = false) := by
  obtain ⟨h1, -⟩ := run_always (withCapacity_always n hb) hc h
  refine ⟨?_, ?_⟩
  · rw [RawTable.toList, List.pairwise_map]
    refine h1.left.apart.imp fun h => ?_
    simp [MappingPair.beq, show _ = _ from h]
  · rw [RawTable.toList, List.pairwise_map]
    refine h1.right.apart.imp fun h => ?_
    simp [MappingPair.beq, show _ = _ from h]

open Demo in
/-- with the history `breaking`: both tables hold several entries, none equal to another -/
example : letI := messyRaw
    ∃ os m, (withCapacityAndHasher 4 spreadHash).run breaking = .ok (os, m) ∧
      m.left.toList.Pairwise (fun x y => x.beq y = false) ∧ 2 ≤ m.left.len ∧ 2 ≤ m.right.len := by
  let _ := messyRaw
  have := messyRaw_lawful
  obtain ⟨x, e, h⟩ := ran (e := (withCapacityAndHasher 4 spreadHash).run breaking)
    (p := fun x => decide (2 ≤ x.2.left.len ∧ 2 ≤ x.2.right.len)) (by decide +kernel)
  have hd := C116_entries_differ 4 spreadHash breaking _ (fun cl cr h => by simp [breaking] at h) e
  simp only [decide_eq_true_eq] at h
  exact ⟨_, _, e, hd.1, h.1, h.2⟩

end Verif.PartialMap

namespace Verif.GroupMap
variable [RawImpl] [LawfulRaw] {L R T : Type} [BEq L] [BEq R] [EquivBEq L] [EquivBEq R] [BEq T] [EquivBEq T]

/-- C116: equality of left entries is an equivalence relation, two of them are equal exactly if they have the same id and
hold equal items, and equal ones hash equally (the contract between `Eq` and `Hash`). -/
theorem C116_left_entry_eq (x y z : LeftItem T) :
    x.beq x = true ∧ x.beq y = y.beq x ∧ (x.beq y = true → y.beq z = true → x.beq z = true) ∧
    (x.beq y = true ↔ x.id = y.id ∧ (x.extract == y.extract) = true) ∧
    (∀ h : T → UInt64, (∀ a b, (a == b) = true → h a = h b) → x.beq y = true → x.hashWith h = y.hashWith h) := by
  refine ⟨by simp [LeftItem.beq], ?_, ?_, by simp [LeftItem.beq, LeftItem.extract], ?_⟩
  · simp only [LeftItem.beq, BEq.comm (a := x.value), BEq.comm (a := x.id)]
  · simp only [LeftItem.beq, Bool.and_eq_true, beq_iff_eq]
    exact fun a b => ⟨a.1.trans b.1, BEq.trans a.2 b.2⟩
  · simp only [LeftItem.beq, Bool.and_eq_true]
    exact fun h hh a => hh _ _ a.2

/-- C116: equality of right entries is an equivalence relation, two of them are equal exactly if they have the same id and
hold equal items, and equal ones hash equally (the contract between `Eq` and `Hash`). -/
theorem C116_right_entry_eq (x y z : RightItem T) :
    x.beq x = true ∧ x.beq y = y.beq x ∧ (x.beq y = true → y.beq z = true → x.beq z = true) ∧
    (x.beq y = true ↔ x.id = y.id ∧ (x.extract == y.extract) = true) ∧
    (∀ h : T → UInt64, (∀ a b, (a == b) = true → h a = h b) → x.beq y = true → x.hashWith h = y.hashWith h) := by
  refine ⟨by simp [RightItem.beq], ?_, ?_, by simp [RightItem.beq, RightItem.extract], ?_⟩
  · simp only [RightItem.beq, BEq.comm (a := x.value), BEq.comm (a := x.id)]
  · simp only [RightItem.beq, Bool.and_eq_true, beq_iff_eq]
    exact fun a b => ⟨a.1.trans b.1, BEq.trans a.2 b.2⟩
  · simp only [RightItem.beq, Bool.and_eq_true]
    exact fun h hh a => hh _ _ a.2

/-- C116: the predicates under which the tables are searched compare the item with what `extract` gives; a clone is
equal to the original and has the same partners, provided the clone of the item is equal to the item. -/
theorem C116_entry_item (x : LeftItem T) (y : RightItem T) (c : T → T) (hc : ∀ a, (c a == a) = true) :
    (∀ a : T, equivalentKeyLeft a x = (x.extract == a) ∧ equivalentKeyRight a y = (y.extract == a)) ∧
    (x.clone c).beq x = true ∧ (x.clone c).extract = c x.extract ∧ (x.clone c).hash = x.hash ∧
    (x.clone c).rid = x.rid ∧
    (y.clone c).beq y = true ∧ (y.clone c).extract = c y.extract ∧ (y.clone c).pairs = y.pairs := by
  refine ⟨fun a => ⟨rfl, rfl⟩, ?_, rfl, rfl, rfl, ?_, rfl, rfl⟩
  · simp [LeftItem.beq, LeftItem.clone, hc]
  · simp [RightItem.beq, RightItem.clone, hc]

/-- entries with different ids are different although they hold equal items; the pairs of an entry do not matter -/
example : (⟨5, 7, 0, 0⟩ : LeftItem Nat).beq ⟨5, 7, 0, 1⟩ = false ∧
    (⟨5, ⟨[(3, 0)], 0⟩, 1⟩ : RightItem Nat).beq ⟨5, ⟨[], 0⟩, 1⟩ = true := by decide

/-- C116: after any history, also one with the calls that break the map, no two of the entries stored in one table
are equal. -/
theorem C116_entries_differ {m : GroupMap L R} (n : Nat) (hb : BuildHasher L R) (ops : List (Op L R)) (os : List (Out L R))
    (hc : LawfulClones ops) (h : (withCapacityAndHasher n hb).run ops = .ok (os, m)) :
    m.left.toList.Pairwise (fun x y => x.beq y = false) ∧ m.right.toList.Pairwise (fun x y => x.beq y = false) := by
  obtain ⟨h1, -⟩ := run_always (withCapacity_always n hb) hc h
  refine ⟨?_, ?_⟩
  · rw [RawTable.toList, List.pairwise_map]
    refine h1.left.apart.imp fun h => ?_
    simp [LeftItem.beq, h.1]
  · rw [RawTable.toList, List.pairwise_map]
    refine h1.right.apart.imp fun h => ?_
    simp [RightItem.beq, show _ ≠ _ from h]

open Demo in
/-- with the history `breaking`: both tables hold several entries, none equal to another -/
example : letI := messyRaw
    ∃ os m, (withCapacityAndHasher 4 spreadHash).run breaking = .ok (os, m) ∧
      m.left.toList.Pairwise (fun x y => x.beq y = false) ∧ 2 ≤ m.left.len ∧ 2 ≤ m.right.len := by
  let _ := messyRaw
  have := messyRaw_lawful
  obtain ⟨x, e, h⟩ := ran (e := (withCapacityAndHasher 4 spreadHash).run breaking)
    (p := fun x => decide (2 ≤ x.2.left.len ∧ 2 ≤ x.2.right.len)) (by decide +kernel)
  have hd := C116_entries_differ 4 spreadHash breaking _ (fun cl cr h => by simp [breaking] at h) e
  simp only [decide_eq_true_eq] at h
  exact ⟨_, _, e, hd.1, h.1, h.2⟩

end Verif.GroupMap
