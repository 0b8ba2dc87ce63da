import Verif.CycleMap.Room
import Verif.PartialMap.Room
import Verif.GroupMap.Room
import Verif.CycleMap.Simulation
import Verif.Instances
/-! Properties C87-C91: capacity.  They rely on the capacity contract `LawfulCap` of the tables. -/
set_option linter.unusedSectionVars false
namespace Verif.CycleMap
open RawTable
section
variable [RawImpl] [LawfulRaw] [LawfulCap] {L R : Type} [BEq L] [BEq R]

/-- C87: from any map, a history that does not shrink it uses up at most as much room, on either side, as it puts
in items: what it does to the room beyond that can only be more room. -/
theorem C87_room {m m' : CycleMap L R} (ops : List (Op L R)) {os} (hs : ∀ op ∈ ops, shrinks op = false)
    (h : m.run ops = .ok (os, m')) :
    m.capacity - m.len ≤ (m'.capacity - m'.len) + (ops.map puts).sum ∧
    m.right.capacity - m.right.len ≤ (m'.right.capacity - m'.right.len) + (ops.map puts).sum := by
  have := run_roomy (G := .room) (fun op hop => .inr (hs op hop)) h
  rw [show asks Meter.room.cost = puts from funext asks_zero] at this
  simp only [Roomy, Room] at this
  simp only [CycleMap.capacity, CycleMap.len, RawTable.capacity]
  omega

/-- C87: a map made by `with_capacity(n)` holds `n` pairs before reallocating: after any history that puts in `k`
items and does not shrink the map there is still room for `n - k` on both sides, and if `k < n` then the next
insertion leaves all elements of both tables where they are. -/
theorem C87_with_capacity (n : Nat) (hb : BuildHasher L R) (ops : List (Op L R)) {os} {m' : CycleMap L R}
    (hs : ∀ op ∈ ops, shrinks op = false) (h : (withCapacityAndHasher n hb).run ops = .ok (os, m')) :
    m'.len + (n - (ops.map puts).sum) ≤ m'.capacity ∧
    m'.right.len + (n - (ops.map puts).sum) ≤ m'.right.capacity ∧
    ((ops.map puts).sum < n →
      (∀ h, RawImpl.rehashes (.insert h) m'.left = false) ∧ (∀ h, RawImpl.rehashes (.insert h) m'.right = false)) := by
  have := run_roomy (G := .room) (fun op hop => .inr (hs op hop)) h
  rw [show asks Meter.room.cost = puts from funext asks_zero] at this
  simp only [Roomy, Room] at this
  have h1 := LawfulCap.new (T := MappingPair L) n
  have h2 := LawfulCap.new (T := MappingPair R) n
  have e1 : (withCapacityAndHasher n hb : CycleMap L R).left = RawTable.withCapacity n := rfl
  have e2 : (withCapacityAndHasher n hb : CycleMap L R).right = RawTable.withCapacity n := rfl
  rw [e1, e2] at this
  refine ⟨?_, ?_, fun hk => ⟨fun x => LawfulCap.stay _ x ?_, fun x => LawfulCap.stay _ x ?_⟩⟩
  · simp only [CycleMap.capacity, CycleMap.len, RawTable.capacity]; omega
  · simp only [RawTable.capacity]; omega
  · omega
  · omega

/-- C87: there is always room for what is there. -/
theorem C87_len (m : CycleMap L R) : m.len ≤ m.capacity ∧ m.right.len ≤ m.right.capacity :=
  ⟨Nat.le_add_right _ _, Nat.le_add_right _ _⟩

/-- C88: `reserve(n)` makes room for `n` more items in both tables, and so does a `try_reserve(n)` that succeeds;
neither takes room away, also when `try_reserve` fails. -/
theorem C88_reserve (m : CycleMap L R) (n : Nat) :
    m.len + n ≤ (m.reserve n).capacity ∧ m.right.len + n ≤ (m.reserve n).right.capacity ∧
    (∀ a b, (m.tryReserve n a b).1 = true →
      m.len + n ≤ (m.tryReserve n a b).2.capacity ∧ m.right.len + n ≤ (m.tryReserve n a b).2.right.capacity) ∧
    (∀ a b, m.capacity ≤ (m.tryReserve n a b).2.capacity ∧
      m.right.capacity ≤ (m.tryReserve n a b).2.right.capacity) := by
  have l1 : ∀ {T : Type} (t : RawTable T) (hs : T → UInt64), (t.reserve n hs).len = t.len := by
    intro T t hs
    simp only [RawTable.len, RawTable.reserve, (LawfulRaw.touch_perm _ _).length_eq, RawTable.rehash]
    split <;> simp
  have l2 : ∀ {T : Type} (t : RawTable T) (hs : T → UInt64), t.len + n ≤ (t.reserve n hs).capacity := by
    intro T t hs
    have := LawfulCap.reserve t n hs
    simp only [RawTable.capacity, l1]; omega
  have l3 : ∀ {T : Type} (t : RawTable T) (hs : T → UInt64), t.capacity ≤ (t.reserve n hs).capacity := by
    intro T t hs
    have := LawfulCap.reserve_mono t n hs
    simp only [RawTable.capacity, l1]; omega
  refine ⟨l2 _ _, l2 _ _, fun a b h => ?_, fun a b => ?_⟩
  · cases a <;> cases b
    · cases h
    · cases h
    · cases h
    · exact ⟨l2 _ _, l2 _ _⟩
  · cases a <;> cases b
    · exact ⟨Nat.le_refl _, Nat.le_refl _⟩
    · exact ⟨Nat.le_refl _, Nat.le_refl _⟩
    · exact ⟨l3 _ _, Nat.le_refl _⟩
    · exact ⟨l3 _ _, l3 _ _⟩

/-- C88: `shrink_to(n)` drops no lower than the pairs in the map and no lower than `n` (or than it was before);
`shrink_to_fit` drops no lower than the pairs. -/
theorem C88_shrink (m : CycleMap L R) (n : Nat) :
    min m.capacity (max m.len n) ≤ (m.shrinkTo n).capacity ∧
    min m.right.capacity (max m.right.len n) ≤ (m.shrinkTo n).right.capacity ∧
    m.len ≤ m.shrinkToFit.capacity ∧ m.right.len ≤ m.shrinkToFit.right.capacity := by
  have l : ∀ {T : Type} (t : RawTable T) (k : Nat) (hs : T → UInt64), t.len ≤ (t.shrinkTo k hs).capacity := by
    intro T t k hs
    have e : (t.shrinkTo k hs).len = t.len := by
      simp only [RawTable.len, RawTable.shrinkTo, (LawfulRaw.touch_perm _ _).length_eq, RawTable.rehash]
      split <;> simp
    rw [RawTable.capacity, e]; omega
  exact ⟨LawfulCap.shrink _ _ _, LawfulCap.shrink _ _ _, l _ _ _, l _ _ _⟩

/-- The documentation of `capacity`: "both sets always have the same capacity", for all maps that come out of some
history of calls. -/
def C89_full : Prop :=
  ∀ (L R : Type) (_ : BEq L) (_ : BEq R) (_ : EquivBEq L) (_ : EquivBEq R) (raw : RawImpl) (_ : @LawfulRaw raw)
    (_ : @LawfulCap raw) (n : Nat) (hb : BuildHasher L R) (ops : List (Op L R)) (os : List (Out L R))
    (m : CycleMap L R), @run raw L R _ _ (@withCapacityAndHasher raw L R _ _ n hb) ops = .ok (os, m) →
    @RawTable.capacity raw _ m.left = @RawTable.capacity raw _ m.right

/-- C89, what is true: a new map has the same capacity on both sides. -/
theorem C89_partial (n : Nat) (hb : BuildHasher L R) :
    (withCapacityAndHasher n hb : CycleMap L R).left.capacity = (withCapacityAndHasher n hb).right.capacity := by
  have := LawfulCap.new_congr (T := MappingPair L) (T' := MappingPair R) n
  have e : ∀ {T : Type}, (RawTable.withCapacity n : RawTable T).len = 0 := by
    intro T
    simp only [RawTable.len, RawTable.withCapacity, (LawfulRaw.touch_perm _ _).length_eq]; rfl
  simp only [withCapacityAndHasher, RawTable.capacity, e, this]

/-- C89, what happens instead: whatever the implementation of the tables, a `try_reserve` whose second allocation
fails leaves a map whose left table has more capacity than its right table, and `capacity` reports the larger one. -/
theorem C89_actual (hb : BuildHasher L R) :
    let m : CycleMap L R := withCapacityAndHasher 0 hb
    let m' := (m.tryReserve (m.right.capacity + 1) true false).2
    m'.right.capacity < m'.left.capacity ∧ m'.capacity = m'.left.capacity := by
  intro m m'
  refine ⟨?_, rfl⟩
  have h := LawfulCap.reserve m.left (m.right.capacity + 1) (·.hashWith m.hb.hl)
  have e : m'.left = m.left.reserve (m.right.capacity + 1) (·.hashWith m.hb.hl) := rfl
  have e' : m'.right = m.right := rfl
  rw [e, e']
  conv => rhs; rw [RawTable.capacity]
  omega

end

/-- C89 fails, also without a failing allocation: removing a pair may leave a tombstone in one table and not in the
other. -/
theorem C89_false : ¬ C89_full := by
  intro h
  letI := patchyRaw
  have := h Nat Nat _ _ inferInstance inferInstance patchyRaw patchyRaw_lawful patchyRaw_cap 4 spreadHash
    [.insert 1 11, .insert 2 12, .removeViaLeft 1] _ _ rfl
  exact absurd this (by decide)

section
local instance : RawImpl := patchyRaw
local instance : LawfulRaw := patchyRaw_lawful
local instance : LawfulCap := patchyRaw_cap

/-- room for four, two pairs put in, one of them again -/
private def ops : List (Op Nat Nat) := [.insert 1 11, .insert 2 12, .insert 1 12]

example : ∃ os m', (withCapacityAndHasher 4 spreadHash).run ops = .ok (os, m') ∧ m'.len = 1 ∧ 2 ≤ m'.capacity ∧
    (∀ h, RawImpl.rehashes (.insert h) m'.left = false) := by
  obtain ⟨os, m', e, h⟩ : ∃ os m', (withCapacityAndHasher 4 spreadHash).run ops = .ok (os, m') ∧ m'.len = 1 :=
    ⟨_, _, rfl, rfl⟩
  have t := C87_with_capacity 4 spreadHash ops (by simp [ops, shrinks]) e
  exact ⟨os, m', e, h, by have := t.1; rwa [h] at this, (t.2.2 (by decide)).1⟩

example : ∃ m : CycleMap Nat Nat, m.len = 1 ∧ m.len + 100 ≤ (m.reserve 100).capacity ∧
    min m.capacity (max m.len 1) ≤ ((m.shrinkTo 1).capacity) ∧ m.capacity = 4 := by
  obtain ⟨os, m', e, h, h'⟩ : ∃ os m', (withCapacityAndHasher 4 spreadHash).run ops = .ok (os, m') ∧ m'.len = 1 ∧
    m'.capacity = 4 := ⟨_, _, rfl, rfl, rfl⟩
  exact ⟨m', h, (C88_reserve _ 100).1, (C88_shrink _ 1).1, h'⟩

example : (((withCapacityAndHasher 4 spreadHash : CycleMap Nat Nat).tryReserve 9 true false).2.capacity,
    ((withCapacityAndHasher 4 spreadHash : CycleMap Nat Nat).tryReserve 9 true false).2.right.capacity) = (9, 4) := rfl
end

end Verif.CycleMap

namespace Verif.PartialMap
open RawTable
section
variable [RawImpl] [LawfulRaw] [LawfulCap] {L R : Type} [BEq L] [BEq R]

/-- C90: from any map, a history that does not shrink it uses up at most as much room on each side as it puts in
items on that side. -/
theorem C90_room {m m' : PartialMap L R} (ops : List (Op L R)) {os} (hs : ∀ op ∈ ops, shrinks op = false)
    (h : m.run ops = .ok (os, m')) :
    m.capacityLeft - m.lenLeft ≤ (m'.capacityLeft - m'.lenLeft) + (ops.map putsL).sum ∧
    m.capacityRight - m.lenRight ≤ (m'.capacityRight - m'.lenRight) + (ops.map putsR).sum := by
  have := run_roomy (G := .room) (fun op hop => .inr (hs op hop)) h
  rw [show asksL Meter.room.cost = putsL from funext asksL_zero,
    show asksR Meter.room.cost = putsR from funext asksR_zero] at this
  simp only [Roomy, Room] at this
  simp only [capacityLeft, capacityRight, lenLeft, lenRight, RawTable.capacity]
  omega

/-- C90: a map made by `with_capacity(n)` holds `n` items on each side before reallocating. -/
theorem C90_with_capacity (n : Nat) (hb : BuildHasher L R) (ops : List (Op L R)) {os} {m' : PartialMap L R}
    (hs : ∀ op ∈ ops, shrinks op = false) (h : (withCapacityAndHasher n hb).run ops = .ok (os, m')) :
    m'.lenLeft + (n - (ops.map putsL).sum) ≤ m'.capacityLeft ∧
    m'.lenRight + (n - (ops.map putsR).sum) ≤ m'.capacityRight ∧
    ((ops.map putsL).sum < n → (∀ h, RawImpl.rehashes (.insert h) m'.left = false)) ∧
    ((ops.map putsR).sum < n → (∀ h, RawImpl.rehashes (.insert h) m'.right = false)) := by
  have := run_roomy (G := .room) (fun op hop => .inr (hs op hop)) h
  rw [show asksL Meter.room.cost = putsL from funext asksL_zero,
    show asksR Meter.room.cost = putsR from funext asksR_zero] at this
  simp only [Roomy, Room] at this
  have h1 := LawfulCap.new (T := MappingPair L) n
  have h2 := LawfulCap.new (T := MappingPair R) n
  have e1 : (withCapacityAndHasher n hb : PartialMap L R).left = RawTable.withCapacity n := rfl
  have e2 : (withCapacityAndHasher n hb : PartialMap L R).right = RawTable.withCapacity n := rfl
  rw [e1, e2] at this
  refine ⟨?_, ?_, fun hk => fun x => LawfulCap.stay _ x ?_, fun hk => fun x => LawfulCap.stay _ x ?_⟩
  · simp only [capacityLeft, lenLeft, RawTable.capacity]; omega
  · simp only [capacityRight, lenRight, RawTable.capacity]; omega
  · omega
  · omega

/-- C90: `reserve_left(n)` makes room for `n` more left items and leaves the right side alone, and the other way
round; a `try_reserve` that fails changes neither. -/
theorem C90_reserve (m : PartialMap L R) (n : Nat) :
    m.lenLeft + n ≤ (m.reserveLeft n).capacityLeft ∧ (m.reserveLeft n).capacityRight = m.capacityRight ∧
    m.lenRight + n ≤ (m.reserveRight n).capacityRight ∧ (m.reserveRight n).capacityLeft = m.capacityLeft ∧
    m.lenLeft + n ≤ (m.tryReserveLeft n true).2.capacityLeft ∧
    m.lenRight + n ≤ (m.tryReserveRight n true).2.capacityRight ∧
    (m.tryReserveLeft n false).2 = m ∧ (m.tryReserveRight n false).2 = m := by
  have l1 : ∀ {T : Type} (t : RawTable T) (hs : T → UInt64), (t.reserve n hs).len = t.len := by
    intro T t hs
    simp only [RawTable.len, RawTable.reserve, (LawfulRaw.touch_perm _ _).length_eq, RawTable.rehash]
    split <;> simp
  have l2 : ∀ {T : Type} (t : RawTable T) (hs : T → UInt64), t.len + n ≤ (t.reserve n hs).capacity := by
    intro T t hs
    have := LawfulCap.reserve t n hs
    simp only [RawTable.capacity, l1]; omega
  exact ⟨l2 _ _, rfl, l2 _ _, rfl, l2 _ _, l2 _ _, rfl, rfl⟩

/-- C90: shrinking one side drops no lower than its items and no lower than asked for (or than it was before), and
leaves the other side alone; `shrink_to_fit` drops no lower than the items. -/
theorem C90_shrink (m : PartialMap L R) (n : Nat) :
    min m.capacityLeft (max m.lenLeft n) ≤ (m.shrinkToLeft n).capacityLeft ∧
    (m.shrinkToLeft n).capacityRight = m.capacityRight ∧
    min m.capacityRight (max m.lenRight n) ≤ (m.shrinkToRight n).capacityRight ∧
    (m.shrinkToRight n).capacityLeft = m.capacityLeft ∧
    m.lenLeft ≤ m.shrinkToFit.capacityLeft ∧ m.lenRight ≤ m.shrinkToFit.capacityRight := by
  have l : ∀ {T : Type} (t : RawTable T) (k : Nat) (hs : T → UInt64), t.len ≤ (t.shrinkTo k hs).capacity := by
    intro T t k hs
    have e : (t.shrinkTo k hs).len = t.len := by
      simp only [RawTable.len, RawTable.shrinkTo, (LawfulRaw.touch_perm _ _).length_eq, RawTable.rehash]
      split <;> simp
    rw [RawTable.capacity, e]; omega
  exact ⟨LawfulCap.shrink _ _ _, rfl, LawfulCap.shrink _ _ _, rfl, l _ _ _, l _ _ _⟩

end

section
local instance : RawImpl := patchyRaw
local instance : LawfulRaw := patchyRaw_lawful
local instance : LawfulCap := patchyRaw_cap

/-- left items only, then a pair -/
private def ops : List (Op Nat Nat) := [.insertLeft 1, .insertLeft 2, .insert 1 12, .removeViaLeft 2]

example : ∃ os m', (withCapacityAndHasher 4 spreadHash).run ops = .ok (os, m') ∧
    (m'.lenLeft, m'.lenRight) = (1, 1) ∧ 2 ≤ m'.capacityLeft ∧ 4 ≤ m'.capacityRight := by
  obtain ⟨os, m', e, h⟩ : ∃ os m', (withCapacityAndHasher 4 spreadHash).run ops = .ok (os, m') ∧
    (m'.lenLeft, m'.lenRight) = (1, 1) := ⟨_, _, rfl, rfl⟩
  have t := C90_with_capacity 4 spreadHash ops (by simp [ops, shrinks]) e
  have h1 := congrArg Prod.fst h
  have h2 := congrArg Prod.snd h
  simp only at h1 h2
  rw [h1, h2] at t
  exact ⟨os, m', e, h, t.1, t.2.1⟩

example : ((withCapacityAndHasher 4 spreadHash : PartialMap Nat Nat).reserveLeft 9).capacityRight = 4 ∧
    9 ≤ ((withCapacityAndHasher 4 spreadHash : PartialMap Nat Nat).reserveLeft 9).capacityLeft :=
  ⟨rfl, (C90_reserve (withCapacityAndHasher 4 spreadHash : PartialMap Nat Nat) 9).1⟩

example : 3 ≤ ((withCapacityAndHasher 4 spreadHash : PartialMap Nat Nat).shrinkToLeft 3).capacityLeft :=
  (C90_shrink (withCapacityAndHasher 4 spreadHash : PartialMap Nat Nat) 3).1
end

end Verif.PartialMap

namespace Verif.GroupMap
open RawTable
section
variable [RawImpl] [LawfulRaw] [LawfulCap] {L R : Type} [BEq L] [BEq R]

/-- C91: from any map, also a broken one, a history uses up at most as much room on each side as it puts in items
on that side. -/
theorem C91_room {m m' : GroupMap L R} (ops : List (Op L R)) {os} (h : m.run ops = .ok (os, m')) :
    m.capacityLeft - m.lenLeft ≤ (m'.capacityLeft - m'.lenLeft) + (ops.map putsL).sum ∧
    m.capacityRight - m.lenRight ≤ (m'.capacityRight - m'.lenRight) + (ops.map putsR).sum := by
  have := run_roomy (G := .room) h
  simp only [Roomy, Room] at this
  simp only [capacityLeft, capacityRight, lenLeft, lenRight, RawTable.capacity]
  omega

/-- C91: a map made by `with_capacity(n)` holds `n` items on each side before reallocating. -/
theorem C91_with_capacity (n : Nat) (hb : BuildHasher L R) (ops : List (Op L R)) {os} {m' : GroupMap L R}
    (h : (withCapacityAndHasher n hb).run ops = .ok (os, m')) :
    m'.lenLeft + (n - (ops.map putsL).sum) ≤ m'.capacityLeft ∧
    m'.lenRight + (n - (ops.map putsR).sum) ≤ m'.capacityRight ∧
    ((ops.map putsL).sum < n → (∀ h, RawImpl.rehashes (.insert h) m'.left = false)) ∧
    ((ops.map putsR).sum < n → (∀ h, RawImpl.rehashes (.insert h) m'.right = false)) := by
  have := run_roomy (G := .room) h
  simp only [Roomy, Room] at this
  have h1 := LawfulCap.new (T := LeftItem L) n
  have h2 := LawfulCap.new (T := RightItem R) n
  have e1 : (withCapacityAndHasher n hb : GroupMap L R).left = RawTable.withCapacity n := rfl
  have e2 : (withCapacityAndHasher n hb : GroupMap L R).right = RawTable.withCapacity n := rfl
  rw [e1, e2] at this
  refine ⟨?_, ?_, fun hk => fun x => LawfulCap.stay _ x ?_, fun hk => fun x => LawfulCap.stay _ x ?_⟩
  · simp only [capacityLeft, lenLeft, RawTable.capacity]; omega
  · simp only [capacityRight, lenRight, RawTable.capacity]; omega
  · omega
  · omega

end

section
local instance : RawImpl := patchyRaw
local instance : LawfulRaw := patchyRaw_lawful
local instance : LawfulCap := patchyRaw_cap

/-- a group of two, and a right item of its own -/
private def ops : List (Op Nat Nat) := [.insert 1 10, .insertLeft 2 10, .insertRight 20, .removeLeft 1]

example : ∃ os m', (withCapacityAndHasher 4 spreadHash).run ops = .ok (os, m') ∧
    (m'.lenLeft, m'.lenRight) = (1, 2) ∧ 3 ≤ m'.capacityLeft ∧ 4 ≤ m'.capacityRight := by
  obtain ⟨os, m', e, h⟩ : ∃ os m', (withCapacityAndHasher 4 spreadHash).run ops = .ok (os, m') ∧
    (m'.lenLeft, m'.lenRight) = (1, 2) := ⟨_, _, rfl, rfl⟩
  have t := C91_with_capacity 4 spreadHash ops e
  have h1 := congrArg Prod.fst h
  have h2 := congrArg Prod.snd h
  simp only at h1 h2
  rw [h1, h2] at t
  exact ⟨os, m', e, h, t.1, t.2.1⟩
end

end Verif.GroupMap
