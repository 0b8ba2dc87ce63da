import Verif.PartialMap.Machine
import Verif.CycleMap.Counter
/-! Growth of the id counter of `PartialCycleMap`, for arbitrary (also corrupted) maps. -/
set_option linter.unusedSectionVars false
set_option linter.unusedSimpArgs false
namespace Verif.PartialMap
open PartialSpec OptionalPair
open CycleMap (bind_ok)

variable [RawImpl] {L R : Type} [BEq L] [BEq R]
variable {m m' : PartialMap L R}

theorem removeViaLeft_counter {l : L} {o} (h : m.removeViaLeft l = .ok (o, m')) : m'.counter = m.counter := by
  simp only [removeViaLeft] at h
  repeat' split at h
  all_goals first | cases h; rfl | cases h

theorem removeViaRight_counter {r : R} {o} (h : m.removeViaRight r = .ok (o, m')) : m'.counter = m.counter := by
  simp only [removeViaRight] at h
  repeat' split at h
  all_goals first | cases h; rfl | cases h

theorem removeLeft_counter {l : L} {o} (h : m.removeLeft l = .ok (o, m')) : m'.counter = m.counter := by
  simp only [removeLeft] at h
  repeat' split at h
  all_goals first | cases h; rfl | cases h

theorem removeRight_counter {r : R} {o} (h : m.removeRight r = .ok (o, m')) : m'.counter = m.counter := by
  simp only [removeRight] at h
  repeat' split at h
  all_goals first | cases h; rfl | cases h

theorem remove_counter {l : L} {r : R} {o} (h : m.remove l r = .ok (o, m')) : m'.counter = m.counter := by
  simp only [remove] at h
  split at h
  · obtain ⟨⟨o1, m1⟩, h1, h⟩ := bind_ok h
    have e := removeViaLeft_counter h1
    simp only at h
    split at h
    all_goals first | (cases h; exact e) | cases h
  · cases h; rfl

theorem insert_counter {l : L} {r : R} {o} (h : m.insert l r = .ok (o, m')) : m'.counter = m.counter + 1 := by
  obtain ⟨⟨o1, m1⟩, h1, h⟩ := bind_ok h
  obtain ⟨⟨o2, m2⟩, h2, h⟩ := bind_ok h
  cases h
  rw [← removeViaLeft_counter h1, ← removeViaRight_counter h2]

theorem insertLeft_counter {l : L} {o} (h : m.insertLeft l = .ok (o, m')) : m'.counter = m.counter + 1 := by
  obtain ⟨⟨o1, m1⟩, h1, h⟩ := bind_ok h
  cases h
  rw [← removeViaLeft_counter h1]

theorem insertRight_counter {r : R} {o} (h : m.insertRight r = .ok (o, m')) : m'.counter = m.counter + 1 := by
  obtain ⟨⟨o1, m1⟩, h1, h⟩ := bind_ok h
  cases h
  rw [← removeViaRight_counter h1]

theorem pair_counter (l : L) (r : R) : (m.pair l r).2.counter = m.counter := by
  simp only [pair]
  repeat' split
  all_goals rfl

theorem unpair_counter (l : L) (r : R) : (m.unpair l r).2.counter ≤ m.counter + 1 := by
  simp only [unpair]
  repeat' split
  all_goals first | exact Nat.le_refl _ | exact Nat.le_succ _

theorem pairForced_counter {l : L} {r : R} {o} (h : m.pairForced l r = .ok (o, m')) : m'.counter ≤ m.counter + 1 := by
  simp only [pairForced] at h
  repeat' split at h
  all_goals first | (cases h; exact Nat.le_refl _) | (cases h; exact Nat.le_succ _) | cases h

theorem pairForcedRemove_counter {l : L} {r : R} {o} (h : m.pairForcedRemove l r = .ok (o, m')) :
    m'.counter ≤ m.counter + 1 := by
  simp only [pairForcedRemove] at h
  repeat' split at h
  all_goals first | (cases h; exact Nat.le_refl _) | (cases h; exact Nat.le_succ _) | cases h

theorem swapLeft_counter {a b : L} {o} (h : m.swapLeft a b = .ok (o, m')) : m'.counter = m.counter := by
  obtain ⟨⟨o1, m1⟩, h1, h⟩ := bind_ok h
  have e : m1.counter = m.counter := by
    simp only [swapLeftEqCheck] at h1
    split at h1
    · exact removeViaLeft_counter h1
    · cases h1; rfl
  simp only at h
  split at h
  · cases h; exact e
  · simp only [bind, Except.bind, pure, Except.pure] at h
    repeat' split at h
    all_goals first | (cases h; exact e) | cases h

theorem swapRight_counter {a b : R} {o} (h : m.swapRight a b = .ok (o, m')) : m'.counter = m.counter := by
  obtain ⟨⟨o1, m1⟩, h1, h⟩ := bind_ok h
  have e : m1.counter = m.counter := by
    simp only [swapRightEqCheck] at h1
    split at h1
    · exact removeViaRight_counter h1
    · cases h1; rfl
  simp only at h
  split at h
  · cases h; exact e
  · simp only [bind, Except.bind, pure, Except.pure] at h
    repeat' split at h
    all_goals first | (cases h; exact e) | cases h

theorem removeViaHashesAndId_counter (a b : UInt64) (i : Nat) : (m.removeViaHashesAndId a b i).2.counter = m.counter := rfl

theorem retainDrop_counter {ks} (h : m.retainDrop ks = .ok m') : m'.counter = m.counter := by
  induction ks generalizing m with
  | nil => cases h; rfl
  | cons k ks ih =>
    obtain ⟨a, b, i⟩ := k
    cases a <;> cases b <;> simp only [retainDrop] at h
    · cases h
    · rw [ih h]; split <;> rfl
    · rw [ih h]; split <;> rfl
    · rw [ih h]; rfl

theorem retainPairedDrop_counter (ks) : (m.retainPairedDrop ks).counter = m.counter := by
  induction ks generalizing m with
  | nil => rfl
  | cons k ks ih => exact ih (m := (m.removeViaHashesAndId k.1 k.2.1 k.2.2).2)

theorem retainUnpairedDrop_counter {ks} (h : m.retainUnpairedDrop ks = .ok m') : m'.counter = m.counter := by
  induction ks generalizing m with
  | nil => cases h; rfl
  | cons k ks ih =>
    obtain ⟨a, b, i⟩ := k
    cases a <;> cases b <;> simp only [retainUnpairedDrop] at h
    · cases h
    · rw [ih h]; split <;> rfl
    · rw [ih h]; split <;> rfl
    · cases h

theorem extendPairs_counter {xs : List (L × R)} (h : m.extendPairs xs = .ok m') : m'.counter = m.counter + xs.length := by
  induction xs generalizing m with
  | nil => cases h; rfl
  | cons x xs ih =>
    obtain ⟨⟨o1, m1⟩, h1, h⟩ := bind_ok h
    rw [ih h, insert_counter h1]; simp; omega

theorem extend_counter {xs : List (OptionalPair L R)} (h : m.extend xs = .ok m') :
    m'.counter ≤ m.counter + xs.length := by
  induction xs generalizing m with
  | nil => cases h; exact Nat.le_refl _
  | cons x xs ih =>
    cases x with
    | neither => have := ih h; simp; omega
    | someLeft l =>
      obtain ⟨⟨o1, m1⟩, h1, h⟩ := bind_ok h
      have := ih h; rw [insertLeft_counter h1] at this; simp; omega
    | someRight r =>
      obtain ⟨⟨o1, m1⟩, h1, h⟩ := bind_ok h
      have := ih h; rw [insertRight_counter h1] at this; simp; omega
    | someBoth l r =>
      obtain ⟨⟨o1, m1⟩, h1, h⟩ := bind_ok h
      have := ih h; rw [insert_counter h1] at this; simp; omega

/-- the number of ids a call may allocate -/
def cost : Op L R → Nat
  | .insert .. => 1
  | .insertLeft .. => 1
  | .insertRight .. => 1
  | .pairForced .. => 1
  | .pairForcedRemove .. => 1
  | .unpair .. => 1
  | .swapLeftOrInsert .. => 1
  | .swapRightOrInsert .. => 1
  | .extendPairs xs => xs.length
  | .extend xs => xs.length
  | _ => 0

theorem exec_counter {op : Op L R} {o} (h : m.exec op = .ok (o, m')) : m'.counter ≤ m.counter + cost op := by
  cases op <;> simp only [exec, cost, Nat.add_zero] at h ⊢
  case insert => obtain ⟨⟨o1, m1⟩, h1, h⟩ := bind_ok h; cases h; exact Nat.le_of_eq (insert_counter h1)
  case insertLeft => obtain ⟨⟨o1, m1⟩, h1, h⟩ := bind_ok h; cases h; exact Nat.le_of_eq (insertLeft_counter h1)
  case insertRight => obtain ⟨⟨o1, m1⟩, h1, h⟩ := bind_ok h; cases h; exact Nat.le_of_eq (insertRight_counter h1)
  case pair => cases h; exact Nat.le_of_eq (pair_counter _ _)
  case pairForced => obtain ⟨⟨o1, m1⟩, h1, h⟩ := bind_ok h; cases h; exact pairForced_counter h1
  case pairForcedRemove => obtain ⟨⟨o1, m1⟩, h1, h⟩ := bind_ok h; cases h; exact pairForcedRemove_counter h1
  case unpair => cases h; exact unpair_counter _ _
  case remove => obtain ⟨⟨o1, m1⟩, h1, h⟩ := bind_ok h; cases h; exact Nat.le_of_eq (remove_counter h1)
  case removeViaLeft => obtain ⟨⟨o1, m1⟩, h1, h⟩ := bind_ok h; cases h; exact Nat.le_of_eq (removeViaLeft_counter h1)
  case removeViaRight => obtain ⟨⟨o1, m1⟩, h1, h⟩ := bind_ok h; cases h; exact Nat.le_of_eq (removeViaRight_counter h1)
  case removeLeft => obtain ⟨⟨o1, m1⟩, h1, h⟩ := bind_ok h; cases h; exact Nat.le_of_eq (removeLeft_counter h1)
  case removeRight => obtain ⟨⟨o1, m1⟩, h1, h⟩ := bind_ok h; cases h; exact Nat.le_of_eq (removeRight_counter h1)
  case swapLeft => obtain ⟨⟨o1, m1⟩, h1, h⟩ := bind_ok h; cases h; exact Nat.le_of_eq (swapLeft_counter h1)
  case swapRight => obtain ⟨⟨o1, m1⟩, h1, h⟩ := bind_ok h; cases h; exact Nat.le_of_eq (swapRight_counter h1)
  case swapLeftChecked =>
    obtain ⟨⟨o1, m1⟩, h1, h⟩ := bind_ok h; cases h
    simp only [swapLeftChecked] at h1
    split at h1
    · cases h1; exact Nat.le_refl _
    · exact Nat.le_of_eq (swapLeft_counter h1)
  case swapRightChecked =>
    obtain ⟨⟨o1, m1⟩, h1, h⟩ := bind_ok h; cases h
    simp only [swapRightChecked] at h1
    split at h1
    · cases h1; exact Nat.le_refl _
    · exact Nat.le_of_eq (swapRight_counter h1)
  case swapLeftOrInsert =>
    obtain ⟨⟨o1, m1⟩, h1, h⟩ := bind_ok h; cases h
    simp only [swapLeftOrInsert] at h1
    split at h1
    · rw [swapLeft_counter h1]; exact Nat.le_succ _
    · obtain ⟨⟨o2, m2⟩, h2, h1⟩ := bind_ok h1
      have e := Nat.le_of_eq (insert_counter h2)
      repeat' split at h1
      all_goals rename_i heq; first | (cases heq; cases h1; exact e) | cases h1
  case swapRightOrInsert =>
    obtain ⟨⟨o1, m1⟩, h1, h⟩ := bind_ok h; cases h
    simp only [swapRightOrInsert] at h1
    split at h1
    · rw [swapRight_counter h1]; exact Nat.le_succ _
    · obtain ⟨⟨o2, m2⟩, h2, h1⟩ := bind_ok h1
      have e := Nat.le_of_eq (insert_counter h2)
      repeat' split at h1
      all_goals rename_i heq; first | (cases heq; cases h1; exact e) | cases h1
  case iterPaired => obtain ⟨ps, h1, h⟩ := bind_ok h; cases h; exact Nat.le_refl _
  case drain =>
    obtain ⟨⟨o1, m1⟩, h1, h⟩ := bind_ok h; cases h
    obtain ⟨⟨o2, m2⟩, h2, h1⟩ := bind_ok h1
    obtain ⟨⟨o3, m3⟩, h3, h1⟩ := bind_ok h1; cases h1; exact Nat.le_refl _
  case drainFilter =>
    obtain ⟨⟨o1, s1, m1⟩, h1, h⟩ := bind_ok h; cases h
    obtain ⟨⟨o2, m2⟩, h2, h1⟩ := bind_ok h1
    obtain ⟨⟨o3, m3⟩, h3, h1⟩ := bind_ok h1; cases h1; exact Nat.le_refl _
  case retain =>
    obtain ⟨⟨o1, m1⟩, h1, h⟩ := bind_ok h; cases h
    obtain ⟨⟨o2, s2⟩, h2, h1⟩ := bind_ok h1
    obtain ⟨m3, h3, h1⟩ := bind_ok h1; cases h1
    exact Nat.le_of_eq (retainDrop_counter h3)
  case retainPaired =>
    obtain ⟨⟨o1, m1⟩, h1, h⟩ := bind_ok h; cases h
    obtain ⟨ps, h2, h1⟩ := bind_ok h1
    obtain ⟨⟨m3, s3⟩, h3, h1⟩ := bind_ok h1; cases h1
    exact Nat.le_of_eq (retainPairedDrop_counter _)
  case retainUnpaired =>
    obtain ⟨⟨o1, m1⟩, h1, h⟩ := bind_ok h; cases h
    obtain ⟨⟨o2, s2⟩, h2, h1⟩ := bind_ok h1
    obtain ⟨m3, h3, h1⟩ := bind_ok h1; cases h1
    exact Nat.le_of_eq (retainUnpairedDrop_counter h3)
  case extendPairs => obtain ⟨m1, h1, h⟩ := bind_ok h; cases h; exact Nat.le_of_eq (extendPairs_counter h1)
  case extend => obtain ⟨m1, h1, h⟩ := bind_ok h; cases h; exact extend_counter h1
  case tryReserveLeft n a => cases h; cases a <;> exact Nat.le_refl _
  case tryReserveRight n a => cases h; cases a <;> exact Nat.le_refl _
  all_goals cases h; exact Nat.le_refl _

theorem run_counter {ops : List (Op L R)} {os} (h : m.run ops = .ok (os, m')) :
    m'.counter ≤ m.counter + (ops.map cost).sum := by
  induction ops generalizing m os with
  | nil => cases h; exact Nat.le_refl _
  | cons op ops ih =>
    obtain ⟨⟨o1, m1⟩, h1, h⟩ := bind_ok h
    obtain ⟨⟨os2, m2⟩, h2, h⟩ := bind_ok h
    cases h
    have := exec_counter h1
    have := ih h2
    simp; omega

end Verif.PartialMap
