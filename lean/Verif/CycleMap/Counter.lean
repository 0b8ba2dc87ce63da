import Verif.CycleMap.Machine
import Verif.CycleMap.Serde
/-! Growth of the id counter, for arbitrary (also corrupted) maps. -/
set_option linter.unusedSectionVars false
set_option linter.unusedSimpArgs false
namespace Verif.CycleMap
open CycleSpec OptionalPair

variable [RawImpl] {L R : Type} [BEq L] [BEq R]
variable {m m' : CycleMap L R}

theorem bind_ok {α β : Type} {x : Res α} {f : α → Res β} {b : β} (h : (x >>= f) = .ok b) :
    ∃ a, x = .ok a ∧ f a = .ok b := by
  cases x with
  | error e => cases h
  | ok a => exact ⟨a, rfl, h⟩

theorem removeViaLeft_counter {l : L} {o} (h : m.removeViaLeft l = .ok (o, m')) : m'.counter = m.counter := by
  simp only [removeViaLeft] at h
  repeat' split at h
  all_goals first | cases h; rfl | cases h

theorem removeViaRight_counter {r : R} {o} (h : m.removeViaRight r = .ok (o, m')) : m'.counter = m.counter := by
  simp only [removeViaRight] at h
  repeat' split at h
  all_goals first | cases h; rfl | cases h

theorem remove_counter {l : L} {r : R} {o} (h : m.remove l r = .ok (o, m')) : m'.counter = m.counter := by
  simp only [remove] at h
  split at h
  · exact removeViaLeft_counter h
  · cases h; rfl

theorem removeViaHashesAndId_counter {a b : UInt64} {i : Nat} {o} (h : m.removeViaHashesAndId a b i = .ok (o, m')) :
    m'.counter = m.counter := by
  simp only [removeViaHashesAndId] at h
  repeat' split at h
  all_goals first | cases h; rfl | cases h

theorem insert_counter {l : L} {r : R} {o} (h : m.insert l r = .ok (o, m')) : m'.counter = m.counter + 1 := by
  obtain ⟨⟨o1, m1⟩, h1, h⟩ := bind_ok h
  obtain ⟨⟨o2, m2⟩, h2, h⟩ := bind_ok h
  cases h
  rw [← removeViaLeft_counter h1, ← removeViaRight_counter h2]

theorem swapLeftEqCheck_counter {a b : L} {x : UInt64} {o} (h : m.swapLeftEqCheck a b x = .ok (o, m')) :
    m'.counter = m.counter := by
  simp only [swapLeftEqCheck] at h
  repeat' split at h
  · cases h; rfl
  · exact removeViaLeft_counter h
  · cases h; rfl

theorem swapRightEqCheck_counter {a b : R} {x : UInt64} {o} (h : m.swapRightEqCheck a b x = .ok (o, m')) :
    m'.counter = m.counter := by
  simp only [swapRightEqCheck] at h
  repeat' split at h
  · cases h; rfl
  · exact removeViaRight_counter h
  · cases h; rfl

theorem swapLeft_counter {a b : L} {o} (h : m.swapLeft a b = .ok (o, m')) : m'.counter = m.counter := by
  obtain ⟨⟨o1, m1⟩, h1, h⟩ := bind_ok h
  have e := swapLeftEqCheck_counter h1
  simp only at h
  repeat' split at h
  all_goals first | (cases h; exact e) | cases h

theorem swapRight_counter {a b : R} {o} (h : m.swapRight a b = .ok (o, m')) : m'.counter = m.counter := by
  obtain ⟨⟨o1, m1⟩, h1, h⟩ := bind_ok h
  have e := swapRightEqCheck_counter h1
  simp only at h
  repeat' split at h
  all_goals first | (cases h; exact e) | cases h

theorem retainDrop_counter {ks : List (UInt64 × UInt64 × Nat)} (h : m.retainDrop ks = .ok m') :
    m'.counter = m.counter := by
  induction ks generalizing m with
  | nil => cases h; rfl
  | cons k ks ih =>
    obtain ⟨⟨o1, m1⟩, h1, h⟩ := bind_ok h
    rw [ih h, removeViaHashesAndId_counter h1]

theorem extend_counter {xs : List (L × R)} (h : m.extend xs = .ok m') : m'.counter = m.counter + xs.length := by
  induction xs generalizing m with
  | nil => cases h; rfl
  | cons x xs ih =>
    obtain ⟨⟨o1, m1⟩, h1, h⟩ := bind_ok h
    rw [ih h, insert_counter h1]; simp; omega

/-- the number of ids a call may allocate -/
def cost : Op L R → Nat
  | .insert .. => 1
  | .swapLeftOrInsert .. => 1
  | .swapRightOrInsert .. => 1
  | .extend xs => xs.length
  | _ => 0

theorem exec_counter {op : Op L R} {o} (h : m.exec op = .ok (o, m')) : m'.counter ≤ m.counter + cost op := by
  cases op <;> simp only [exec, cost, Nat.add_zero] at h ⊢
  case insert => obtain ⟨⟨o1, m1⟩, h1, h⟩ := bind_ok h; cases h; exact Nat.le_of_eq (insert_counter h1)
  case remove => obtain ⟨⟨o1, m1⟩, h1, h⟩ := bind_ok h; cases h; exact Nat.le_of_eq (remove_counter h1)
  case removeViaLeft => obtain ⟨⟨o1, m1⟩, h1, h⟩ := bind_ok h; cases h; exact Nat.le_of_eq (removeViaLeft_counter h1)
  case removeViaRight => obtain ⟨⟨o1, m1⟩, h1, h⟩ := bind_ok h; cases h; exact Nat.le_of_eq (removeViaRight_counter h1)
  case swapLeft => obtain ⟨⟨o1, m1⟩, h1, h⟩ := bind_ok h; cases h; exact Nat.le_of_eq (swapLeft_counter h1)
  case swapRight => obtain ⟨⟨o1, m1⟩, h1, h⟩ := bind_ok h; cases h; exact Nat.le_of_eq (swapRight_counter h1)
  case swapLeftChecked =>
    obtain ⟨⟨o1, m1⟩, h1, h⟩ := bind_ok h; cases h
    simp only [swapLeftChecked] at h1
    split at h1
    · cases h1; exact Nat.le_refl _
    · exact Nat.le_of_eq (swapLeft_counter h1)
  case swapRightChecked =>
    obtain ⟨⟨o1, m1⟩, h1, h⟩ := bind_ok h; cases h
    simp only [swapRightChecked] at h1
    split at h1
    · cases h1; exact Nat.le_refl _
    · exact Nat.le_of_eq (swapRight_counter h1)
  case swapLeftOrInsert =>
    obtain ⟨⟨o1, m1⟩, h1, h⟩ := bind_ok h; cases h
    simp only [swapLeftOrInsert] at h1
    split at h1
    · rw [swapLeft_counter h1]; exact Nat.le_succ _
    · obtain ⟨⟨o2, m2⟩, h2, h1⟩ := bind_ok h1; cases h1; exact Nat.le_of_eq (insert_counter h2)
  case swapRightOrInsert =>
    obtain ⟨⟨o1, m1⟩, h1, h⟩ := bind_ok h; cases h
    simp only [swapRightOrInsert] at h1
    split at h1
    · rw [swapRight_counter h1]; exact Nat.le_succ _
    · obtain ⟨⟨o2, m2⟩, h2, h1⟩ := bind_ok h1
      cases o2 <;> cases h1 <;> exact Nat.le_of_eq (insert_counter h2)
  case iter => obtain ⟨ps, h1, h⟩ := bind_ok h; cases h; exact Nat.le_refl _
  case drain =>
    obtain ⟨⟨o1, m1⟩, h1, h⟩ := bind_ok h; cases h
    obtain ⟨⟨o2, m2⟩, h2, h1⟩ := bind_ok h1; cases h1; exact Nat.zero_le _
  case drainFilter =>
    obtain ⟨⟨o1, s1, m1⟩, h1, h⟩ := bind_ok h; cases h
    obtain ⟨⟨o2, m2⟩, h2, h1⟩ := bind_ok h1
    obtain ⟨⟨o3, m3⟩, h3, h1⟩ := bind_ok h1; cases h1; exact Nat.le_refl _
  case drainFilterAll =>
    obtain ⟨⟨o1, s1, m1⟩, h1, h⟩ := bind_ok h; cases h
    obtain ⟨⟨o2, m2⟩, h2, h1⟩ := bind_ok h1
    obtain ⟨⟨o3, m3⟩, h3, h1⟩ := bind_ok h1; cases h1; exact Nat.le_refl _
  case retain =>
    obtain ⟨⟨o1, m1⟩, h1, h⟩ := bind_ok h; cases h
    obtain ⟨⟨o2, s2⟩, h2, h1⟩ := bind_ok h1
    obtain ⟨m3, h3, h1⟩ := bind_ok h1; cases h1
    exact Nat.le_of_eq (retainDrop_counter h3)
  case extend => obtain ⟨m1, h1, h⟩ := bind_ok h; cases h; exact Nat.le_of_eq (extend_counter h1)
  case tryReserve n a b =>
    cases h; cases a <;> cases b <;> exact Nat.le_refl _
  all_goals cases h; exact Nat.le_refl _

theorem run_counter {ops : List (Op L R)} {os} (h : m.run ops = .ok (os, m')) :
    m'.counter ≤ m.counter + (ops.map cost).sum := by
  induction ops generalizing m os with
  | nil => cases h; exact Nat.le_refl _
  | cons op ops ih =>
    obtain ⟨⟨o1, m1⟩, h1, h⟩ := bind_ok h
    obtain ⟨⟨os2, m2⟩, h2, h⟩ := bind_ok h
    cases h
    have := exec_counter h1
    have := ih h2
    simp; omega

end Verif.CycleMap
