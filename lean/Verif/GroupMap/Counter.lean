import Verif.GroupMap.Machine
import Verif.CycleMap.Counter
/-! Growth of the two id counters of `GroupMap`, for arbitrary (also corrupted) maps. -/
set_option linter.unusedSectionVars false
set_option linter.unusedSimpArgs false
namespace Verif.GroupMap
open GroupSpec
open CycleMap (bind_ok)

variable [RawImpl] {L R : Type} [BEq L] [BEq R]
variable {m m' : GroupMap L R}

/-- both counters grow by at most `n` -/
def Grows (n : Nat) (m m' : GroupMap L R) : Prop :=
  m'.leftCounter ≤ m.leftCounter + n ∧ m'.rightCounter ≤ m.rightCounter + n

theorem Grows.refl (n : Nat) (m : GroupMap L R) : Grows n m m := ⟨by omega, by omega⟩

theorem Grows.trans {a b : Nat} {m₁ m₂ m₃ : GroupMap L R} (h : Grows a m₁ m₂) (h' : Grows b m₂ m₃) :
    Grows (a + b) m₁ m₃ := by
  obtain ⟨h1, h2⟩ := h
  obtain ⟨h3, h4⟩ := h'
  exact ⟨by omega, by omega⟩

theorem removeLeft_grows {l : L} {o} (h : m.removeLeft l = .ok (o, m')) : Grows 0 m m' := by
  simp only [removeLeft] at h
  repeat' split at h
  all_goals first | (cases h; exact ⟨Nat.le_refl _, Nat.le_refl _⟩) | cases h

theorem removeRight_grows {r : R} {o} (h : m.removeRight r = .ok (o, m')) : Grows 0 m m' := by
  simp only [removeRight] at h
  split at h
  · cases h; exact Grows.refl _ _
  · obtain ⟨⟨o1, m1⟩, h1, h⟩ := bind_ok h
    cases h; exact ⟨Nat.le_refl _, Nat.le_refl _⟩

theorem removeViaHashAndId_grows {a : UInt64} {i : Nat} {o} (h : m.removeViaHashAndId a i = .ok (o, m')) :
    Grows 0 m m' := by
  simp only [removeViaHashAndId] at h
  split at h
  · cases h; exact Grows.refl _ _
  · obtain ⟨⟨o1, m1⟩, h1, h⟩ := bind_ok h
    cases h; exact ⟨Nat.le_refl _, Nat.le_refl _⟩

theorem remove_grows {l : L} {r : R} {o} (h : m.remove l r = .ok (o, m')) : Grows 0 m m' := by
  simp only [remove] at h
  split at h
  · exact removeRight_grows h
  · cases h; exact Grows.refl _ _

theorem insert_grows {l : L} {r : R} (h : m.insert l r = .ok m') : Grows 1 m m' := by
  simp only [insert] at h
  repeat' split at h
  all_goals first | (cases h; exact ⟨by simp, by simp⟩) | cases h

theorem insertRemove_grows {l : L} {r : R} {o} (h : m.insertRemove l r = .ok (o, m')) : Grows 1 m m' := by
  obtain ⟨⟨o1, m1⟩, h1, h⟩ := bind_ok h
  obtain ⟨⟨o2, m2⟩, h2, h⟩ := bind_ok h
  have e := (removeLeft_grows h1).trans (removeRight_grows h2)
  cases h
  exact ⟨by have := e.1; simp at this ⊢; omega, by have := e.2; simp at this ⊢; omega⟩

theorem insertLeft_grows {l : L} {r : R} {o} (h : m.insertLeft l r = .ok (o, m')) : Grows 1 m m' := by
  simp only [insertLeft] at h
  split at h
  · cases h; exact Grows.refl _ _
  · obtain ⟨⟨o1, m1⟩, h1, h⟩ := bind_ok h
    have e := removeLeft_grows h1
    cases h
    exact ⟨by have := e.1; simp at this ⊢; omega, by have := e.2; simp at this ⊢; omega⟩

theorem insertRight_grows {r : R} {o} (h : m.insertRight r = .ok (o, m')) : Grows 1 m m' := by
  obtain ⟨⟨o1, m1⟩, h1, h⟩ := bind_ok h
  have e := removeRight_grows h1
  cases h
  exact ⟨by have := e.1; simp at this ⊢; omega, by have := e.2; simp at this ⊢; omega⟩

theorem swapRight_grows {a b : R} (h : m.swapRight a b = .ok m') : Grows 1 m m' := by
  simp only [swapRight] at h
  split at h
  · obtain ⟨⟨o1, m1⟩, h1, h⟩ := bind_ok h
    cases h; exact insertRight_grows h1
  · obtain ⟨o1, h1, h⟩ := bind_ok h
    cases h; exact ⟨by simp, by simp⟩

theorem swapRightRemove_grows {a b : R} {o} (h : m.swapRightRemove a b = .ok (o, m')) : Grows 1 m m' := by
  simp only [swapRightRemove] at h
  split at h
  · obtain ⟨⟨o1, m1⟩, h1, h⟩ := bind_ok h
    cases h; exact insertRight_grows h1
  · obtain ⟨o1, h1, h⟩ := bind_ok h
    cases h; exact ⟨by simp, by simp⟩

theorem pair_grows {l : L} {r : R} {o} (h : m.pair l r = .ok (o, m')) : Grows 0 m m' := by
  simp only [pair] at h
  repeat' split at h
  all_goals first | (cases h; exact ⟨by simp, by simp⟩) | cases h

theorem retainPaired_grows {σ : Type} {f : σ → L → R → Bool × σ} {s : σ} {o}
    (h : m.retainPaired f s = .ok (o, m')) : Grows 0 m m' := by
  obtain ⟨o1, h1, h⟩ := bind_ok h
  obtain ⟨⟨o2, s2⟩, h2, h⟩ := bind_ok h
  cases h; exact ⟨by simp, by simp⟩

theorem retainUnpairedDrop_grows {ks} (h : m.retainUnpairedDrop ks = .ok m') : Grows 0 m m' := by
  induction ks generalizing m with
  | nil => cases h; exact Grows.refl _ _
  | cons k ks ih =>
    obtain ⟨⟨o1, m1⟩, h1, h⟩ := bind_ok h
    exact (removeViaHashAndId_grows h1).trans (ih h)

theorem retainUnpaired_grows {σ : Type} {f : σ → R → Bool × σ} {s : σ} {o}
    (h : m.retainUnpaired f s = .ok (o, m')) : Grows 0 m m' := by
  obtain ⟨⟨o1, s1⟩, h1, h⟩ := bind_ok h
  obtain ⟨m2, h2, h⟩ := bind_ok h
  cases h; exact retainUnpairedDrop_grows h2

theorem extend_grows {xs : List (L × R)} (h : m.extend xs = .ok m') : Grows xs.length m m' := by
  induction xs generalizing m with
  | nil => cases h; exact Grows.refl _ _
  | cons x xs ih =>
    obtain ⟨m1, h1, h⟩ := bind_ok h
    have := (insert_grows h1).trans (ih h)
    rwa [Nat.add_comm] at this

theorem extendOpt_grows {xs : List (Option L × R)} (h : m.extendOpt xs = .ok m') : Grows xs.length m m' := by
  induction xs generalizing m with
  | nil => cases h; exact Grows.refl _ _
  | cons x xs ih =>
    obtain ⟨l, r⟩ := x
    cases l with
    | none =>
      obtain ⟨⟨o1, m1⟩, h1, h⟩ := bind_ok h
      have := (insertRight_grows h1).trans (ih h)
      rwa [Nat.add_comm] at this
    | some l =>
      obtain ⟨m1, h1, h⟩ := bind_ok h
      have := (insert_grows h1).trans (ih h)
      rwa [Nat.add_comm] at this

/-- the number of ids a call may allocate on each side -/
def cost : Op L R → Nat
  | .insert .. => 1
  | .insertRemove .. => 1
  | .insertLeft .. => 1
  | .insertRight .. => 1
  | .swapRight .. => 1
  | .swapRightRemove .. => 1
  | .extend xs => xs.length
  | .extendOpt xs => xs.length
  | _ => 0

theorem exec_grows {op : Op L R} {o} (h : m.exec op = .ok (o, m')) : Grows (cost op) m m' := by
  cases op <;> simp only [exec, cost] at h ⊢
  case insert => obtain ⟨m1, h1, h⟩ := bind_ok h; cases h; exact insert_grows h1
  case insertRemove => obtain ⟨⟨o1, m1⟩, h1, h⟩ := bind_ok h; cases h; exact insertRemove_grows h1
  case insertLeft => obtain ⟨⟨o1, m1⟩, h1, h⟩ := bind_ok h; cases h; exact insertLeft_grows h1
  case insertRight => obtain ⟨⟨o1, m1⟩, h1, h⟩ := bind_ok h; cases h; exact insertRight_grows h1
  case swapRight => obtain ⟨m1, h1, h⟩ := bind_ok h; cases h; exact swapRight_grows h1
  case swapRightRemove => obtain ⟨⟨o1, m1⟩, h1, h⟩ := bind_ok h; cases h; exact swapRightRemove_grows h1
  case pair => obtain ⟨⟨o1, m1⟩, h1, h⟩ := bind_ok h; cases h; exact pair_grows h1
  case remove => obtain ⟨⟨o1, m1⟩, h1, h⟩ := bind_ok h; cases h; exact remove_grows h1
  case removeLeft => obtain ⟨⟨o1, m1⟩, h1, h⟩ := bind_ok h; cases h; exact removeLeft_grows h1
  case removeRight => obtain ⟨⟨o1, m1⟩, h1, h⟩ := bind_ok h; cases h; exact removeRight_grows h1
  case retainPaired => obtain ⟨⟨o1, m1⟩, h1, h⟩ := bind_ok h; cases h; exact retainPaired_grows h1
  case retainUnpaired => obtain ⟨⟨o1, m1⟩, h1, h⟩ := bind_ok h; cases h; exact retainUnpaired_grows h1
  case extend => obtain ⟨m1, h1, h⟩ := bind_ok h; cases h; exact extend_grows h1
  case extendOpt => obtain ⟨m1, h1, h⟩ := bind_ok h; cases h; exact extendOpt_grows h1
  case getLeftIter => obtain ⟨o1, h1, h⟩ := bind_ok h; cases h; exact Grows.refl _ _
  case iter => obtain ⟨o1, h1, h⟩ := bind_ok h; cases h; exact Grows.refl _ _
  case iterPaired => obtain ⟨o1, h1, h⟩ := bind_ok h; cases h; exact Grows.refl _ _
  all_goals cases h; exact ⟨by simp [clear, clone], by simp [clear, clone]⟩

theorem run_grows {ops : List (Op L R)} {os} (h : m.run ops = .ok (os, m')) : Grows (ops.map cost).sum m m' := by
  induction ops generalizing m os with
  | nil => cases h; exact Grows.refl _ _
  | cons op ops ih =>
    obtain ⟨⟨o1, m1⟩, h1, h⟩ := bind_ok h
    obtain ⟨⟨os, m2⟩, h2, h⟩ := bind_ok h
    cases h
    exact (exec_grows h1).trans (ih h2)

end Verif.GroupMap
