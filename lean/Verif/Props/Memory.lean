import Verif.CycleMap.Room
import Verif.PartialMap.Room
import Verif.GroupMap.Room
import Verif.Swiss.Memory
import Verif.Instances
import Verif.Props.Always
/-! Property C117: memory.  It relies on the contract `LawfulMem` of the tables, which the concrete table meets. -/
set_option linter.unusedSectionVars false
namespace Verif.CycleMap
open RawTable
section
variable [RawImpl] [LawfulRaw] {L R : Type} [BEq L] [BEq R]

/-- at every point of a history, what is in each table and what the next call puts there or reserves is at most `N` elements -/
def within (N : Nat) : CycleMap L R → List (Op L R) → Bool
  | _, [] => true
  | m, op :: ops => decide (m.left.len + asks (fun n => n) op ≤ N) && decide (m.right.len + asks (fun n => n) op ≤ N) &&
    match m.exec op with
    | .ok (_, m') => within N m' ops
    | .error _ => true

theorem memory_bound [LawfulMem] {N B : Nat} {m m' : CycleMap L R} {ops : List (Op L R)} {os} (hw : within N m ops = true)
    (hN : 4 * N + 3 ≤ B) (hl : LawfulMem.mem m.left.aux ≤ B ∧ m.left.len ≤ B)
    (hr : LawfulMem.mem m.right.aux ≤ B ∧ m.right.len ≤ B) (h : m.run ops = .ok (os, m')) :
    m'.left.capacity ≤ B ∧ m'.right.capacity ≤ B := by
  induction ops generalizing m os with
  | nil =>
    cases h
    have h1 := LawfulMem.capacity m'.left
    have h2 := LawfulMem.capacity m'.right
    omega
  | cons op ops ih =>
    obtain ⟨⟨o1, m1⟩, h1, h⟩ := CycleMap.bind_ok h
    obtain ⟨⟨os2, m2⟩, h2, h⟩ := CycleMap.bind_ok h
    cases h
    simp only [within, h1, Bool.and_eq_true, decide_eq_true_eq] at hw
    obtain ⟨⟨w1, w2⟩, w3⟩ := hw
    have := exec_roomy (G := .memory) (.inl memory_shrinks) h1
    obtain ⟨⟨a1, a2⟩, ⟨b1, b2⟩⟩ := this
    exact ih w3 ⟨by change _ ≤ max _ (4 * (_ + asks (fun n => n) op) + 3) at a1; omega, by change _ ≤ _ + asks (fun n => n) op at a2; omega⟩
      ⟨by change _ ≤ max _ (4 * (_ + asks (fun n => n) op) + 3) at b1; omega, by change _ ≤ _ + asks (fun n => n) op at b2; omega⟩ h2

/-- C117: however long a history is, the memory of a map made by `with_capacity(n)` stays below what `n`, or the
largest number `N` of items it ever held or was asked to make room for, requires (up to a constant factor). -/
theorem C117_memory [LawfulMem] (n N : Nat) (hb : BuildHasher L R) (ops : List (Op L R)) {os} {m' : CycleMap L R}
    (hw : within N (withCapacityAndHasher n hb) ops = true) (h : (withCapacityAndHasher n hb).run ops = .ok (os, m')) :
    m'.left.capacity ≤ max (2 * n + 1) (4 * N + 3) ∧ m'.right.capacity ≤ max (2 * n + 1) (4 * N + 3) := by
  have e : ∀ {T : Type}, (RawTable.withCapacity n : RawTable T).len = 0 := by
    intro T
    simp only [RawTable.len, RawTable.withCapacity, (LawfulRaw.touch_perm _ _).length_eq]; rfl
  have l : ∀ {T : Type}, LawfulMem.mem (RawTable.withCapacity n : RawTable T).aux ≤ max (2 * n + 1) (4 * N + 3) ∧
      (RawTable.withCapacity n : RawTable T).len ≤ max (2 * n + 1) (4 * N + 3) := by
    intro T
    rw [e]
    exact ⟨Nat.le_trans (LawfulMem.new n) (Nat.le_max_left _ _), Nat.zero_le _⟩
  exact memory_bound hw (Nat.le_max_right _ _) l l h

end

section
local instance memRaw : RawImpl := swissRaw 4
local instance memRaw_lawful : LawfulRaw := swissRaw_lawful 4
local instance memRaw_mem : LawfulMem := swissRaw_mem 4

/-- pairs come and go, never more than 3 at a time: eleven calls -/
private def queue : List (Op Nat Nat) :=
  [.insert 1 11, .insert 2 12, .removeViaLeft 1, .insert 3 13, .removeViaLeft 2, .insert 4 14, .removeViaRight 13,
    .insert 5 15, .swapLeft 4 6, .removeViaLeft 5, .insert 7 17]

example : ∃ os m', (withCapacityAndHasher 0 spreadHash).run queue = .ok (os, m') ∧ m'.left.capacity ≤ 15 ∧
    m'.right.capacity ≤ 15 := by
  obtain ⟨x, e, -⟩ := ran (e := (withCapacityAndHasher 0 spreadHash).run queue) (p := fun _ => true) (by decide +kernel)
  exact ⟨_, _, e, C117_memory 0 3 spreadHash queue (by decide +kernel) e⟩
end

end Verif.CycleMap

namespace Verif.PartialMap
open RawTable
section
variable [RawImpl] [LawfulRaw] {L R : Type} [BEq L] [BEq R]

/-- at every point of a history, what is in each table and what the next call puts there or reserves is at most `N` elements -/
def within (N : Nat) : PartialMap L R → List (Op L R) → Bool
  | _, [] => true
  | m, op :: ops => decide (m.left.len + asksL (fun n => n) op ≤ N) && decide (m.right.len + asksR (fun n => n) op ≤ N) &&
    match m.exec op with
    | .ok (_, m') => within N m' ops
    | .error _ => true

theorem memory_bound [LawfulMem] {N B : Nat} {m m' : PartialMap L R} {ops : List (Op L R)} {os} (hw : within N m ops = true)
    (hN : 4 * N + 3 ≤ B) (hl : LawfulMem.mem m.left.aux ≤ B ∧ m.left.len ≤ B)
    (hr : LawfulMem.mem m.right.aux ≤ B ∧ m.right.len ≤ B) (h : m.run ops = .ok (os, m')) :
    m'.left.capacity ≤ B ∧ m'.right.capacity ≤ B := by
  induction ops generalizing m os with
  | nil =>
    cases h
    have h1 := LawfulMem.capacity m'.left
    have h2 := LawfulMem.capacity m'.right
    omega
  | cons op ops ih =>
    obtain ⟨⟨o1, m1⟩, h1, h⟩ := CycleMap.bind_ok h
    obtain ⟨⟨os2, m2⟩, h2, h⟩ := CycleMap.bind_ok h
    cases h
    simp only [within, h1, Bool.and_eq_true, decide_eq_true_eq] at hw
    obtain ⟨⟨w1, w2⟩, w3⟩ := hw
    have := exec_roomy (G := .memory) (.inl memory_shrinks) h1
    obtain ⟨⟨a1, a2⟩, ⟨b1, b2⟩⟩ := this
    exact ih w3 ⟨by change _ ≤ max _ (4 * (_ + asksL (fun n => n) op) + 3) at a1; omega, by change _ ≤ _ + asksL (fun n => n) op at a2; omega⟩
      ⟨by change _ ≤ max _ (4 * (_ + asksR (fun n => n) op) + 3) at b1; omega, by change _ ≤ _ + asksR (fun n => n) op at b2; omega⟩ h2

/-- C117: however long a history is, the memory of a map made by `with_capacity(n)` stays below what `n`, or the
largest number `N` of items it ever held or was asked to make room for, requires (up to a constant factor). -/
theorem C117_memory [LawfulMem] (n N : Nat) (hb : BuildHasher L R) (ops : List (Op L R)) {os} {m' : PartialMap L R}
    (hw : within N (withCapacityAndHasher n hb) ops = true) (h : (withCapacityAndHasher n hb).run ops = .ok (os, m')) :
    m'.left.capacity ≤ max (2 * n + 1) (4 * N + 3) ∧ m'.right.capacity ≤ max (2 * n + 1) (4 * N + 3) := by
  have e : ∀ {T : Type}, (RawTable.withCapacity n : RawTable T).len = 0 := by
    intro T
    simp only [RawTable.len, RawTable.withCapacity, (LawfulRaw.touch_perm _ _).length_eq]; rfl
  have l : ∀ {T : Type}, LawfulMem.mem (RawTable.withCapacity n : RawTable T).aux ≤ max (2 * n + 1) (4 * N + 3) ∧
      (RawTable.withCapacity n : RawTable T).len ≤ max (2 * n + 1) (4 * N + 3) := by
    intro T
    rw [e]
    exact ⟨Nat.le_trans (LawfulMem.new n) (Nat.le_max_left _ _), Nat.zero_le _⟩
  exact memory_bound hw (Nat.le_max_right _ _) l l h

end

section
local instance memRaw : RawImpl := swissRaw 4
local instance memRaw_lawful : LawfulRaw := swissRaw_lawful 4
local instance memRaw_mem : LawfulMem := swissRaw_mem 4

/-- pairs come and go, never more than 3 at a time: eleven calls -/
private def queue : List (Op Nat Nat) :=
  [.insert 1 11, .insertLeft 2, .removeViaLeft 1, .insert 3 13, .removeViaLeft 2, .insertRight 14, .removeViaRight 13,
    .insert 5 15, .pair 5 14, .removeViaLeft 5, .insert 7 17]

example : ∃ os m', (withCapacityAndHasher 0 spreadHash).run queue = .ok (os, m') ∧ m'.left.capacity ≤ 15 ∧
    m'.right.capacity ≤ 15 := by
  obtain ⟨x, e, -⟩ := ran (e := (withCapacityAndHasher 0 spreadHash).run queue) (p := fun _ => true) (by decide +kernel)
  exact ⟨_, _, e, C117_memory 0 3 spreadHash queue (by decide +kernel) e⟩
end

end Verif.PartialMap

namespace Verif.GroupMap
open RawTable
section
variable [RawImpl] [LawfulRaw] {L R : Type} [BEq L] [BEq R]

/-- at every point of a history, what is in each table and what the next call puts there is at most `N` elements -/
def within (N : Nat) : GroupMap L R → List (Op L R) → Bool
  | _, [] => true
  | m, op :: ops => decide (m.left.len + putsL op ≤ N) && decide (m.right.len + putsR op ≤ N) &&
    match m.exec op with
    | .ok (_, m') => within N m' ops
    | .error _ => true

theorem memory_bound [LawfulMem] {N B : Nat} {m m' : GroupMap L R} {ops : List (Op L R)} {os} (hw : within N m ops = true)
    (hN : 4 * N + 3 ≤ B) (hl : LawfulMem.mem m.left.aux ≤ B ∧ m.left.len ≤ B)
    (hr : LawfulMem.mem m.right.aux ≤ B ∧ m.right.len ≤ B) (h : m.run ops = .ok (os, m')) :
    m'.left.capacity ≤ B ∧ m'.right.capacity ≤ B := by
  induction ops generalizing m os with
  | nil =>
    cases h
    have h1 := LawfulMem.capacity m'.left
    have h2 := LawfulMem.capacity m'.right
    omega
  | cons op ops ih =>
    obtain ⟨⟨o1, m1⟩, h1, h⟩ := CycleMap.bind_ok h
    obtain ⟨⟨os2, m2⟩, h2, h⟩ := CycleMap.bind_ok h
    cases h
    simp only [within, h1, Bool.and_eq_true, decide_eq_true_eq] at hw
    obtain ⟨⟨w1, w2⟩, w3⟩ := hw
    have := exec_roomy (G := .memory) h1
    obtain ⟨⟨a1, a2⟩, ⟨b1, b2⟩⟩ := this
    exact ih w3 ⟨by change _ ≤ max _ (4 * (_ + putsL op) + 3) at a1; omega, by change _ ≤ _ + putsL op at a2; omega⟩
      ⟨by change _ ≤ max _ (4 * (_ + putsR op) + 3) at b1; omega, by change _ ≤ _ + putsR op at b2; omega⟩ h2

/-- C117: however long a history is, the memory of a map made by `with_capacity(n)` stays below what `n`, or the
largest number `N` of items it ever held, requires (up to a constant factor). -/
theorem C117_memory [LawfulMem] (n N : Nat) (hb : BuildHasher L R) (ops : List (Op L R)) {os} {m' : GroupMap L R}
    (hw : within N (withCapacityAndHasher n hb) ops = true) (h : (withCapacityAndHasher n hb).run ops = .ok (os, m')) :
    m'.left.capacity ≤ max (2 * n + 1) (4 * N + 3) ∧ m'.right.capacity ≤ max (2 * n + 1) (4 * N + 3) := by
  have e : ∀ {T : Type}, (RawTable.withCapacity n : RawTable T).len = 0 := by
    intro T
    simp only [RawTable.len, RawTable.withCapacity, (LawfulRaw.touch_perm _ _).length_eq]; rfl
  have l : ∀ {T : Type}, LawfulMem.mem (RawTable.withCapacity n : RawTable T).aux ≤ max (2 * n + 1) (4 * N + 3) ∧
      (RawTable.withCapacity n : RawTable T).len ≤ max (2 * n + 1) (4 * N + 3) := by
    intro T
    rw [e]
    exact ⟨Nat.le_trans (LawfulMem.new n) (Nat.le_max_left _ _), Nat.zero_le _⟩
  exact memory_bound hw (Nat.le_max_right _ _) l l h

end

section
local instance memRaw : RawImpl := swissRaw 4
local instance memRaw_lawful : LawfulRaw := swissRaw_lawful 4
local instance memRaw_mem : LawfulMem := swissRaw_mem 4

/-- left items come and go, never more than 2 at a time: eleven calls -/
private def queue : List (Op Nat Nat) :=
  [.insert 1 11, .insert 2 11, .removeLeft 1, .insert 3 11, .removeLeft 2, .insertRight 14, .removeRight 11,
    .insert 5 14, .pair 5 14, .removeLeft 5, .insert 7 14]

example : ∃ os m', (withCapacityAndHasher 0 spreadHash).run queue = .ok (os, m') ∧ m'.left.capacity ≤ 11 ∧
    m'.right.capacity ≤ 11 := by
  obtain ⟨x, e, -⟩ := ran (e := (withCapacityAndHasher 0 spreadHash).run queue) (p := fun _ => true) (by decide +kernel)
  exact ⟨_, _, e, C117_memory 0 2 spreadHash queue (by decide +kernel) e⟩
end

end Verif.GroupMap
