import Verif.Room
/-! The memory of a table, bounded from above: the contract, and what it means for a sequence of calls.
`Verif/Swiss/Memory.lean` shows that the concrete table meets it. -/
namespace Verif

/-- The contract of the allocations of `RawTable` (only the memory properties rely on it): a table is not larger than
its elements and what was asked for require, up to a constant factor.  `mem` is the number of elements that fit into
the memory a table has allocated, which is a matter of its layout. -/
class LawfulMem [RawImpl] where
  mem : Nat → Nat
  /-- `capacity()` counts allocated memory only -/
  capacity : ∀ {T : Type} (t : RawTable T), t.capacity ≤ max (mem t.aux) t.len
  /-- `with_capacity(n)` allocates for about `n` elements -/
  new : ∀ {T : Type} (n : Nat), mem (RawTable.withCapacity n : RawTable T).aux ≤ 2 * n + 1
  /-- inserting an element enlarges a table only as far as the number of elements requires -/
  insert : ∀ {T : Type} (t : RawTable T) (h : UInt64) (v : T) (hasher : T → UInt64),
    mem (t.insert h v hasher).aux ≤ max (mem t.aux) (4 * (t.len + 1) + 3)
  /-- removing elements allocates nothing -/
  erase : ∀ {T : Type} (t : RawTable T) (stays : List Bool) (es : List (UInt64 × T)), es.Sublist t.entries →
    mem (RawImpl.touch (.erase stays) { t with entries := es }).aux ≤ max (mem t.aux) (4 * t.len + 3)
  /-- `clear` allocates nothing -/
  clear : ∀ {T : Type} (t : RawTable T), mem t.clear.aux ≤ max (mem t.aux) (4 * t.len + 3)
  /-- `reserve(n)` enlarges a table only as far as the elements and `n` more require -/
  reserve : ∀ {T : Type} (t : RawTable T) (n : Nat) (hasher : T → UInt64),
    mem (t.reserve n hasher).aux ≤ max (mem t.aux) (4 * (t.len + n) + 3)
  /-- `shrink_to` never enlarges a table -/
  shrink : ∀ {T : Type} (t : RawTable T) (n : Nat) (hasher : T → UInt64),
    mem (t.shrinkTo n hasher).aux ≤ max (mem t.aux) (4 * t.len + 3)

namespace RawTable

/-- the memory of `t'` is that of `t`, or what its elements and `k` more require -/
@[reducible] def Meter.memory [RawImpl] [LawfulMem] : Meter where
  rel k _ t t' := LawfulMem.mem t'.aux ≤ max (LawfulMem.mem t.aux) (4 * (t.len + k) + 3) ∧ t'.len ≤ t.len + k
  cost n := n

section
variable [RawImpl] {T : Type}

theorem touch_len [LawfulRaw] (op : TableOp) (t : RawTable T) : (RawImpl.touch op t).len = t.len :=
  (LawfulRaw.touch_perm op t).length_eq

theorem rehash_len (op : TableOp) (hasher : T → UInt64) (t : RawTable T) : (t.rehash op hasher).len = t.len := by
  rw [rehash]; split <;> simp [len]

end

instance [RawImpl] [LawfulRaw] [LawfulMem] : Meter.memory.Lawful where
  refl _ _ := ⟨Nat.le_max_left _ _, Nat.le_add_right _ _⟩
  mono h hk := ⟨by have := h.1; omega, by have := h.2; omega⟩
  trans h h' := ⟨by have := h.1; have := h.2; have := h'.1; omega, by have := h.2; have := h'.2; omega⟩
  congr h h' := by
    have := congrArg List.length h'
    simp only [List.length_map] at this
    exact ⟨by rw [h]; exact Nat.le_max_left _ _, by simp only [len]; omega⟩
  insert t h v hasher := ⟨LawfulMem.insert t h v hasher, by
    have := rehash_len (.insert h) hasher t
    rw [RawTable.insert, touch_len]
    simp only [len, List.length_cons] at *
    omega⟩
  erase t stays es h := ⟨LawfulMem.erase t stays es h, by rw [touch_len]; exact h.length_le⟩
  clear t := ⟨LawfulMem.clear t, by rw [clear, touch_len]; exact Nat.zero_le _⟩
  reserve t n hasher := ⟨LawfulMem.reserve t n hasher, by
    rw [RawTable.reserve, touch_len, rehash_len]; exact Nat.le_add_right _ _⟩

theorem memory_shrinks [RawImpl] [LawfulRaw] [LawfulMem] : Meter.memory.Shrinks := fun t n hasher =>
  ⟨LawfulMem.shrink t n hasher, by rw [shrinkTo, touch_len, rehash_len]; exact Nat.le_refl _⟩

end RawTable
end Verif
