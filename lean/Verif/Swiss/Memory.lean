import Verif.Memory
import Verif.Swiss.Lawful
/-! The concrete table meets the contract `LawfulMem`: it doubles its number of buckets, and only when it is at least
half full. -/
namespace Verif
namespace Swiss
variable {T : Type} {w : Nat}

theorem build_length (n : Nat) (es : List (UInt64 × T)) : (build w n es).length = n := by
  have : ∀ (es : List (UInt64 × T)) (s : List (Slot (UInt64 × T))), (es.foldl (place w) s).length = s.length := by
    intro es
    induction es with
    | nil => intro s; rfl
    | cons e es ih => intro s; rw [List.foldl_cons, ih, place_length]
  rw [build, this, List.length_replicate]

/-- a table for `c` elements has room for at most twice as many -/
theorem capOf_buckets_pos {c : Nat} (h : 0 < c) : capOf (buckets c) ≤ 2 * c + 1 := by
  by_cases h1 : c < 8
  · rw [buckets]
    split
    · simp only [capOf]; split <;> omega
    · simp only [capOf]; split <;> omega
  · rw [buckets, if_neg (by omega), if_neg h1]
    have h3 : nextPow2 (c * 8 / 7) ≤ 2 * (c * 8 / 7 - 1) := by
      have := Nat.log2_self_le (n := c * 8 / 7 - 1) (by omega)
      rw [nextPow2, Nat.pow_succ]
      omega
    rw [capOf]; split <;> omega

theorem capOf_buckets_le (c : Nat) : capOf (buckets c) ≤ 2 * c + 3 := by
  rcases Nat.eq_zero_or_pos c with rfl | h
  · decide
  · have := capOf_buckets_pos h
    omega

theorem capOf_mono {a b : Nat} (h : a ≤ b) : capOf a ≤ capOf b := by
  rw [capOf, capOf]; split <;> split <;> omega

/-- the number of elements that fit into as many buckets as there are control bytes -/
def memOf (aux : Nat) : Nat := capOf (dec aux).length

theorem memOf_ofSlots (s : List (Slot (UInt64 × T))) : memOf (ofSlots s).aux = capOf s.length := by
  simp only [memOf, ofSlots, dec_enc, List.length_map]

theorem capOf_slots (t : RawTable T) : capOf (slots w t).length ≤ max (memOf t.aux) (2 * t.len + 3) := by
  rw [slots]
  split
  · rw [fill_length]; exact Nat.le_max_left _ _
  · rw [build_length]; exact Nat.le_trans (capOf_buckets_le _) (Nat.le_max_right _ _)

theorem capOf_rehash (s : List (Slot (UInt64 × T))) (k : Nat) :
    capOf (rehashBuckets s k) ≤ max (capOf s.length) (4 * ((items s).length + k) + 3) := by
  rw [rehashBuckets]
  split
  · exact Nat.le_max_left _ _
  · have := capOf_buckets_le (max ((items s).length + k) (capOf s.length + 1))
    omega

theorem capOf_shrink {s : List (Slot (UInt64 × T))} {n k : Nat} (h : shrinkBuckets s n = some k) :
    capOf k ≤ capOf s.length := by
  simp only [shrinkBuckets] at h
  split at h
  · rw [← Option.some.inj h]; simp [capOf]
  · split at h
    · rename_i hlt
      rw [← Option.some.inj h]
      exact capOf_mono (Nat.le_of_lt hlt)
    · exact absurd h (by simp)

end Swiss
open Swiss

@[reducible] def swissRaw_mem (w : Nat) : @LawfulMem (swissRaw w) :=
  letI := swissRaw w
  { mem := memOf
    capacity := by
      intro T t
      rw [RawTable.capacity, growthLeft_eq]
      split
      · rename_i hf
        obtain ⟨hp, hi, hu⟩ := fits_iff.1 hf
        have := used_ge_items (dec t.aux)
        rw [room, memOf, RawTable.len]
        omega
      · omega
    new := by
      intro T n
      have e : (RawTable.withCapacity n : RawTable T).aux = (ofSlots (build w _ ([] : List (UInt64 × T)))).aux := rfl
      rw [e, memOf_ofSlots, build_length]
      simp only [List.length_nil, Nat.max_zero]
      split
      · simp [capOf]
      · exact capOf_buckets_pos (by omega)
    insert := by
      intro T t h v hasher
      obtain ⟨ha, hl⟩ := rehash_same (w := w) (.insert h) hasher t
      have e : t.insert h v hasher = ofSlots (Swiss.insert w (slots w (t.rehash (.insert h) hasher)) h (h, v)) := by
        simp only [RawTable.insert]; rfl
      rw [e, memOf_ofSlots, Swiss.insert, place_length]
      have h1 := capOf_slots (w := w) (t.rehash (.insert h) hasher)
      have h2 := (slots_items (w := w) (t.rehash (.insert h) hasher)).length_eq
      simp only [RawTable.len, ha, hl] at *
      split
      · rw [build_length]
        have := capOf_rehash (slots w (t.rehash (.insert h) hasher)) 1
        omega
      · omega
    erase := by
      intro T t stays es hsub
      have hl := hsub.length_le
      show memOf (touch w (.erase stays) { t with entries := es }).aux ≤ _
      simp only [touch]
      split
      · simp only [memOf, dec_enc, List.length_map, sweep_length, fill_length]
        exact Nat.le_max_left _ _
      · have hm := (packed_fit es (dec t.aux).length).2.1
        simp only [memOf, dec_enc] at hm ⊢
        rw [hm, fit]
        split
        · exact Nat.le_max_left _ _
        · have := capOf_buckets_le es.length
          simp only [RawTable.len]
          omega
    clear := by
      intro T t
      show memOf (ofSlots (build w (fit (dec t.aux).length (max t.entries.length 0)) ([] : List (UInt64 × T)))).aux ≤ _
      rw [memOf_ofSlots, build_length, fit]
      split
      · exact Nat.le_max_left _ _
      · have := capOf_buckets_le (max t.entries.length 0)
        simp only [RawTable.len]
        omega
    reserve := by
      intro T t n hasher
      obtain ⟨ha, hl⟩ := rehash_same (w := w) (.reserve n) hasher t
      have h1 := capOf_slots (w := w) (t.rehash (.reserve n) hasher)
      have h2 := (slots_items (w := w) (t.rehash (.reserve n) hasher)).length_eq
      show memOf (ofSlots (Swiss.reserve w (slots w (t.rehash (.reserve n) hasher)) n)).aux ≤ _
      rw [memOf_ofSlots, Swiss.reserve]
      simp only [RawTable.len, ha, hl] at *
      split
      · rw [build_length]
        have := capOf_rehash (slots w (t.rehash (.reserve n) hasher)) n
        omega
      · omega
    shrink := by
      intro T t n hasher
      obtain ⟨ha, hl⟩ := rehash_same (w := w) (.shrink n) hasher t
      have h1 := capOf_slots (w := w) (t.rehash (.shrink n) hasher)
      show memOf (ofSlots (Swiss.shrink w (slots w (t.rehash (.shrink n) hasher)) n)).aux ≤ _
      rw [memOf_ofSlots, Swiss.shrink]
      simp only [RawTable.len, ha, hl] at *
      split
      · rename_i k hk
        rw [build_length]
        have := capOf_shrink hk
        omega
      · omega }

end Verif
