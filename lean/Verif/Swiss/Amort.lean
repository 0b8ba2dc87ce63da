import Verif.Swiss.Lawful
import Verif.Cost
/-! The concrete table grows enough to be worth it: `LawfulAmort` holds of it. -/
namespace Verif
namespace Swiss
variable {T : Type} {w : Nat} {s : List (Slot (UInt64 × T))}

/-- twice as many elements as before fit after growing -/
theorem capOf_double {n m : Nat} (hn : n = 2 ^ m) : 2 * capOf n ≤ capOf (buckets (capOf n + 1)) := by
  by_cases h3 : m ≤ 3
  · have : m = 0 ∨ m = 1 ∨ m = 2 ∨ m = 3 := by omega
    rcases this with rfl | rfl | rfl | rfl <;> subst hn <;> decide
  · obtain ⟨k, rfl⟩ : ∃ k, m = k + 4 := ⟨m - 4, by omega⟩
    have h1 : n = 16 * 2 ^ k := by rw [hn, Nat.pow_add]; omega
    have h2 : 0 < 2 ^ k := Nat.pow_pos (by omega)
    have h4 : capOf n = 14 * 2 ^ k := by rw [capOf, if_neg (by omega)]; omega
    have h5 : (14 * 2 ^ k + 1) * 8 / 7 = n + 1 := by omega
    have h6 : buckets (14 * 2 ^ k + 1) = 2 * n := by
      rw [buckets, if_neg (by omega), if_neg (by omega), h5, nextPow2, Nat.add_sub_cancel, hn, Nat.log2_two_pow, Nat.pow_succ]
      omega
    rw [h4, h6, capOf, if_neg (by omega)]
    omega

theorem capOf_regrow (hs : Sound s) : 2 * (items s).length ≤ capOf (rehashBuckets s 1) := by
  rw [rehashBuckets]
  split
  · omega
  · obtain ⟨m, hm⟩ := hs.pow
    have h1 := capOf_double hm
    have h2 := used_ge_items s
    have h3 := hs.load
    rw [Nat.max_eq_right (by omega)]
    omega

theorem insert_regrown (hs : Sound s) {e : UInt64 × T} (h : grows w s e.1 = true) :
    (items s).length ≤ room (insert w s e.1 e) + 1 := by
  obtain ⟨m, hm⟩ := rehashBuckets_pow hs 1
  have hc := rehashBuckets_cap (s := s) 1
  obtain ⟨h1, h2, h3, h4⟩ := build_spec (w := w) hm (es := items s) (by omega)
  have h5 := capOf_regrow hs
  rw [insert, if_pos h, room, place_length, h2, place_used h1.toSound, h4]
  split <;> omega

/-- a table without deleted slots grows as soon as there is no room -/
theorem grows_packed (hs : Sound s) (hp : used s = (items s).length) (e : UInt64 × T) :
    grows w s e.1 = (room s == 0) := by
  have h1 := place_used (w := w) hs e
  have h2 := (place_items (w := w) hs e).length_eq
  have h3 := used_ge_items (place w s e)
  rw [List.length_cons] at h2
  rw [grows]
  by_cases h4 : (insertSlot w s e.1).any (emptyAt s) = true
  · rw [h4, Bool.and_true]
  · rw [if_neg h4] at h1
    omega

end Swiss
open Swiss

theorem swissRaw_amort (w : Nat) : @LawfulAmort (swissRaw w) := by
  let _ := swissRaw w
  let _ := swissRaw_lawful w
  refine @LawfulAmort.mk (swissRaw w) ?_
  intro T t h v hasher hr
  have e : t.insert h v hasher = ofSlots (Swiss.insert w (slots w (t.rehash (.insert h) hasher)) h (h, v)) := rfl
  have hs := slots_sound (w := w) (t.rehash (.insert h) hasher)
  have hl := (slots_items (w := w) (t.rehash (.insert h) hasher)).length_eq
  have hg : grows w (slots w (t.rehash (.insert h) hasher)) h = true := by
    have hr' : grows w (slots w t) h = true := hr
    have e1 : t.rehash (.insert h) hasher = { t with entries := t.entries.map fun e => (hasher e.2, e.2) } := by
      rw [RawTable.rehash, if_pos hr]
    rw [e1]
    by_cases hf : fits t = true
    · have hf' : fits { t with entries := t.entries.map fun e => (hasher e.2, e.2) } = true := by
        rw [← hf]; exact fits_congr rfl (by simp)
      rw [slots, if_pos hf] at hr'
      rw [slots, if_pos hf', fill_map, grows_map]
      exact hr'
    · have hf' : ¬ fits { t with entries := t.entries.map fun e => (hasher e.2, e.2) } = true := by
        rw [show fits { t with entries := t.entries.map fun e => (hasher e.2, e.2) } = fits t from
          fits_congr rfl (by simp)]
        exact hf
      obtain ⟨a1, a2, a3, a4⟩ := build_buckets (w := w) t.entries (Nat.le_refl _)
      obtain ⟨b1, b2, b3, b4⟩ := build_buckets (w := w) (t.entries.map fun e => (hasher e.2, e.2)) (Nat.le_refl _)
      rw [slots, if_neg hf] at hr'
      rw [slots, if_neg hf']
      have c1 := grows_packed (w := w) a1.toSound (by rw [a4, a3.length_eq]) (h, v)
      have c2 := grows_packed (w := w) b1.toSound (by rw [b4, b3.length_eq]) (h, v)
      rw [hr', room, a2, a4] at c1
      rw [c2, room, b2, b4, c1]
      simp
  have := insert_regrown (e := (h, v)) hs hg
  rw [e, growthLeft_ofSlots (insert_sound hs (h, v))]
  have h2 := (rehash_same (w := w) (.insert h) hasher t).2
  rw [hl, h2] at this
  exact this

end Verif
