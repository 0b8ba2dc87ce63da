import Verif.Swiss.Lemmas
/-! The concrete table meets the contract. -/
namespace Verif.Swiss
open List

/-! ### The packing of the control bytes -/

theorem digits_eq {f g n : Nat} (hf : n < 4 ^ f) (hg : n < 4 ^ g) : digits f n = digits g n := by
  induction f generalizing g n with
  | zero =>
    have : n = 0 := by simpa using hf
    subst this
    cases g <;> simp [digits]
  | succ f ih =>
    cases g with
    | zero =>
      have : n = 0 := by simpa using hg
      subst this
      simp [digits]
    | succ g =>
      simp only [digits]
      split
      · rfl
      · rw [ih (n := n / 4) (g := g) (by rw [Nat.pow_succ] at hf; omega) (by rw [Nat.pow_succ] at hg; omega)]

theorem lt_digits (n : Nat) : n < 4 ^ (n.log2 / 2 + 1) := by
  have h1 : n < 2 ^ (n.log2 + 1) := Nat.lt_log2_self
  have h2 : 2 ^ (n.log2 + 1) ≤ 2 ^ (2 * (n.log2 / 2 + 1)) := Nat.pow_le_pow_right (by decide) (by omega)
  rw [Nat.pow_mul] at h2
  exact Nat.lt_of_lt_of_le h1 h2

theorem dec_eq (n : Nat) : dec n =
    if n = 0 then [] else (match n % 4 with | 1 => .empty | 2 => .deleted | _ => .full ()) :: dec (n / 4) := by
  have h1 := lt_digits n
  rw [dec, digits]
  split
  · rfl
  · rw [digits_eq (by rw [Nat.pow_succ] at h1; omega) (lt_digits (n / 4))]
    rfl

seal dec

theorem dec_enc (cs : List Ctrl) : dec (enc cs) = cs := by
  induction cs with
  | nil => rw [enc, dec_eq]; simp
  | cons c cs ih =>
    cases c with
    | empty =>
      rw [enc, dec_eq, if_neg (by omega)]
      have h1 : (1 + 4 * enc cs) % 4 = 1 := by omega
      have h2 : (1 + 4 * enc cs) / 4 = enc cs := by omega
      simp only [h1, h2, ih]
    | deleted =>
      rw [enc, dec_eq, if_neg (by omega)]
      have h1 : (2 + 4 * enc cs) % 4 = 2 := by omega
      have h2 : (2 + 4 * enc cs) / 4 = enc cs := by omega
      simp only [h1, h2, ih]
    | full a =>
      rw [enc, dec_eq, if_neg (by omega)]
      have h1 : (3 + 4 * enc cs) % 4 = 3 := by omega
      have h2 : (3 + 4 * enc cs) / 4 = enc cs := by omega
      simp only [h1, h2, ih]

theorem isPow2_iff {n : Nat} : isPow2 n = true ↔ ∃ m, n = 2 ^ m := by
  rw [isPow2, beq_iff_eq]
  constructor
  · intro h; exact ⟨_, h.symm⟩
  · rintro ⟨m, rfl⟩; rw [Nat.log2_two_pow]

section
variable {α β : Type} {s : List (Slot α)}

theorem countP_isFull (s : List (Slot α)) : s.countP Slot.isFull = (items s).length := by
  induction s with
  | nil => rfl
  | cons x xs ih => cases x <;> simp [List.countP_cons, Slot.isFull, ih]

theorem items_ctrl : (items (s.map Slot.ctrl)).length = (items s).length := by
  have : s.map Slot.ctrl = s.map (Slot.map fun _ => ()) := rfl
  rw [this, items_map, List.length_map]

theorem used_ctrl : used (s.map Slot.ctrl) = used s := used_map _

theorem room_ctrl : room (s.map Slot.ctrl) = room s := room_map _

theorem fill_self : fill (s.map Slot.ctrl) (items s) = s := by
  induction s with
  | nil => rfl
  | cons x xs ih => cases x <;> simp [Slot.ctrl, Slot.map, fill] <;> exact ih

theorem fill_length (cs : List Ctrl) (es : List α) : (fill cs es).length = cs.length := by
  induction cs generalizing es with
  | nil => rfl
  | cons c cs ih => cases c <;> cases es <;> simp [fill, ih]

theorem used_fill (cs : List Ctrl) (es : List α) : used (fill cs es) = used cs := by
  induction cs generalizing es with
  | nil => rfl
  | cons c cs ih => cases c <;> cases es <;> simp [fill, ih]

theorem items_fill {cs : List Ctrl} {es : List α} (h : (items cs).length = es.length) : items (fill cs es) = es := by
  induction cs generalizing es with
  | nil => cases es with
    | nil => rfl
    | cons => simp at h
  | cons c cs ih =>
    cases c with
    | empty => simpa [fill] using ih h
    | deleted => simpa [fill] using ih h
    | full a => cases es with
      | nil => simp at h
      | cons e es => simpa [fill] using ih (by simpa using h)

theorem fill_ctrl {cs : List Ctrl} {es : List α} (h : (items cs).length = es.length) :
    (fill cs es).map Slot.ctrl = cs := by
  induction cs generalizing es with
  | nil => rfl
  | cons c cs ih =>
    cases c with
    | empty => simpa [fill, Slot.ctrl, Slot.map] using ih h
    | deleted => simpa [fill, Slot.ctrl, Slot.map] using ih h
    | full a => cases es with
      | nil => simp at h
      | cons e es => simpa [fill, Slot.ctrl, Slot.map] using ih (by simpa using h)

theorem fill_map (f : α → β) (cs : List Ctrl) (es : List α) :
    fill cs (es.map f) = (fill cs es).map (Slot.map f) := by
  induction cs generalizing es with
  | nil => rfl
  | cons c cs ih =>
    cases c with
    | empty => simp [fill, Slot.map, ih]
    | deleted => simp [fill, Slot.map, ih]
    | full a => cases es with
      | nil => simpa [fill, Slot.map] using ih []
      | cons e es => simp [fill, Slot.map, ih]

theorem rank_spec {i : Nat} {a : α} (h : s[i]? = some (.full a)) : (items s)[rank s i]? = some a := by
  induction s generalizing i with
  | nil => simp at h
  | cons x xs ih =>
    cases i with
    | zero =>
      simp at h; subst h
      simp [rank]
    | succ i =>
      have ih := ih (i := i) (by simpa using h)
      simp only [rank] at ih
      cases x <;> simpa [rank] using ih

theorem items_set {i : Nat} {a b : α} (h : s[i]? = some (.full a)) :
    items (s.set i (.full b)) = (items s).set (rank s i) b := by
  induction s generalizing i with
  | nil => simp at h
  | cons x xs ih =>
    cases i with
    | zero =>
      simp at h; subst h
      simp [rank]
    | succ i =>
      have ih := ih (i := i) (by simpa using h)
      simp only [rank] at ih
      cases x <;> simp [rank, ih]

end

variable {T : Type} {w : Nat} {s : List (Slot (UInt64 × T))} {t : RawTable T}

theorem fits_iff : fits t = true ↔ (∃ m, (dec t.aux).length = 2 ^ m) ∧ (items (dec t.aux)).length = t.entries.length ∧
    used (dec t.aux) ≤ capOf (dec t.aux).length := by
  simp only [fits, Bool.and_eq_true, isPow2_iff, beq_iff_eq, decide_eq_true_eq, countP_isFull, and_assoc]

theorem fits_ofSlots (hs : Sound s) : fits (ofSlots s) = true := by
  rw [fits_iff]
  simp only [ofSlots, dec_enc, List.length_map, items_ctrl, used_ctrl]
  exact ⟨hs.pow, trivial, hs.load⟩

theorem slots_ofSlots (hs : Sound s) : slots w (ofSlots s) = s := by
  rw [slots, if_pos (fits_ofSlots hs)]
  simp only [ofSlots, dec_enc, fill_self]

theorem slots_sound (t : RawTable T) : Sound (slots w t) := by
  rw [slots]
  split
  · rename_i h
    obtain ⟨h1, h2, h3⟩ := fits_iff.1 h
    exact ⟨by rw [fill_length]; exact h1, by rw [fill_length, used_fill]; exact h3⟩
  · exact (build_buckets _ (Nat.le_refl _)).1.toSound

theorem slots_items (t : RawTable T) : (items (slots w t)).Perm t.entries := by
  rw [slots]
  split
  · rename_i h
    rw [items_fill (fits_iff.1 h).2.1]
  · exact (build_buckets _ (Nat.le_refl _)).2.2.1

theorem slots_items_eq (h : fits t = true) : items (slots w t) = t.entries := by
  rw [slots, if_pos h, items_fill (fits_iff.1 h).2.1]

theorem fit_spec (n k : Nat) : (∃ m, fit n k = 2 ^ m) ∧ k ≤ capOf (fit n k) := by
  rw [fit]
  split
  · rename_i h; exact ⟨isPow2_iff.1 h.1, h.2⟩
  · exact ⟨buckets_pow k, le_capOf_buckets k⟩

theorem build_fit (es : List (UInt64 × T)) (n : Nat) {k : Nat} (hk : es.length ≤ k) :
    Valid w (build w (fit n k) es) ∧ (build w (fit n k) es).length = fit n k ∧
      (items (build w (fit n k) es)).Perm es ∧ used (build w (fit n k) es) = es.length := by
  obtain ⟨⟨m, hm⟩, hc⟩ := fit_spec n k
  exact build_spec hm (Nat.le_trans hk hc)

theorem packed_length {n k : Nat} (h : k ≤ n) : (packed n k).length = n := by
  simp [packed]; omega

theorem used_packed (n k : Nat) : used (packed n k) = k := by
  rw [packed, used, List.countP_append, List.countP_replicate, List.countP_replicate]
  simp [Slot.isEmpty]

theorem items_packed (n k : Nat) : (items (packed n k)).length = k := by
  rw [← countP_isFull, packed, List.countP_append, List.countP_replicate, List.countP_replicate]
  simp [Slot.isFull]

theorem packed_fit (es : List (UInt64 × T)) (n : Nat) :
    fits (⟨es, enc (packed (fit n es.length) es.length)⟩ : RawTable T) = true ∧
      (packed (fit n es.length) es.length).length = fit n es.length ∧
      used (packed (fit n es.length) es.length) = es.length := by
  obtain ⟨hp, hc⟩ := fit_spec n es.length
  have hl : es.length ≤ fit n es.length := by
    refine Nat.le_trans hc ?_
    rw [capOf]
    split <;> omega
  refine ⟨fits_iff.2 ?_, packed_length hl, used_packed _ _⟩
  simp only [dec_enc]
  rw [packed_length hl, items_packed, used_packed]
  exact ⟨hp, rfl, hc⟩

theorem insert_sound (hs : Sound s) (e : UInt64 × T) : Sound (insert w s e.1 e) := by
  refine ⟨?_, (insert_room hs e).1⟩
  rw [insert, place_length]
  split
  · exact (regrow_spec hs 1).1.pow
  · exact hs.pow

theorem new_spec (es : List (UInt64 × T)) (c : Nat) :
    Valid w (build w (if max c es.length = 0 then 1 else buckets (max c es.length)) es) ∧
    (items (build w (if max c es.length = 0 then 1 else buckets (max c es.length)) es)).Perm es ∧
    c ≤ es.length + room (build w (if max c es.length = 0 then 1 else buckets (max c es.length)) es) := by
  split
  · rename_i h
    have h0 : es.length = 0 := by omega
    obtain ⟨h1, h2, h3, h4⟩ := build_spec (w := w) (n := 1) (m := 0) rfl (es := es) (by simp [h0])
    exact ⟨h1, h3, by omega⟩
  · obtain ⟨h1, h2, h3, h4⟩ := build_buckets (w := w) es (c := max c es.length) (by omega)
    have := le_capOf_buckets (max c es.length)
    refine ⟨h1, h3, ?_⟩
    rw [room, h2, h4]; omega

end Verif.Swiss

namespace Verif
open Swiss

theorem swissRaw_lawful (w : Nat) : @LawfulRaw (swissRaw w) := by
  let _ := swissRaw w
  refine @LawfulRaw.mk (swissRaw w) ?_ ?_ ?_
  · intro T t h p i hi
    show ∃ e, t.entries[i]? = some e ∧ p e.2 = true
    simp only [RawImpl.find] at hi
    split at hi
    · rename_i j hj
      cases hi
      split at hj
      · rename_i hf
        obtain ⟨k, hk, rfl⟩ := Option.map_eq_some_iff.1 hj
        obtain ⟨e, he, -, hp⟩ := findSlot_sound hk
        refine ⟨e, ?_, hp⟩
        rw [← slots_items_eq (w := w) hf]
        exact rank_spec he
      · cases hj
    · exact tidyFind t h p i hi
  · intro T t h p e he hh hp hn
    simp only [RawImpl.find] at hn
    split at hn
    · cases hn
    · have := List.findIdx?_eq_none_iff.1 hn e he
      simp [hh, hp] at this
  · intro T op t
    show (touch w op t).entries.Perm t.entries
    cases op with
    | new c => exact (new_spec t.entries c).2.1
    | insert h =>
      cases t with
      | mk es aux =>
        cases es with
        | nil => exact .refl _
        | cons e es =>
          refine (insert_items (slots_sound _) h e).trans ?_
          exact (slots_items (⟨es, aux⟩ : RawTable T)).cons e
    | erase stays =>
      simp only [touch]
      split
      · exact .refl _
      · exact .refl _
    | clear d => exact (build_fit t.entries _ (Nat.le_max_right _ _)).2.2.1
    | reserve k => exact (reserve_spec (slots_sound t) k).2.2.1.trans (slots_items t)
    | shrink m => exact (shrink_spec (slots_sound t) m).2.2.1.trans (slots_items t)
where
  tidyFind {T : Type} (t : RawTable T) (h : UInt64) (p : T → Bool) (i : Nat)
      (hi : t.entries.findIdx? (fun e => e.1 == h && p e.2) = some i) :
      ∃ e, t.entries[i]? = some e ∧ p e.2 = true := by
    obtain ⟨hlt, hp, _⟩ := List.findIdx?_eq_some_iff_getElem.1 hi
    exact ⟨t.entries[i], by simp [hlt], (Bool.and_eq_true _ _ ▸ hp).2⟩

namespace Swiss
variable {T : Type} {w : Nat} {s : List (Slot (UInt64 × T))} {t : RawTable T}

/-- `growth_left` of the concrete table -/
theorem growthLeft_eq (t : RawTable T) :
    @RawImpl.growthLeft (swissRaw w) T t = if fits t then room (dec t.aux) else 0 := rfl

theorem growthLeft_ofSlots (hs : Sound s) : @RawImpl.growthLeft (swissRaw w) T (ofSlots s) = room s := by
  rw [growthLeft_eq, if_pos (fits_ofSlots hs)]
  simp only [ofSlots, dec_enc, room_ctrl]

theorem room_slots (h : fits t = true) : room (slots w t) = room (dec t.aux) := by
  rw [slots, if_pos h]
  simp only [room, fill_length, used_fill]

theorem growthLeft_le (t : RawTable T) : @RawImpl.growthLeft (swissRaw w) T t ≤ room (slots w t) := by
  rw [growthLeft_eq]
  split
  · rename_i h; rw [room_slots h]
  · omega

theorem fits_congr {T' : Type} {t : RawTable T} {t' : RawTable T'} (h : t.aux = t'.aux)
    (hl : t.entries.length = t'.entries.length) : fits t = fits t' := by
  simp only [fits, h, hl]

theorem growthLeft_congr {T' : Type} {t : RawTable T} {t' : RawTable T'} (h : t.aux = t'.aux)
    (hl : t.entries.length = t'.entries.length) :
    @RawImpl.growthLeft (swissRaw w) T t = @RawImpl.growthLeft (swissRaw w) T' t' := by
  rw [growthLeft_eq, growthLeft_eq, fits_congr h hl, h]

/-- rehashing keeps the number of elements and the control bytes -/
theorem rehash_same (op : TableOp) (hasher : T → UInt64) (t : RawTable T) :
    (@RawTable.rehash (swissRaw w) T op hasher t).aux = t.aux ∧
    (@RawTable.rehash (swissRaw w) T op hasher t).entries.length = t.entries.length := by
  rw [@RawTable.rehash.eq_def]
  split <;> simp

end Swiss

theorem swissRaw_cap (w : Nat) : @LawfulCap (swissRaw w) := by
  let _ := swissRaw w
  refine @LawfulCap.mk (swissRaw w) ?_ ?_ ?_ ?_ ?_ ?_ ?_ ?_ ?_ ?_
  · intro T T' t t' h1 h2
    exact growthLeft_congr h1 (by simpa using congrArg List.length h2)
  · intro T n
    obtain ⟨h1, h2, h3⟩ := new_spec (w := w) ([] : List (UInt64 × T)) n
    have : RawImpl.growthLeft (RawTable.withCapacity n : RawTable T) = _ := growthLeft_ofSlots h1.toSound
    rw [this]
    simpa using h3
  · intro T T' n
    have e1 : RawImpl.growthLeft (RawTable.withCapacity n : RawTable T) = _ :=
      growthLeft_ofSlots (new_spec (w := w) ([] : List (UInt64 × T)) n).1.toSound
    have e2 : RawImpl.growthLeft (RawTable.withCapacity n : RawTable T') = _ :=
      growthLeft_ofSlots (new_spec (w := w) ([] : List (UInt64 × T')) n).1.toSound
    rw [e1, e2]
    simp [room, build, used_replicate]
  · intro T t h v hasher
    by_cases h0 : RawImpl.growthLeft t = 0
    · omega
    have hr : RawImpl.rehashes (.insert h) t = false := by
      have := growthLeft_le (w := w) t
      show grows w (slots w t) h = false
      rw [grows, show (room (slots w t) == 0) = false from by
        rw [beq_eq_false_iff_ne]; omega]
      rfl
    have e : t.insert h v hasher = ofSlots (Swiss.insert w (slots w t) h (h, v)) := by
      rw [RawTable.insert, RawTable.rehash, hr]; rfl
    rw [e, growthLeft_ofSlots (insert_sound (slots_sound t) (h, v))]
    exact Nat.le_trans (growthLeft_le t) (insert_room (slots_sound t) (h, v)).2
  · intro T t h h0
    have := growthLeft_le (w := w) t
    show grows w (slots w t) h = false
    rw [grows, show (room (slots w t) == 0) = false from by
      rw [beq_eq_false_iff_ne]; omega]
    rfl
  · intro T t stays es hsub
    by_cases h0 : RawImpl.growthLeft t = 0
    · omega
    have hf : fits t = true := by
      by_contra hc
      rw [growthLeft_eq, if_neg hc] at h0
      exact h0 rfl
    obtain ⟨hp, hi, hu⟩ := fits_iff.1 hf
    rw [growthLeft_eq (t := t), if_pos hf]
    show _ ≤ RawImpl.growthLeft (touch w (.erase stays) { t with entries := es })
    simp only [touch]
    split
    · rename_i hf'
      rw [growthLeft_eq, if_pos hf']
      simp only [dec_enc, room_ctrl]
      rw [room, room, sweep_length, fill_length]
      have := sweep_used (w := w) (s := fill (dec t.aux) stays) id
      rw [used_fill] at this
      omega
    · obtain ⟨b1, b2, b4⟩ := packed_fit es (dec t.aux).length
      rw [growthLeft_eq, if_pos b1, dec_enc, room, room, b2, b4]
      have h1 := hsub.length_le
      have h2 := used_ge_items (dec t.aux)
      have : fit (dec t.aux).length es.length = (dec t.aux).length := by
        rw [fit, if_pos ⟨isPow2_iff.2 hp, by omega⟩]
      rw [this]
      omega
  · intro T t
    show _ ≤ RawTable.len (touch w (.clear t.entries.length) ({ t with entries := [] } : RawTable T)) +
      RawImpl.growthLeft (touch w (.clear t.entries.length) ({ t with entries := [] } : RawTable T))
    obtain ⟨b1, b2, b3, b4⟩ := build_fit (w := w) ([] : List (UInt64 × T)) (dec t.aux).length
      (k := max t.entries.length 0) (by simp)
    have e : RawImpl.growthLeft (touch w (.clear t.entries.length) ({ t with entries := [] } : RawTable T)) =
        capOf (fit (dec t.aux).length (max t.entries.length 0)) := by
      refine (growthLeft_ofSlots b1.toSound).trans ?_
      rw [room, b2, b4]; simp
    rw [e, RawTable.capacity, growthLeft_eq]
    have hc := (fit_spec (dec t.aux).length (max t.entries.length 0)).2
    simp only [RawTable.len]
    split
    · rename_i hf
      obtain ⟨hp, hi, hu⟩ := fits_iff.1 hf
      have h2 := used_ge_items (dec t.aux)
      have : fit (dec t.aux).length (max t.entries.length 0) = (dec t.aux).length := by
        rw [fit, if_pos ⟨isPow2_iff.2 hp, by omega⟩]
      rw [this, room]
      omega
    · omega
  · intro T t n hasher
    show n ≤ RawImpl.growthLeft (ofSlots (Swiss.reserve w (slots w (t.rehash (.reserve n) hasher)) n))
    obtain ⟨h1, h2, h3, h4, h5⟩ := reserve_spec (w := w) (slots_sound (w := w) (t.rehash (.reserve n) hasher)) n
    rw [growthLeft_ofSlots h1]
    exact h4
  · intro T t n hasher
    show _ ≤ RawImpl.growthLeft (ofSlots (Swiss.reserve w (slots w (t.rehash (.reserve n) hasher)) n))
    obtain ⟨h1, h2, h3, h4, h5⟩ := reserve_spec (w := w) (slots_sound (w := w) (t.rehash (.reserve n) hasher)) n
    rw [growthLeft_ofSlots h1]
    refine Nat.le_trans ?_ h5
    obtain ⟨ha, hl⟩ := rehash_same (w := w) (.reserve n) hasher t
    rw [← growthLeft_congr ha hl]
    exact growthLeft_le _
  · intro T t n hasher
    obtain ⟨ha, hl⟩ := rehash_same (w := w) (.shrink n) hasher t
    obtain ⟨h1, h2, h3, h4⟩ := shrink_spec (w := w) (slots_sound (w := w) (t.rehash (.shrink n) hasher)) n
    have h5 := (slots_items (w := w) (t.rehash (.shrink n) hasher)).length_eq
    have h6 := growthLeft_le (w := w) (t.rehash (.shrink n) hasher)
    rw [growthLeft_congr ha hl] at h6
    have h7 : (RawTable.shrinkTo t n hasher).capacity =
        (items (Swiss.shrink w (slots w (t.rehash (.shrink n) hasher)) n)).length +
          room (Swiss.shrink w (slots w (t.rehash (.shrink n) hasher)) n) := by
      have e : RawTable.shrinkTo t n hasher = ofSlots (Swiss.shrink w (slots w (t.rehash (.shrink n) hasher)) n) := by
        simp only [RawTable.shrinkTo]; rfl
      rw [e, RawTable.capacity, growthLeft_ofSlots h1]
      simp only [RawTable.len, ofSlots]
    rw [h7, h3.length_eq]
    simp only [RawTable.capacity, RawTable.len]
    omega

end Verif
