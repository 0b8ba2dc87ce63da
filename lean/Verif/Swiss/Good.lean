import Verif.Swiss.Lawful
import Verif.Closed
/-! Every call on a valid concrete table leaves it valid, and in a valid table a probe alone finds what there is. -/
namespace Verif.Swiss
open List
open RawTable (staying)

variable {T : Type} {w : Nat} {s : List (Slot (UInt64 × T))} {t : RawTable T}

/-- the table is a valid layout of slots -/
def Good (w : Nat) (t : RawTable T) : Prop := ∃ s, Valid w s ∧ t = ofSlots s

theorem Good.fits (h : Good w t) : fits t = true := by
  obtain ⟨s, hs, rfl⟩ := h
  exact fits_ofSlots hs.toSound

/-- In a valid table `find` is the probe over the control bytes alone. -/
theorem find_eq_probe (h : Good w t) (k : UInt64) (p : T → Bool) :
    @RawImpl.find (swissRaw w) T t k p = (findSlot w (slots w t) k p).map (rank (slots w t)) := by
  have hf := h.fits
  obtain ⟨s, hs, rfl⟩ := h
  simp only [RawImpl.find, hf, if_true]
  split
  · rename_i i hi; exact hi.symm
  · rename_i hi
    rw [hi, List.findIdx?_eq_none_iff]
    intro e he
    by_contra hc
    simp only [Bool.not_eq_false, Bool.and_eq_true, beq_iff_eq] at hc
    obtain ⟨rfl, hp⟩ := hc
    rw [slots_ofSlots hs.toSound] at hi
    obtain ⟨x, hx, hxe⟩ := List.mem_filterMap.1 he
    obtain ⟨i, hi'⟩ := List.getElem?_of_mem hx
    cases x with
    | empty => cases hxe
    | deleted => cases hxe
    | full a =>
      cases hxe
      exact hs.findSlot_complete hi' hp (Option.map_eq_none_iff.1 hi)

theorem good_new (c : Nat) : Good w (@RawTable.withCapacity (swissRaw w) T c) :=
  ⟨_, (new_spec (w := w) ([] : List (UInt64 × T)) c).1, rfl⟩

theorem ofSlots_map (f : UInt64 × T → UInt64 × T) :
    (⟨(ofSlots s).entries.map f, (ofSlots s).aux⟩ : RawTable T) = ofSlots (s.map (Slot.map f)) := by
  simp only [ofSlots, items_map, List.map_map]
  congr 2
  refine List.map_congr_left fun x _ => ?_
  cases x <;> rfl

theorem Sound.map (hs : Sound s) {β : Type} (f : UInt64 × T → β) : Sound (s.map (Slot.map f)) :=
  ⟨by simpa using hs.pow, by simpa [used_map] using hs.load⟩

/-- rehashing, if it happens, as a change of the slots -/
theorem rehash_ofSlots (op : TableOp) (hasher : T → UInt64) (s : List (Slot (UInt64 × T))) :
    @RawTable.rehash (swissRaw w) T op hasher (ofSlots s) =
      ofSlots (if @RawImpl.rehashes (swissRaw w) T op (ofSlots s) then
        s.map (Slot.map fun e => (hasher e.2, e.2)) else s) := by
  rw [@RawTable.rehash.eq_def]
  split
  · exact ofSlots_map _
  · rfl

theorem Good.insert (h : Good w t) (k : UInt64) (v : T) (hasher : T → UInt64) :
    Good w (@RawTable.insert (swissRaw w) T t k v hasher) := by
  obtain ⟨s, hs, rfl⟩ := h
  have e : ∀ t' : RawTable T, @RawTable.rehash (swissRaw w) T (.insert k) hasher (ofSlots s) = t' →
      @RawTable.insert (swissRaw w) T (ofSlots s) k v hasher = ofSlots (Swiss.insert w (slots w t') k (k, v)) := by
    rintro _ rfl; rfl
  rw [e _ (rehash_ofSlots _ _ _)]
  refine ⟨_, ?_, rfl⟩
  have hr : @RawImpl.rehashes (swissRaw w) T (.insert k) (ofSlots s) = grows w s k := by
    show grows w (slots w (ofSlots s)) k = _
    rw [slots_ofSlots hs.toSound]
  rw [hr]
  split
  · rename_i hg
    have hs' := hs.toSound.map (fun e => (hasher e.2, e.2))
    rw [slots_ofSlots hs', Swiss.insert, grows_map, if_pos hg]
    obtain ⟨h1, h2, h3⟩ := regrow_spec (w := w) hs' 1
    refine h1.place fun _ => ?_
    simp only [room] at h3
    omega
  · rw [slots_ofSlots hs.toSound]
    exact hs.insert (k, v)

theorem Good.reserve (h : Good w t) (k : Nat) (hasher : T → UInt64) :
    Good w (@RawTable.reserve (swissRaw w) T t k hasher) := by
  obtain ⟨s, hs, rfl⟩ := h
  have e : ∀ t' : RawTable T, @RawTable.rehash (swissRaw w) T (.reserve k) hasher (ofSlots s) = t' →
      @RawTable.reserve (swissRaw w) T (ofSlots s) k hasher = ofSlots (Swiss.reserve w (slots w t') k) := by
    rintro _ rfl; rfl
  rw [e _ (rehash_ofSlots _ _ _)]
  refine ⟨_, ?_, rfl⟩
  have hr : @RawImpl.rehashes (swissRaw w) T (.reserve k) (ofSlots s) = decide (room s < k) := by
    show decide (room (slots w (ofSlots s)) < k) = _
    rw [slots_ofSlots hs.toSound]
  rw [hr]
  split
  · rename_i hg
    have hs' := hs.toSound.map (fun e => (hasher e.2, e.2))
    rw [slots_ofSlots hs', Swiss.reserve, room_map, if_pos (by simpa using hg)]
    exact (regrow_spec hs' k).1
  · rw [slots_ofSlots hs.toSound]
    exact (reserve_spec hs.toSound k).2.1 hs

theorem Good.shrinkTo (h : Good w t) (k : Nat) (hasher : T → UInt64) :
    Good w (@RawTable.shrinkTo (swissRaw w) T t k hasher) := by
  obtain ⟨s, hs, rfl⟩ := h
  have e : ∀ t' : RawTable T, @RawTable.rehash (swissRaw w) T (.shrink k) hasher (ofSlots s) = t' →
      @RawTable.shrinkTo (swissRaw w) T (ofSlots s) k hasher = ofSlots (Swiss.shrink w (slots w t') k) := by
    rintro _ rfl; rfl
  rw [e _ (rehash_ofSlots _ _ _)]
  refine ⟨_, ?_, rfl⟩
  have hr : @RawImpl.rehashes (swissRaw w) T (.shrink k) (ofSlots s) = (shrinkBuckets s k).isSome := by
    show (shrinkBuckets (slots w (ofSlots s)) k).isSome = _
    rw [slots_ofSlots hs.toSound]
  rw [hr]
  split
  · rename_i hg
    have hs' := hs.toSound.map (fun e => (hasher e.2, e.2))
    rw [slots_ofSlots hs']
    have he : shrinkBuckets (s.map (Slot.map fun e => (hasher e.2, e.2))) k = shrinkBuckets s k := by
      simp only [shrinkBuckets, items_map, List.length_map]
    -- the table is built anew
    have key : ∀ {u : List (Slot (UInt64 × T))}, Sound u → (shrinkBuckets u k).isSome = true →
        Valid w (Swiss.shrink w u k) := by
      intro u hu hi
      obtain ⟨n, hn⟩ := Option.isSome_iff_exists.1 hi
      simp only [Swiss.shrink, hn]
      rw [shrinkBuckets] at hn
      split at hn
      · cases hn
        rename_i hz
        exact (build_spec (w := w) (n := 1) (m := 0) rfl (by
          have : (items u).length = 0 := by omega
          simp [this])).1
      · split at hn
        · cases hn
          exact (build_buckets (items u) (Nat.le_max_left _ _)).1
        · cases hn
    exact key hs' (he ▸ hg)
  · rw [slots_ofSlots hs.toSound]
    exact (shrink_spec hs.toSound k).2.1 hs

theorem Good.clear (_ : Good w t) : Good w (@RawTable.clear (swissRaw w) T t) :=
  ⟨_, (build_fit (w := w) ([] : List (UInt64 × T)) (dec t.aux).length (Nat.le_max_right t.entries.length _)).1, rfl⟩

theorem Valid.map (hs : Valid w s) {f : UInt64 × T → UInt64 × T} (hf : ∀ e, (f e).1 = e.1) :
    Valid w (s.map (Slot.map f)) := by
  refine ⟨hs.toSound.map f, fun i e hi => ?_⟩
  have := at?_iff.2 hi
  rw [at?_map] at this
  obtain ⟨e', he', rfl⟩ := Option.map_eq_some_iff.1 this
  rw [hf]
  exact (hs.reach i e' (at?_iff.1 he')).mono (by simp) fun x hx => by rwa [emptyAt_map] at hx

theorem Good.clone (h : Good w t) (c : T → T) : Good w (RawTable.clone t c) := by
  obtain ⟨s, hs, rfl⟩ := h
  exact ⟨_, hs.map (f := fun e => (e.1, c e.2)) fun _ => rfl, ofSlots_map _⟩

/-- overwriting an element in place -/
theorem Valid.set (hs : Valid w s) {i : Nat} {e : UInt64 × T} (hi : s[i]? = some (.full e)) (v : T) :
    Valid w (s.set i (.full (e.1, v))) := by
  have hl := (List.getElem?_eq_some_iff.1 hi).1
  have hne : emptyAt s i = false := not_empty_of_full (fullAt_iff.2 ⟨e, hi⟩)
  have hem : ∀ x, emptyAt (s.set i (.full (e.1, v))) x = emptyAt s x := by
    intro x
    rw [emptyAt_set]
    split
    · rename_i h; rw [← h.1, hne]; rfl
    · rfl
  refine ⟨⟨by simpa using hs.pow, ?_⟩, fun j e' hj => ?_⟩
  · have := used_set (y := .full (e.1, v)) hl
    rw [hne] at this
    simp only [Slot.isEmpty] at this
    rw [List.length_set]
    have := hs.load
    simp at *
    omega
  · refine Reach.mono (s := s) ?_ (by simp) fun x hx => by rwa [hem] at hx
    rw [List.getElem?_set] at hj
    split at hj
    · rename_i h; subst h
      cases hj
      exact hs.reach i e hi
    · exact hs.reach j e' hj

theorem findSlot_at {k : UInt64} {p : T → Bool} (hs : Valid w s) {i : Nat}
    (h : @RawImpl.find (swissRaw w) T (ofSlots s) k p = some i) :
    ∃ j e, s[j]? = some (.full e) ∧ rank s j = i ∧ p e.2 = true := by
  rw [find_eq_probe ⟨s, hs, rfl⟩, slots_ofSlots hs.toSound] at h
  obtain ⟨j, hj, hr⟩ := Option.map_eq_some_iff.1 h
  obtain ⟨e, he, _, hp⟩ := findSlot_sound hj
  exact ⟨j, e, he, hr, hp⟩

theorem Good.getMut (h : Good w t) {k : UInt64} {p : T → Bool} {x : T} {wr : T → RawTable T}
    (e : @RawTable.getMut (swissRaw w) T t k p = some (x, wr)) (v : T) : Good w (wr v) := by
  obtain ⟨s, hs, rfl⟩ := h
  rw [@RawTable.getMut.eq_def] at e
  split at e
  · cases e
  · rename_i i hi
    obtain ⟨j, a, hj, rfl, -⟩ := findSlot_at hs hi
    have h1 : (ofSlots s).entries[rank s j]? = some a := rank_spec hj
    rw [h1] at e
    cases e
    refine ⟨s.set j (.full (a.1, v)), hs.set hj v, ?_⟩
    simp only [ofSlots, items_set hj]
    congr 2
    rw [List.map_set]
    apply List.ext_getElem?
    intro n
    rw [List.getElem?_set]
    split
    · rename_i h; subst h
      have hl := (List.getElem?_eq_some_iff.1 hj).1
      rw [if_pos (by simpa using hl), List.getElem?_map, hj]
      rfl
    · rfl

/-- Removing elements, given by a mask over the elements of the table. -/
theorem Good.erase (h : Good w t) {stays : List Bool} (hl : stays.length = t.entries.length) :
    Good w (touch w (.erase stays) { t with entries := staying t.entries stays }) := by
  obtain ⟨s, hs, rfl⟩ := h
  -- the slots with the mask beside the elements
  let u : List (Slot ((UInt64 × T) × Bool)) := fill (s.map Slot.ctrl) ((items s).zip stays)
  have hz : ((items s).zip stays).length = (items s).length := by simp [hl, ofSlots]
  have hc : (items (s.map Slot.ctrl)).length = ((items s).zip stays).length := by rw [items_ctrl, hz]
  have h1 : u.map (Slot.map Prod.fst) = s := by
    have := fill_map Prod.fst (s.map Slot.ctrl) ((items s).zip stays)
    rw [List.map_fst_zip (by simp [ofSlots] at hl; omega), fill_self] at this
    exact this.symm
  have h2 : u.map (Slot.map Prod.snd) = fill (s.map Slot.ctrl) stays := by
    have := fill_map Prod.snd (s.map Slot.ctrl) ((items s).zip stays)
    rw [List.map_snd_zip (by simp [ofSlots] at hl; omega)] at this
    exact this.symm
  have hu : items u = (items s).zip stays := items_fill hc
  let v := sweep w Prod.snd u
  have hvi : items v = ((items s).zip stays).filter Prod.snd := by rw [← hu]; exact sweep_items _
  have hes : staying (items s) stays = (items v).map Prod.fst := by
    rw [hvi, staying]
    generalize (items s).zip stays = l
    induction l with
    | nil => rfl
    | cons x xs ih => by_cases hx : x.2 = true <;> simp [hx, ih]
  have hctrl : (sweep w id (fill (s.map Slot.ctrl) stays)).map Slot.ctrl = v.map Slot.ctrl := by
    rw [← h2, sweep_map, List.map_map]
    refine List.map_congr_left fun x _ => ?_
    cases x <;> rfl
  have hval : Valid w (v.map (Slot.map Prod.fst)) := by
    refine valid_of_mask hs h1
  have hctrl' : (v.map (Slot.map Prod.fst)).map Slot.ctrl = v.map Slot.ctrl := by
    rw [List.map_map]
    refine List.map_congr_left fun x _ => ?_
    cases x <;> rfl
  have e : ({ entries := staying (ofSlots s).entries stays,
              aux := enc ((sweep w id (fill (dec (ofSlots s).aux) stays)).map Slot.ctrl) } : RawTable T) =
      ofSlots (v.map (Slot.map Prod.fst)) := by
    simp only [ofSlots, dec_enc, hctrl, hctrl', items_map, hes]
  refine ⟨_, hval, ?_⟩
  simp only [touch]
  rw [e, if_pos (fits_ofSlots hval.toSound)]
where
  valid_of_mask {s : List (Slot (UInt64 × T))} (hs : Valid w s) {u : List (Slot ((UInt64 × T) × Bool))}
      (h1 : u.map (Slot.map Prod.fst) = s) : Valid w ((sweep w Prod.snd u).map (Slot.map Prod.fst)) := by
    rw [sweep_eq]
    generalize List.range u.length = l
    induction l generalizing s u with
    | nil => exact h1 ▸ hs
    | cons i l ih =>
      rw [List.foldl_cons]
      rcases sweepAt_cases (w := w) (s := u) Prod.snd i with h | ⟨a, ha, _, h⟩ <;> rw [h]
      · exact ih hs h1
      · refine ih (s := eraseAt w s i) ?_ ?_
        · refine hs.eraseAt (a := a.1) ?_
          rw [← h1, at?_map, ha]; rfl
        · rw [← h1, eraseAt_map]

theorem staying_allBut {α : Type} (es : List α) (i : Nat) : staying es (RawTable.allBut es.length i) = es.eraseIdx i := by
  have key : ∀ (es : List α) (k i : Nat), staying es ((List.range' k es.length).map (· != k + i)) = es.eraseIdx i := by
    intro es
    induction es with
    | nil => intro k i; rfl
    | cons x xs ih =>
      intro k i
      cases i with
      | zero =>
        have h0 : ∀ (es : List α) (j : Nat), k < j → staying es ((List.range' j es.length).map (· != k)) = es := by
          intro es
          induction es with
          | nil => intro j _; rfl
          | cons y ys ih' =>
            intro j hj
            have h1 : (j != k) = true := by simp; omega
            have := ih' (j + 1) (by omega)
            simp only [staying] at this ⊢
            simp [List.range'_succ, h1, this]
        have := h0 xs (k + 1) (by omega)
        simp only [staying] at this ⊢
        simp [List.range'_succ, this]
      | succ i =>
        have h1 : (k != k + (i + 1)) = true := by simp
        have := ih (k + 1) i
        rw [show k + 1 + i = k + (i + 1) by omega] at this
        simp only [staying] at this ⊢
        simp [List.range'_succ, h1, this]
  have := key es 0 i
  rw [RawTable.allBut, List.range_eq_range']
  simpa using this

theorem Good.removeEntry (h : Good w t) {k : UInt64} {p : T → Bool} {x : T} {t' : RawTable T}
    (e : @RawTable.removeEntry (swissRaw w) T t k p = some (x, t')) : Good w t' := by
  rw [@RawTable.removeEntry.eq_def] at e
  split at e
  · cases e
  · rename_i i hi
    obtain ⟨a, _, e⟩ := Option.map_eq_some_iff.1 e
    cases e
    have := h.erase (stays := RawTable.allBut t.len i) (by simp [RawTable.allBut, RawTable.len])
    rwa [show t.len = t.entries.length from rfl, staying_allBut] at this

/-- Validity is preserved by every call. -/
theorem good_closed (w : Nat) : @RawTable.Closed (swissRaw w) fun _ t => Good w t :=
  @RawTable.Closed.mk (swissRaw w) _ good_new (fun h => h.insert) (fun h => h.removeEntry) (fun h => h.getMut)
    (fun h => h.clear) (fun h => h.erase) (fun h => h.reserve) (fun h => h.shrinkTo) (fun h => h.clone)

end Verif.Swiss
