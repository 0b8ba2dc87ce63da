import Verif.Swiss.Table
import Mathlib.Tactic.Ring
/-! What keeps a probe complete: every element can be reached from the start of its probe sequence without crossing a
group that has an `EMPTY` slot. -/
namespace Verif.Swiss
open List

section
variable {α β : Type} {s : List (Slot α)} {w : Nat}

/-- a power of two many buckets, within the load limit -/
structure Sound (s : List (Slot α)) : Prop where
  pow : ∃ m, s.length = 2 ^ m
  load : used s ≤ capOf s.length

@[simp] theorem items_nil : items ([] : List (Slot α)) = [] := rfl
@[simp] theorem items_full (a : α) (s) : items (.full a :: s) = a :: items s := rfl
@[simp] theorem items_empty (s : List (Slot α)) : items (.empty :: s) = items s := rfl
@[simp] theorem items_deleted (s : List (Slot α)) : items (.deleted :: s) = items s := rfl
@[simp] theorem used_nil : used ([] : List (Slot α)) = 0 := rfl
@[simp] theorem used_full (a : α) (s) : used (.full a :: s) = used s + 1 := by simp [used, Slot.isEmpty]
@[simp] theorem used_empty (s : List (Slot α)) : used (.empty :: s) = used s := by simp [used, Slot.isEmpty]
@[simp] theorem used_deleted (s : List (Slot α)) : used (.deleted :: s) = used s + 1 := by simp [used, Slot.isEmpty]

theorem capOf_lt {n m : Nat} (h : n = 2 ^ m) : capOf n < n := by
  have : 0 < n := h ▸ Nat.pow_pos (by omega)
  rw [capOf]; split <;> omega

theorem emptyAt_lt {i : Nat} (h : emptyAt s i = true) : i < s.length := by
  by_contra hn
  rw [emptyAt, List.getElem?_eq_none (by omega)] at h
  cases h

theorem fullAt_lt {i : Nat} (h : fullAt s i = true) : i < s.length := by
  by_contra hn
  rw [fullAt, List.getElem?_eq_none (by omega)] at h
  cases h

theorem fullAt_iff {i : Nat} : fullAt s i = true ↔ ∃ a, s[i]? = some (.full a) := by
  rw [fullAt]
  cases h : s[i]? with
  | none => simp
  | some x => cases x <;> simp [Slot.isFull]

theorem emptyAt_iff {i : Nat} : emptyAt s i = true ↔ s[i]? = some .empty := by
  rw [emptyAt]
  cases h : s[i]? with
  | none => simp
  | some x => cases x <;> simp [Slot.isEmpty]

theorem not_empty_of_full {i : Nat} (h : fullAt s i = true) : emptyAt s i = false := by
  obtain ⟨a, ha⟩ := fullAt_iff.1 h
  simp [emptyAt, ha, Slot.isEmpty]

theorem Sound.pos (h : Sound s) : 0 < s.length := by
  obtain ⟨m, hm⟩ := h.pow
  exact hm ▸ Nat.pow_pos (by omega)

theorem Sound.lt (h : Sound s) : used s < s.length := by
  obtain ⟨m, hm⟩ := h.pow
  exact Nat.lt_of_le_of_lt h.load (capOf_lt hm)

/-- there is always an `EMPTY` slot -/
theorem Sound.exists_empty (h : Sound s) : ∃ i, emptyAt s i = true := by
  by_contra hn
  have h1 : used s = s.length := by
    rw [used, List.countP_eq_length]
    intro x hx
    obtain ⟨i, hi⟩ := List.getElem?_of_mem hx
    cases x with
    | empty => exact absurd ⟨i, emptyAt_iff.2 hi⟩ hn
    | deleted => rfl
    | full a => rfl
  have := h.lt
  omega

/-! ### The probe sequence visits every slot -/

theorem mem_group {n p i : Nat} : i ∈ group w n p ↔ ∃ b, b < 2 ^ w ∧ b < n ∧ (p + b) % n = i := by
  simp [group, and_assoc]

theorem group_lt {n p i : Nat} (h : i ∈ group w n p) : i < n := by
  obtain ⟨b, _, h2, rfl⟩ := mem_group.1 h
  exact Nat.mod_lt _ (by omega)

theorem cover {n m : Nat} (hn : n = 2 ^ m) (h : UInt64) {i : Nat} (hi : i < n) :
    ∃ k, k < n ∧ i ∈ group w n (pos w n h k) := by
  have hpos : 0 < n := by omega
  -- the distance from the start of the sequence
  obtain ⟨d, hd, hdi⟩ : ∃ d, d < n ∧ (h.toNat + d) % n = i := by
    refine ⟨(i + n - h.toNat % n) % n, Nat.mod_lt _ hpos, ?_⟩
    have h1 : h.toNat % n < n := Nat.mod_lt _ hpos
    rw [Nat.add_mod, Nat.mod_mod, ← Nat.add_mod, ← Nat.mod_add_mod]
    have : h.toNat % n + (i + n - h.toNat % n) = i + n := by omega
    rw [this, Nat.add_mod_right, Nat.mod_eq_of_lt hi]
  rcases Nat.le_total (2 ^ w) n with hle | hle
  · have hwm : w ≤ m := (Nat.pow_le_pow_iff_right (by omega)).1 (hn ▸ hle)
    obtain ⟨r, rfl⟩ := Nat.exists_eq_add_of_le hwm
    have hW : 0 < 2 ^ w := Nat.pow_pos (by omega)
    have hnr : n = 2 ^ w * 2 ^ r := by rw [hn, pow_add]
    have hj : d / 2 ^ w < 2 ^ r := Nat.div_lt_of_lt_mul (by omega)
    obtain ⟨k, hk, hkj⟩ := tri_surj r hj
    refine ⟨k, ?_, mem_group.2 ⟨d % 2 ^ w, Nat.mod_lt _ hW, ?_, ?_⟩⟩
    · rw [hnr]; exact Nat.lt_of_lt_of_le hk (Nat.le_mul_of_pos_left _ hW)
    · exact Nat.lt_of_lt_of_le (Nat.mod_lt _ hW) hle
    · have h1 : (2 ^ w * tri k) % n = 2 ^ w * (d / 2 ^ w) := by rw [hnr, Nat.mul_mod_mul_left, hkj]
      have h2 := Nat.div_add_mod d (2 ^ w)
      rw [pos, Nat.mod_add_mod, Nat.add_assoc, Nat.add_mod, ← Nat.mod_add_mod (2 ^ w * tri k), h1, h2,
        ← Nat.add_mod, hdi]
  · refine ⟨0, hpos, mem_group.2 ⟨d, by omega, hd, ?_⟩⟩
    rw [pos, tri, Nat.mod_add_mod]
    simpa using hdi

theorem mem_groups {n : Nat} {h : UInt64} {i : Nat} :
    i ∈ (groups w n h).flatten ↔ ∃ k, k < n ∧ i ∈ group w n (pos w n h k) := by
  simp [groups]

/-! ### Reachability -/

/-- slot `i` is on the probe sequence of hash `h`, in a group before which no group has an `EMPTY` slot -/
def Reach (w : Nat) (s : List (Slot α)) (h : UInt64) (i : Nat) : Prop :=
  ∃ k, k < s.length ∧ i ∈ group w s.length (pos w s.length h k) ∧
    ∀ j, j < k → ∀ x ∈ group w s.length (pos w s.length h j), emptyAt s x = false

theorem Reach.mono {s' : List (Slot β)} {h i} (hr : Reach w s h i) (hl : s'.length = s.length)
    (he : ∀ x, emptyAt s' x = true → emptyAt s x = true) : Reach w s' h i := by
  obtain ⟨k, h1, h2, h3⟩ := hr
  rw [← hl] at h1 h2 h3
  refine ⟨k, h1, h2, fun j hj x hx => ?_⟩
  have := h3 j hj x hx
  by_contra hc
  rw [he x (by simpa using hc)] at this
  cases this

theorem find_flatten {gs : List (List Nat)} {q : Nat → Bool} {i : Nat}
    (h : gs.flatten.find? q = some i) :
    q i = true ∧ ∃ (k : Nat) (g : List Nat), gs[k]? = some g ∧ i ∈ g ∧ ∀ j : Nat, j < k → ∀ g', gs[j]? = some g' → ∀ x ∈ g', q x = false := by
  refine ⟨List.find?_some h, ?_⟩
  induction gs with
  | nil => simp at h
  | cons g gs ih =>
    rw [List.flatten_cons, List.find?_append] at h
    cases hg : g.find? q with
    | some y =>
      rw [hg] at h
      simp at h
      subst h
      exact ⟨0, g, rfl, List.mem_of_find?_eq_some hg, fun j hj => absurd hj (by omega)⟩
    | none =>
      rw [hg] at h
      simp only [Option.none_or] at h
      obtain ⟨k, g', h1, h2, h3⟩ := ih h
      refine ⟨k + 1, g', by simpa using h1, h2, fun j hj g'' hg'' x hx => ?_⟩
      cases j with
      | zero =>
        simp at hg''
        subst hg''
        have := List.find?_eq_none.1 hg x hx
        simpa using this
      | succ j => exact h3 j (by omega) g'' (by simpa using hg'') x hx

theorem insertSlot_isSome (hs : Sound s) (h : UInt64) : ∃ i, insertSlot w s h = some i := by
  obtain ⟨m, hm⟩ := hs.pow
  obtain ⟨i, hi⟩ := hs.exists_empty
  cases hx : insertSlot w s h with
  | some j => exact ⟨j, rfl⟩
  | none =>
    have := List.find?_eq_none.1 hx i (mem_groups.2 (cover hm h (emptyAt_lt hi)))
    have hf : fullAt s i = true := by simpa using this
    rw [not_empty_of_full hf] at hi
    cases hi

theorem insertSlot_spec {h : UInt64} {i : Nat} (hi : insertSlot w s h = some i) :
    i < s.length ∧ fullAt s i = false ∧ Reach w s h i := by
  obtain ⟨h1, k, g, h2, h3, h4⟩ := find_flatten hi
  simp only [groups, List.getElem?_map, Option.map_eq_some_iff] at h2
  obtain ⟨k', hk', rfl⟩ := h2
  obtain ⟨hk, rfl⟩ := List.getElem?_eq_some_iff.1 hk'
  simp only [List.length_range] at hk
  simp only [List.getElem_range] at h3
  refine ⟨group_lt h3, by simpa using h1, k, hk, h3, fun j hj x hx => ?_⟩
  have := h4 j hj (group w s.length (pos w s.length h j)) (by
    simp [groups, List.getElem?_range (show j < s.length by omega)]) x hx
  exact not_empty_of_full (by simpa using this)

/-! ### The loop of `find` -/

theorem probe_some {hit empty : Nat → Bool} {gs i} (h : probe hit empty gs = some i) : hit i = true := by
  induction gs with
  | nil => cases h
  | cons g gs ih =>
    rw [probe] at h
    split at h
    · rename_i j hj
      cases h
      exact List.find?_some hj
    · split at h
      · cases h
      · exact ih h

theorem probe_complete {hit empty : Nat → Bool} {gs : List (List Nat)} {k : Nat} {g i} (hk : gs[k]? = some g) (hi : i ∈ g)
    (hh : hit i = true) (he : ∀ j : Nat, j < k → ∀ g', gs[j]? = some g' → ∀ x ∈ g', empty x = false) :
    probe hit empty gs ≠ none := by
  induction gs generalizing k with
  | nil => simp at hk
  | cons g' gs ih =>
    rw [probe]
    split
    · simp
    · rename_i hn
      cases k with
      | zero =>
        simp at hk; subst hk
        have := List.find?_eq_none.1 hn i hi
        exact absurd hh this
      | succ k =>
        have h0 := he 0 (by omega) g' rfl
        rw [if_neg (by rw [List.any_eq_true]; rintro ⟨x, hx, hx'⟩; rw [h0 x hx] at hx'; cases hx')]
        exact ih (by simpa using hk) fun j hj g'' hg'' => he (j + 1) (by omega) g'' (by simpa using hg'')

/-! ### Writing to a slot -/

theorem emptyAt_set {i x : Nat} {y : Slot α} :
    emptyAt (s.set i y) x = if i = x ∧ i < s.length then y.isEmpty else emptyAt s x := by
  simp only [emptyAt, List.getElem?_set]
  by_cases h : i = x
  · subst h
    by_cases hl : i < s.length
    · simp [hl]
    · simp [hl]
  · simp [h]

theorem items_set_full {i : Nat} {a : α} (hi : i < s.length) (hf : fullAt s i = false) :
    (items (s.set i (.full a))).Perm (a :: items s) := by
  induction s generalizing i with
  | nil => simp at hi
  | cons x xs ih =>
    cases i with
    | zero =>
      cases x with
      | full b => simp [fullAt, Slot.isFull] at hf
      | empty => simp
      | deleted => simp
    | succ i =>
      have hp := ih (i := i) (by simpa using hi) (by simpa [fullAt] using hf)
      cases x with
      | full b =>
        simp only [List.set_cons_succ, items_full]
        exact (hp.cons b).trans (List.Perm.swap _ _ _)
      | empty => simpa using hp
      | deleted => simpa using hp

theorem used_set {i : Nat} {y : Slot α} (hi : i < s.length) :
    used (s.set i y) + (if emptyAt s i then 0 else 1) = used s + (if y.isEmpty then 0 else 1) := by
  induction s generalizing i with
  | nil => simp at hi
  | cons x xs ih =>
    cases i with
    | zero =>
      cases x <;> cases y <;> simp [used, emptyAt, Slot.isEmpty]
    | succ i =>
      have hp := ih (i := i) (by simpa using hi)
      simp only [used, List.set_cons_succ, List.countP_cons] at hp ⊢
      have : emptyAt (x :: xs) (i + 1) = emptyAt xs i := by simp [emptyAt]
      rw [this]
      omega

end

/-! ### Valid tables -/

variable {T : Type} {w : Nat} {s : List (Slot (UInt64 × T))}

/-- the layout is sound and every element can be reached under its hash -/
structure Valid (w : Nat) (s : List (Slot (UInt64 × T))) : Prop extends Sound s where
  reach : ∀ i e, s[i]? = some (.full e) → Reach w s e.1 i

theorem hit_iff {h : UInt64} {p : T → Bool} {i : Nat} :
    hit s h p i = true ↔ ∃ e, s[i]? = some (.full e) ∧ h2 e.1 = h2 h ∧ p e.2 = true := by
  rw [hit]
  cases h : s[i]? with
  | none => simp
  | some x => cases x <;> simp [Slot.get?]

theorem findSlot_sound {h : UInt64} {p : T → Bool} {i : Nat} (hi : findSlot w s h p = some i) :
    ∃ e, s[i]? = some (.full e) ∧ h2 e.1 = h2 h ∧ p e.2 = true :=
  hit_iff.1 (probe_some hi)

/-- in a valid table the probe finds an element with the given hash that satisfies the predicate, if there is one -/
theorem Valid.findSlot_complete (hv : Valid w s) {i : Nat} {e : UInt64 × T} (hi : s[i]? = some (.full e)) {p : T → Bool}
    (hp : p e.2 = true) : findSlot w s e.1 p ≠ none := by
  obtain ⟨k, h1, h2, h3⟩ := hv.reach i e hi
  refine probe_complete (k := k) (g := group w s.length (pos w s.length e.1 k)) ?_ h2 (hit_iff.2 ⟨e, hi, rfl, hp⟩) ?_
  · simp [groups, List.getElem?_range h1]
  · intro j hj g' hg' x hx
    simp only [groups, List.getElem?_map, List.getElem?_range (show j < s.length by omega), Option.map_some,
      Option.some.injEq] at hg'
    subst hg'
    exact h3 j hj x hx

theorem place_length (e : UInt64 × T) : (place w s e).length = s.length := by
  rw [place]; split <;> simp

theorem place_items (hs : Sound s) (e : UInt64 × T) : (items (place w s e)).Perm (e :: items s) := by
  obtain ⟨i, hi⟩ := insertSlot_isSome (w := w) hs e.1
  obtain ⟨h1, h2, -⟩ := insertSlot_spec hi
  simp only [place, hi]
  exact items_set_full h1 h2

theorem place_used (hs : Sound s) (e : UInt64 × T) :
    used (place w s e) = used s + (if (insertSlot w s e.1).any (emptyAt s) then 1 else 0) := by
  obtain ⟨i, hi⟩ := insertSlot_isSome (w := w) hs e.1
  obtain ⟨h1, h2, -⟩ := insertSlot_spec hi
  have := used_set (y := .full e) h1
  simp only [place, hi, Option.any_some]
  simp only [Slot.isEmpty] at this
  split at this <;> simp_all

/-- placing an element keeps the table valid, if there is room or the slot was a tombstone -/
theorem Valid.place (hv : Valid w s) {e : UInt64 × T}
    (hroom : (insertSlot w s e.1).any (emptyAt s) = true → used s < capOf s.length) : Valid w (place w s e) := by
  obtain ⟨i, hi⟩ := insertSlot_isSome (w := w) hv.toSound e.1
  obtain ⟨h1, h2, h3⟩ := insertSlot_spec hi
  have hsub : ∀ x, emptyAt (Swiss.place w s e) x = true → emptyAt s x = true := by
    intro x hx
    simp only [Swiss.place, hi, emptyAt_set] at hx
    split at hx
    · cases hx
    · exact hx
  refine ⟨⟨?_, ?_⟩, ?_⟩
  · rw [place_length]; exact hv.pow
  · rw [place_length, place_used hv.toSound]
    split
    · rename_i h; exact hroom h
    · exact hv.load
  · intro j e' hj
    refine Reach.mono (s := s) ?_ (place_length e) hsub
    simp only [Swiss.place, hi, List.getElem?_set] at hj
    split at hj
    · rename_i hij; subst hij
      cases hj
      exact h3
    · exact hv.reach j e' hj

/-! ### Building a table -/

theorem used_replicate {α : Type} (n : Nat) : used (List.replicate n (.empty : Slot α)) = 0 := by
  rw [used, List.countP_eq_zero]
  intro a ha
  rw [List.eq_of_mem_replicate ha]
  simp [Slot.isEmpty]

theorem items_replicate {α : Type} (n : Nat) : items (List.replicate n (.empty : Slot α)) = [] := by
  rw [items, List.filterMap_eq_nil_iff]
  intro a ha
  rw [List.eq_of_mem_replicate ha]; rfl

theorem valid_replicate {n m : Nat} (hn : n = 2 ^ m) : Valid w (List.replicate n (.empty : Slot (UInt64 × T))) := by
  refine ⟨⟨⟨m, by simpa using hn⟩, by rw [used_replicate]; omega⟩, fun i e hi => ?_⟩
  have := List.mem_of_getElem? hi
  rw [List.mem_replicate] at this
  cases this.2

theorem build_aux {es : List (UInt64 × T)} (hv : Valid w s) (hroom : used s + es.length ≤ capOf s.length) :
    Valid w (es.foldl (place w) s) ∧ (es.foldl (place w) s).length = s.length ∧
      (items (es.foldl (place w) s)).Perm (es ++ items s) ∧
      used (es.foldl (place w) s) ≤ used s + es.length := by
  induction es generalizing s with
  | nil => exact ⟨hv, rfl, .refl _, Nat.le_refl _⟩
  | cons e es ih =>
    simp only [List.length_cons] at hroom
    have hu := place_used (w := w) hv.toSound e
    have hu' : used (place w s e) ≤ used s + 1 := by rw [hu]; split <;> omega
    obtain ⟨h1, h2, h3, h4⟩ := ih (hv.place (e := e) fun _ => by omega) (by rw [place_length]; omega)
    refine ⟨h1, h2.trans (place_length e), ?_, ?_⟩
    · refine h3.trans ?_
      refine ((place_items hv.toSound e).append_left es).trans ?_
      exact List.perm_middle
    · simp only [List.foldl_cons, List.length_cons]; omega

theorem used_ge_items {α : Type} (s : List (Slot α)) : (items s).length ≤ used s := by
  induction s with
  | nil => simp [items, used]
  | cons x xs ih => cases x <;> simp <;> omega

theorem build_spec {n m : Nat} (hn : n = 2 ^ m) {es : List (UInt64 × T)} (hroom : es.length ≤ capOf n) :
    Valid w (build w n es) ∧ (build w n es).length = n ∧ (items (build w n es)).Perm es ∧
      used (build w n es) = es.length := by
  obtain ⟨h1, h2, h3, h4⟩ := build_aux (es := es) (valid_replicate (w := w) (T := T) hn) (by
    rw [used_replicate]; simpa using hroom)
  rw [items_replicate, List.append_nil] at h3
  rw [used_replicate] at h4
  refine ⟨h1, by simpa [build] using h2, h3, ?_⟩
  have h5 := used_ge_items (build w n es)
  have h6 := h3.length_eq
  have h7 : used (build w n es) ≤ 0 + es.length := h4
  simp only [build] at *
  omega

/-! ### Numbers of buckets -/

theorem buckets_pow (c : Nat) : ∃ m, buckets c = 2 ^ m := by
  rw [buckets]
  split
  · exact ⟨2, rfl⟩
  · split
    · exact ⟨3, rfl⟩
    · exact ⟨_, rfl⟩

theorem le_nextPow2 {n : Nat} : n ≤ nextPow2 n := by
  have := Nat.lt_log2_self (n := n - 1)
  rw [nextPow2]; omega

theorem le_capOf_buckets (c : Nat) : c ≤ capOf (buckets c) := by
  rw [buckets]
  split
  · simp [capOf]; omega
  · split
    · simp [capOf]; omega
    · rename_i h1 h2
      have h3 := le_nextPow2 (n := c * 8 / 7)
      have h4 : 8 ∣ nextPow2 (c * 8 / 7) := by
        rw [nextPow2]
        refine Nat.pow_dvd_pow 2 (m := 3) ?_
        have : 3 ≤ (c * 8 / 7 - 1).log2 := (Nat.le_log2 (by omega)).2 (by omega)
        omega
      generalize nextPow2 (c * 8 / 7) = n at *
      obtain ⟨q, rfl⟩ := h4
      rw [capOf, if_neg (by omega)]
      omega

theorem build_buckets (es : List (UInt64 × T)) {c : Nat} (hc : es.length ≤ c) :
    Valid w (build w (buckets c) es) ∧ (build w (buckets c) es).length = buckets c ∧
      (items (build w (buckets c) es)).Perm es ∧ used (build w (buckets c) es) = es.length := by
  obtain ⟨m, hm⟩ := buckets_pow c
  exact build_spec hm (Nat.le_trans hc (le_capOf_buckets c))

/-! ### Erasing -/

theorem le_takeWhile {n m : Nat} {p : Nat → Bool} (hm : m ≤ n) (h : ∀ b, b < m → p b = true) :
    m ≤ ((List.range n).takeWhile p).length := by
  obtain ⟨k, rfl⟩ := Nat.exists_eq_add_of_le hm
  rw [List.range_add, List.takeWhile_append_of_pos (by simpa using h)]
  simp

section
variable {α β : Type} {s : List (Slot α)}

/-- a slot inside a group without `EMPTY` slots gets a `DELETED` mark -/
theorem tomb_of_group (hs : Sound s) {i p : Nat} (hi : i ∈ group w s.length p)
    (hg : ∀ x ∈ group w s.length p, emptyAt s x = false) : tomb w s i = true := by
  have hn := hs.pos
  rcases Nat.lt_or_ge s.length (2 ^ w) with hlt | hle
  · -- the group is the whole table
    obtain ⟨x, hx⟩ := hs.exists_empty
    have hxl := emptyAt_lt hx
    have : x ∈ group w s.length p := by
      have hp : p % s.length < s.length := Nat.mod_lt _ hn
      have hlt' : (x + s.length - p % s.length) % s.length < s.length := Nat.mod_lt _ hn
      refine mem_group.2 ⟨(x + s.length - p % s.length) % s.length, by omega, hlt', ?_⟩
      rw [Nat.add_mod, Nat.mod_mod, ← Nat.add_mod, ← Nat.mod_add_mod]
      have : p % s.length + (x + s.length - p % s.length) = x + s.length := by omega
      rw [this, Nat.add_mod_right, Nat.mod_eq_of_lt hxl]
    rw [hg x this] at hx
    cases hx
  · obtain ⟨b0, h1, h2, rfl⟩ := mem_group.1 hi
    simp only [tomb, hle, decide_true, Bool.true_and, decide_eq_true_eq]
    have ha : 2 ^ w - b0 ≤ ((List.range (2 ^ w)).takeWhile
        fun b => !emptyAt s (((p + b0) % s.length + b) % s.length)).length := by
      refine le_takeWhile (Nat.sub_le _ _) fun b hb => ?_
      rw [Nat.mod_add_mod, Nat.add_assoc]
      rw [hg _ (mem_group.2 ⟨b0 + b, by omega, by omega, rfl⟩)]
      rfl
    have hb : b0 ≤ ((List.range (2 ^ w)).takeWhile
        fun b => !emptyAt s (((p + b0) % s.length + s.length - 1 - b) % s.length)).length := by
      refine le_takeWhile (by omega) fun b hb => ?_
      have e : ((p + b0) % s.length + s.length - 1 - b) % s.length = (p + (b0 - 1 - b)) % s.length := by
        have e1 : (p + b0) % s.length + s.length - 1 - b = (p + b0) % s.length + (s.length - 1 - b) := by omega
        rw [e1, Nat.mod_add_mod]
        have e2 : p + b0 + (s.length - 1 - b) = p + (b0 - 1 - b) + s.length := by omega
        rw [e2, Nat.add_mod_right]
      rw [e, hg _ (mem_group.2 ⟨b0 - 1 - b, by omega, by omega, rfl⟩)]
      rfl
    omega

/-- the element in a slot -/
def at? (s : List (Slot α)) (i : Nat) : Option α := (s[i]?).bind Slot.get?

theorem at?_iff {i : Nat} {a : α} : at? s i = some a ↔ s[i]? = some (.full a) := by
  rw [at?]
  cases h : s[i]? with
  | none => simp
  | some x => cases x <;> simp [Slot.get?]

theorem eraseAt_length (i : Nat) : (eraseAt w s i).length = s.length := by simp [eraseAt]

theorem eraseAt_at? (i j : Nat) : at? (eraseAt w s i) j = if i = j then none else at? s j := by
  simp only [at?, eraseAt, List.getElem?_set]
  by_cases h : i = j
  · subst h
    by_cases hl : i < s.length
    · simp only [hl, if_true]; split <;> rfl
    · simp [hl]
  · simp [h]

theorem eraseAt_used {i : Nat} {a : α} (hi : at? s i = some a) : used (eraseAt w s i) ≤ used s := by
  have hi := at?_iff.1 hi
  have h1 := (List.getElem?_eq_some_iff.1 hi).1
  have h2 : emptyAt s i = false := not_empty_of_full (fullAt_iff.2 ⟨a, hi⟩)
  have := used_set (y := if tomb w s i then .deleted else .empty) h1
  rw [h2] at this
  simp only [Bool.false_eq_true, if_false] at this
  have h3 : (if (if tomb w s i then (.deleted : Slot α) else .empty).isEmpty then 0 else 1) ≤ 1 := by
    generalize (if tomb w s i then (.deleted : Slot α) else .empty).isEmpty = b
    cases b <;> simp
  rw [eraseAt]
  omega

theorem Sound.eraseAt (hs : Sound s) {i : Nat} {a : α} (hi : at? s i = some a) : Sound (eraseAt w s i) :=
  ⟨by rw [eraseAt_length]; exact hs.pow, by rw [eraseAt_length]; exact Nat.le_trans (eraseAt_used hi) hs.load⟩

/-- one step of `sweep` -/
def sweepAt (w : Nat) (keep : α → Bool) (s : List (Slot α)) (i : Nat) : List (Slot α) :=
  if (at? s i).any (fun a => !keep a) then Swiss.eraseAt w s i else s

theorem sweep_eq (keep : α → Bool) : sweep w keep s = (List.range s.length).foldl (sweepAt w keep) s := rfl

theorem sweepAt_cases (keep : α → Bool) (i : Nat) : sweepAt w keep s i = s ∨
    ∃ a, at? s i = some a ∧ keep a = false ∧ sweepAt w keep s i = Swiss.eraseAt w s i := by
  rw [sweepAt]
  split
  · rename_i h
    obtain ⟨a, h1, h2⟩ := Option.any_eq_true _ _ |>.1 h
    exact .inr ⟨a, h1, by simpa using h2, rfl⟩
  · exact .inl rfl

theorem sweepAt_at? (keep : α → Bool) (i j : Nat) :
    at? (sweepAt w keep s i) j = if i = j then (at? s j).filter keep else at? s j := by
  rw [sweepAt]
  by_cases hij : i = j
  · subst hij
    cases e : at? s i with
    | none => simp [e]
    | some a => by_cases hk : keep a = true <;> simp [hk, e, eraseAt_at?, Option.filter]
  · simp only [hij, if_false]
    split
    · rw [eraseAt_at?, if_neg hij]
    · rfl

theorem foldl_sweepAt (keep : α → Bool) (l : List Nat) :
    (l.foldl (sweepAt w keep) s).length = s.length ∧ used (l.foldl (sweepAt w keep) s) ≤ used s ∧
    ∀ j, at? (l.foldl (sweepAt w keep) s) j = if j ∈ l then (at? s j).filter keep else at? s j := by
  induction l generalizing s with
  | nil => simp
  | cons i l ih =>
    obtain ⟨h1, h2, h3⟩ := ih (s := sweepAt w keep s i)
    have hl : (sweepAt w keep s i).length = s.length := by
      rcases sweepAt_cases (w := w) (s := s) keep i with h | ⟨_, _, _, h⟩ <;> rw [h]
      exact eraseAt_length i
    have hu : used (sweepAt w keep s i) ≤ used s := by
      rcases sweepAt_cases (w := w) (s := s) keep i with h | ⟨_, ha, _, h⟩ <;> rw [h]
      exact eraseAt_used ha
    refine ⟨h1.trans hl, Nat.le_trans h2 hu, fun j => ?_⟩
    rw [List.foldl_cons, h3, sweepAt_at?]
    by_cases hj : i = j
    · subst hj
      simp only [List.mem_cons, true_or, if_true]
      split
      · cases at? s i with
        | none => rfl
        | some a => simp
      · rfl
    · have : ¬ j = i := fun h => hj h.symm
      simp [hj, this]

theorem items_eq_filter {s s' : List (Slot α)} {keep : α → Bool} (hl : s'.length = s.length)
    (h : ∀ j, at? s' j = (at? s j).filter keep) : items s' = (items s).filter keep := by
  induction s generalizing s' with
  | nil => cases s' with
    | nil => rfl
    | cons => simp at hl
  | cons x xs ih =>
    cases s' with
    | nil => simp at hl
    | cons y ys =>
      have h0 := h 0
      have ih := ih (s' := ys) (by simpa using hl) fun j => by simpa [at?] using h (j + 1)
      have h0 : y.get? = x.get?.filter keep := by simpa [at?] using h0
      cases x with
      | full a =>
        by_cases hk : keep a = true
        · simp only [Slot.get?, Option.filter_some, hk, if_true] at h0
          cases y <;> simp_all
        · simp only [Slot.get?, Option.filter_some, hk] at h0
          cases y <;> simp_all
      | empty => cases y <;> simp_all [Slot.get?]
      | deleted => cases y <;> simp_all [Slot.get?]

theorem sweep_length (keep : α → Bool) : (sweep w keep s).length = s.length := (foldl_sweepAt keep _).1
theorem sweep_used (keep : α → Bool) : used (sweep w keep s) ≤ used s := (foldl_sweepAt keep _).2.1

theorem at?_lt {i : Nat} {a : α} (h : at? s i = some a) : i < s.length :=
  (List.getElem?_eq_some_iff.1 (at?_iff.1 h)).1

theorem sweep_at? (keep : α → Bool) (j : Nat) : at? (sweep w keep s) j = (at? s j).filter keep := by
  rw [sweep_eq, (foldl_sweepAt keep _).2.2]
  split
  · rfl
  · rename_i h
    cases e : at? s j with
    | none => rfl
    | some a => exact absurd (at?_lt e) (by simpa using h)

theorem sweep_items (keep : α → Bool) : items (sweep w keep s) = (items s).filter keep :=
  items_eq_filter (sweep_length keep) (sweep_at? keep)

/-! Only the control bytes matter for what becomes of a slot. -/

theorem emptyAt_map (f : α → β) (i : Nat) : emptyAt (s.map (Slot.map f)) i = emptyAt s i := by
  simp only [emptyAt, List.getElem?_map]
  cases s[i]? with
  | none => rfl
  | some x => cases x <;> rfl

theorem fullAt_map (f : α → β) (i : Nat) : fullAt (s.map (Slot.map f)) i = fullAt s i := by
  simp only [fullAt, List.getElem?_map]
  cases s[i]? with
  | none => rfl
  | some x => cases x <;> rfl

theorem at?_map (f : α → β) (i : Nat) : at? (s.map (Slot.map f)) i = (at? s i).map f := by
  simp only [at?, List.getElem?_map]
  cases s[i]? with
  | none => rfl
  | some x => cases x <;> rfl

theorem used_map (f : α → β) : used (s.map (Slot.map f)) = used s := by
  induction s with
  | nil => rfl
  | cons x xs ih => cases x <;> simp [Slot.map, ih]

theorem items_map (f : α → β) : items (s.map (Slot.map f)) = (items s).map f := by
  induction s with
  | nil => rfl
  | cons x xs ih => cases x <;> simp [Slot.map, ih]

theorem tomb_map (f : α → β) (i : Nat) : tomb w (s.map (Slot.map f)) i = tomb w s i := by
  simp only [tomb, emptyAt_map, List.length_map]

theorem eraseAt_map (f : α → β) (i : Nat) : eraseAt w (s.map (Slot.map f)) i = (eraseAt w s i).map (Slot.map f) := by
  simp only [eraseAt, tomb_map, List.map_set]
  split <;> rfl

theorem sweep_map (f : α → β) (keep : β → Bool) :
    sweep w keep (s.map (Slot.map f)) = (sweep w (fun a => keep (f a)) s).map (Slot.map f) := by
  rw [sweep_eq, sweep_eq, List.length_map]
  generalize List.range s.length = l
  induction l generalizing s with
  | nil => rfl
  | cons i l ih =>
    rw [List.foldl_cons, List.foldl_cons, ← ih]
    congr 1
    simp only [sweepAt, at?_map, eraseAt_map, Option.any_map]
    split <;> rfl

theorem insertSlot_map (f : α → β) (h : UInt64) : insertSlot w (s.map (Slot.map f)) h = insertSlot w s h := by
  simp only [insertSlot, fullAt_map, List.length_map]

theorem room_map (f : α → β) : room (s.map (Slot.map f)) = room s := by
  simp only [room, used_map, List.length_map]

theorem grows_map (f : α → β) (h : UInt64) : grows w (s.map (Slot.map f)) h = grows w s h := by
  simp only [grows, room_map, insertSlot_map]
  congr 2
  funext i
  exact emptyAt_map f i

end

theorem Valid.eraseAt (hv : Valid w s) {i : Nat} {a} (hi : at? s i = some a) : Valid w (eraseAt w s i) := by
  refine ⟨hv.toSound.eraseAt hi, fun j e hj => ?_⟩
  have hj' := at?_iff.2 hj
  rw [eraseAt_at?] at hj'
  split at hj'
  · cases hj'
  rename_i hij
  obtain ⟨k, h1, h2, h3⟩ := hv.reach j e (at?_iff.1 hj')
  rw [← eraseAt_length (w := w) (s := s) i] at h1 h2
  refine ⟨k, h1, h2, fun j hj x hx => ?_⟩
  rw [eraseAt_length] at hx
  have hx' := h3 j hj x hx
  rw [Swiss.eraseAt, emptyAt_set]
  split
  · rename_i h
    obtain ⟨rfl, -⟩ := h
    rw [tomb_of_group hv.toSound hx (h3 j hj)]
    rfl
  · exact hx'

theorem Valid.sweep (hv : Valid w s) (keep : UInt64 × T → Bool) : Valid w (sweep w keep s) := by
  rw [sweep_eq]
  generalize List.range s.length = l
  induction l generalizing s with
  | nil => exact hv
  | cons i l ih =>
    refine ih ?_
    rcases sweepAt_cases (w := w) (s := s) keep i with h | ⟨a, ha, _, h⟩ <;> rw [h]
    · exact hv
    · exact hv.eraseAt ha

/-! ### The calls keep a table valid and its elements -/

theorem rehashBuckets_pow (hs : Sound s) (k : Nat) : ∃ m, rehashBuckets s k = 2 ^ m := by
  rw [rehashBuckets]
  split
  · exact hs.pow
  · exact buckets_pow _

theorem rehashBuckets_cap (k : Nat) : (items s).length + k ≤ capOf (rehashBuckets s k) := by
  rw [rehashBuckets]
  split
  · omega
  · exact Nat.le_trans (Nat.le_max_left _ _) (le_capOf_buckets _)

theorem regrow_spec (hs : Sound s) (k : Nat) :
    Valid w (build w (rehashBuckets s k) (items s)) ∧ (items (build w (rehashBuckets s k) (items s))).Perm (items s) ∧
      k ≤ room (build w (rehashBuckets s k) (items s)) := by
  obtain ⟨m, hm⟩ := rehashBuckets_pow hs k
  have hc := rehashBuckets_cap (s := s) k
  obtain ⟨h1, h2, h3, h4⟩ := build_spec (w := w) hm (es := items s) (by omega)
  refine ⟨h1, h3, ?_⟩
  rw [room, h2, h4]; omega

theorem reserve_spec (hs : Sound s) (k : Nat) : Sound (reserve w s k) ∧ (Valid w s → Valid w (reserve w s k)) ∧
    (items (reserve w s k)).Perm (items s) ∧ k ≤ room (reserve w s k) ∧ room s ≤ room (reserve w s k) := by
  obtain ⟨h1, h2, h3⟩ := regrow_spec (w := w) hs k
  rw [reserve]
  split
  · exact ⟨h1.toSound, fun _ => h1, h2, h3, by omega⟩
  · exact ⟨hs, id, .refl _, by omega, Nat.le_refl _⟩

theorem insert_items (hs : Sound s) (h : UInt64) (e : UInt64 × T) : (items (insert w s h e)).Perm (e :: items s) := by
  rw [insert]
  split
  · obtain ⟨h1, h2, -⟩ := regrow_spec (w := w) hs 1
    exact (place_items h1.toSound e).trans (h2.cons e)
  · exact place_items hs e

theorem insert_room (hs : Sound s) (e : UInt64 × T) : used (insert w s e.1 e) ≤ capOf (insert w s e.1 e).length ∧
    room s ≤ room (insert w s e.1 e) + 1 := by
  rw [insert]
  split
  · rename_i hg
    obtain ⟨h1, h2, h3⟩ := regrow_spec (w := w) hs 1
    have hu := place_used (w := w) h1.toSound e
    have hl := place_length (w := w) (s := build w (rehashBuckets s 1) (items s)) e
    have hr : room s = 0 := by simp [grows] at hg; exact hg.1
    simp only [room] at h3
    refine ⟨?_, by omega⟩
    rw [hu, hl]; split <;> omega
  · rename_i hg
    have hu := place_used (w := w) hs e
    have hl := place_length (w := w) (s := s) e
    have hd := hs.load
    simp only [grows, Bool.and_eq_true, beq_iff_eq, not_and] at hg
    simp only [room] at *
    rw [hu, hl]
    split
    · rename_i hx
      have : ¬ capOf s.length - used s = 0 := fun h0 => hg h0 hx
      omega
    · omega

theorem Valid.insert (hv : Valid w s) (e : UInt64 × T) : Valid w (insert w s e.1 e) := by
  rw [Swiss.insert]
  split
  · obtain ⟨h1, h2, h3⟩ := regrow_spec (w := w) hv.toSound 1
    refine h1.place fun _ => ?_
    simp only [room] at h3
    omega
  · rename_i hg
    refine hv.place fun hx => ?_
    simp only [grows, Bool.and_eq_true, beq_iff_eq, not_and] at hg
    have : ¬ room s = 0 := fun h0 => hg h0 hx
    simp only [room] at this
    omega

theorem shrink_spec (hs : Sound s) (m : Nat) : Sound (shrink w s m) ∧ (Valid w s → Valid w (shrink w s m)) ∧
    (items (shrink w s m)).Perm (items s) ∧
    min ((items s).length + room s) (max (items s).length m) ≤ (items s).length + room (shrink w s m) := by
  rw [shrink, shrinkBuckets]
  split
  · rename_i n hn
    split at hn
    · rename_i hz
      cases hn
      have h0 : (items s).length = 0 := by omega
      obtain ⟨h1, h2, h3, h4⟩ := build_spec (w := w) (n := 1) (m := 0) rfl (es := items s) (by simp [h0])
      exact ⟨h1.toSound, fun _ => h1, h3, by omega⟩
    · split at hn
      · cases hn
        obtain ⟨h1, h2, h3, h4⟩ := build_buckets (w := w) (items s) (c := max (items s).length m) (by omega)
        have := le_capOf_buckets (max (items s).length m)
        refine ⟨h1.toSound, fun _ => h1, h3, ?_⟩
        simp only [room, h2, h4]; omega
      · cases hn
  · exact ⟨hs, id, .refl _, by omega⟩

end Verif.Swiss
