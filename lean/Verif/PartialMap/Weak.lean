import Verif.PartialMap.Bulk
import Verif.PartialMap.Swaps
import Verif.CycleMap.Weak
import Verif.PartialMap.WeakSpec
/-! `PartialCycleMap` with a `==` that is any relation the hash agrees with: partners stay linked. -/
set_option linter.unusedSectionVars false
set_option linter.unusedSimpArgs false
namespace Verif.PartialMap
open PartialSpec PartialWeak OptionalPair
open CycleMap (eq_false_of_ne_true' removeEntry_of_get_none get_removeEntry)

variable [RawImpl] [LawfulRaw] {L R : Type} [BEq L] [BEq R]

/-- `m` holds exactly the records `ps`, with distinct ids -/
structure Linked (m : PartialMap L R) (ps : List (Rec L R)) : Prop where
  left : m.left.entries.Perm (tabL m.hb ps)
  right : m.right.entries.Perm (tabR m.hb ps)
  ids : ps.Pairwise (·.id ≠ ·.id)
  bound : ∀ p ∈ ps, p.id < m.counter
  nonempty : ∀ p ∈ ps, p.e ≠ neither

/-- the entries of a list of records -/
abbrev ents (ps : List (Rec L R)) : List (OptionalPair L R) := ps.map Rec.e

variable {m : PartialMap L R} {p q : Rec L R} {ps qs : List (Rec L R)} {l : L} {r : R}

theorem Linked.perm (h : Linked m ps) (hp : ps.Perm qs) : Linked m qs where
  left := h.left.trans (hp.filterMap _)
  right := h.right.trans (hp.filterMap _)
  ids := (hp.pairwise_iff (fun h => Ne.symm h)).1 h.ids
  bound := fun p hm => h.bound p (hp.mem_iff.2 hm)
  nonempty := fun p hm => h.nonempty p (hp.mem_iff.2 hm)

theorem Linked.tail (h : Linked m (p :: qs)) : ∀ q ∈ qs, p.id ≠ q.id := (List.pairwise_cons.1 h.ids).1

/-- records with the same id are the same -/
theorem Linked.inj (h : Linked m ps) {a b : Rec L R} (ha : a ∈ ps) (hb : b ∈ ps) (e : a.id = b.id) : a = b := by
  obtain ⟨qs, hq⟩ := perm_cons_of_mem ha
  rcases List.mem_cons.1 (hq.mem_iff.1 hb) with rfl | hb
  · rfl
  · exact absurd e ((h.perm hq).tail b hb)

theorem Linked.swap (h : Linked m (p :: q :: qs)) : Linked m (q :: p :: qs) := h.perm (.swap _ _ _)

theorem Linked.tailL (h : Linked m (p :: ps)) (hn : toL m.hb p = none) : m.left.entries.Perm (tabL m.hb ps) := by
  have := h.left; rwa [tabL, List.filterMap_cons_none hn] at this

theorem Linked.tailR (h : Linked m (p :: ps)) (hn : toR m.hb p = none) : m.right.entries.Perm (tabR m.hb ps) := by
  have := h.right; rwa [tabR, List.filterMap_cons_none hn] at this

theorem Linked.consL (h : Linked m (p :: ps)) {x} (hn : toL m.hb p = some x) : m.left.entries.Perm (x :: tabL m.hb ps) := by
  have := h.left; rwa [tabL, List.filterMap_cons_some hn] at this

theorem Linked.consR (h : Linked m (p :: ps)) {x} (hn : toR m.hb p = some x) : m.right.entries.Perm (x :: tabR m.hb ps) := by
  have := h.right; rwa [tabR, List.filterMap_cons_some hn] at this

/-! ### Probes -/

/-- what a lookup finds is there to be removed or written -/
theorem access_of_get {T : Type} {t : RawTable T} {h q x} (e : t.get h q = some x) :
    ∃ k es, t.entries.Perm ((k, x) :: es) ∧ (∃ t', t.removeEntry h q = some (x, t') ∧ t'.entries.Perm es) ∧
      ∃ w, t.getMut h q = some (x, w) ∧ ∀ v, (w v).entries.Perm ((k, v) :: es) := by
  simp only [RawTable.get] at e
  split at e
  · cases e
  · rename_i i hi
    obtain ⟨a, ha, e⟩ := Option.map_eq_some_iff.1 e
    obtain ⟨k, y⟩ := a
    cases e
    refine ⟨k, t.entries.eraseIdx i, getElem?_perm_eraseIdx ha, ?_, ?_⟩
    · simp only [RawTable.removeEntry, hi, ha, Option.map_some]
      exact ⟨_, rfl, LawfulRaw.touch_perm _ _⟩
    · simp only [RawTable.getMut, hi, ha, Option.map_some]
      exact ⟨_, rfl, fun v => set_perm_eraseIdx ha⟩

theorem getMut_of_get_none {T : Type} {t : RawTable T} {h q} (e : t.get h q = none) : t.getMut h q = none := by
  simp only [RawTable.get] at e
  simp only [RawTable.getMut]
  split at e
  · rfl
  · rename_i i hi
    obtain ⟨y, hy, -⟩ := LawfulRaw.find_sound _ _ _ _ hi
    rw [hy] at e; cases e

/-- looking up a left item: a miss means that nothing matches, a hit is one of the records -/
theorem Linked.probeL (h : Linked m ps) (l : L) :
    (m.left.get (m.hb.hl l) (equivalentKey l) = none ∧ ∀ p ∈ ps, hasL l p.e = false) ∨
    ∃ p qs x, ps.Perm (p :: qs) ∧ hasL l p.e = true ∧ toL m.hb p = some x ∧
      m.left.get (m.hb.hl l) (equivalentKey l) = some x.2 := by
  cases e : m.left.get (m.hb.hl l) (equivalentKey l) with
  | none =>
    refine .inl ⟨rfl, fun p hp => eq_false_of_ne_true' fun hc => ?_⟩
    obtain ⟨x, hx⟩ : ∃ x, toL m.hb p = some x := by
      obtain ⟨e, i⟩ := p
      rcases hasL_cases hc with ⟨a, rfl, -⟩ | ⟨a, b, rfl, -⟩ <;> exact ⟨_, rfl⟩
    have hk := toL_some hx
    rw [hasL_eq hk.2.1] at hc
    have hmem : x ∈ m.left.entries := h.left.mem_iff.2 (List.mem_filterMap.2 ⟨p, hp, hx⟩)
    have hf := LawfulRaw.find_complete m.left (m.hb.hl l) (equivalentKey l) _ hmem
      (hk.2.2.trans (m.hb.hl_congr _ _ hc).symm) hc
    rw [RawTable.get] at e
    split at e
    · exact hf ‹_›
    · rename_i i hi
      obtain ⟨x, hx, -⟩ := LawfulRaw.find_sound _ _ _ _ hi
      rw [hx] at e; cases e
  | some x =>
    obtain ⟨h1, k, h2⟩ := RawTable.get_mem e
    obtain ⟨p, hp, hx⟩ := mem_tabL (h.left.mem_iff.1 h2)
    obtain ⟨qs, hq⟩ := perm_cons_of_mem hp
    refine .inr ⟨p, qs, _, hq, ?_, hx, rfl⟩
    rw [hasL_eq (toL_some hx).2.1]; exact h1

theorem Linked.probeR (h : Linked m ps) (r : R) :
    (m.right.get (m.hb.hr r) (equivalentKey r) = none ∧ ∀ p ∈ ps, hasR r p.e = false) ∨
    ∃ p qs x, ps.Perm (p :: qs) ∧ hasR r p.e = true ∧ toR m.hb p = some x ∧
      m.right.get (m.hb.hr r) (equivalentKey r) = some x.2 := by
  cases e : m.right.get (m.hb.hr r) (equivalentKey r) with
  | none =>
    refine .inl ⟨rfl, fun p hp => eq_false_of_ne_true' fun hc => ?_⟩
    obtain ⟨x, hx⟩ : ∃ x, toR m.hb p = some x := by
      obtain ⟨e, i⟩ := p
      rcases hasR_cases hc with ⟨a, rfl, -⟩ | ⟨a, b, rfl, -⟩ <;> exact ⟨_, rfl⟩
    have hk := toR_some hx
    rw [hasR_eq hk.2.1] at hc
    have hmem : x ∈ m.right.entries := h.right.mem_iff.2 (List.mem_filterMap.2 ⟨p, hp, hx⟩)
    have hf := LawfulRaw.find_complete m.right (m.hb.hr r) (equivalentKey r) _ hmem
      (hk.2.2.trans (m.hb.hr_congr _ _ hc).symm) hc
    rw [RawTable.get] at e
    split at e
    · exact hf ‹_›
    · rename_i i hi
      obtain ⟨x, hx, -⟩ := LawfulRaw.find_sound _ _ _ _ hi
      rw [hx] at e; cases e
  | some x =>
    obtain ⟨h1, k, h2⟩ := RawTable.get_mem e
    obtain ⟨p, hp, hx⟩ := mem_tabR (h.right.mem_iff.1 h2)
    obtain ⟨qs, hq⟩ := perm_cons_of_mem hp
    refine .inr ⟨p, qs, _, hq, ?_, hx, rfl⟩
    rw [hasR_eq (toR_some hx).2.1]; exact h1

/-- taking out or rewriting what a lookup finds -/
theorem Linked.accessL (h : Linked m (p :: qs)) {x k q} (hx : toL m.hb p = some x) (e : m.left.get k q = some x.2) :
    (∃ t, m.left.removeEntry k q = some (x.2, t) ∧ t.entries.Perm (tabL m.hb qs)) ∧
    ∃ w, m.left.getMut k q = some (x.2, w) ∧ ∀ v, (w v).entries.Perm ((x.1, v) :: tabL m.hb qs) := by
  obtain ⟨k', es, hp, ⟨t, e1, h1⟩, w, e2, h2⟩ := access_of_get e
  have hmem := h.left.mem_iff.1 (hp.mem_iff.2 List.mem_cons_self)
  obtain ⟨p', hp', hx'⟩ := mem_tabL hmem
  have := h.inj hp' List.mem_cons_self ((toL_some hx').1.symm.trans (toL_some hx).1)
  subst this
  obtain ⟨kx, vx⟩ := x
  rw [hx] at hx'; cases hx'
  have hes := (List.perm_cons _).1 (hp.symm.trans (h.consL hx))
  exact ⟨⟨t, e1, h1.trans hes⟩, w, e2, fun v => (h2 v).trans (hes.cons _)⟩

theorem Linked.accessR (h : Linked m (p :: qs)) {x k q} (hx : toR m.hb p = some x) (e : m.right.get k q = some x.2) :
    (∃ t, m.right.removeEntry k q = some (x.2, t) ∧ t.entries.Perm (tabR m.hb qs)) ∧
    ∃ w, m.right.getMut k q = some (x.2, w) ∧ ∀ v, (w v).entries.Perm ((x.1, v) :: tabR m.hb qs) := by
  obtain ⟨k', es, hp, ⟨t, e1, h1⟩, w, e2, h2⟩ := access_of_get e
  have hmem := h.right.mem_iff.1 (hp.mem_iff.2 List.mem_cons_self)
  obtain ⟨p', hp', hx'⟩ := mem_tabR hmem
  have := h.inj hp' List.mem_cons_self ((toR_some hx').1.symm.trans (toR_some hx).1)
  subst this
  obtain ⟨kx, vx⟩ := x
  rw [hx] at hx'; cases hx'
  have hes := (List.perm_cons _).1 (hp.symm.trans (h.consR hx))
  exact ⟨⟨t, e1, h1.trans hes⟩, w, e2, fun v => (h2 v).trans (hes.cons _)⟩

/-- the lookups of a left and a right item -/
theorem Linked.casesLR (h : Linked m ps) (l : L) (r : R) :
    (m.left.get (m.hb.hl l) (equivalentKey l) = none ∧ ∀ p ∈ ps, hasL l p.e = false) ∨
    (m.right.get (m.hb.hr r) (equivalentKey r) = none ∧ ∀ p ∈ ps, hasR r p.e = false) ∨
    (∃ a b i qs, ps.Perm (⟨someBoth a b, i⟩ :: qs) ∧ (l == a) = true ∧ (r == b) = true ∧
      m.left.get (m.hb.hl l) (equivalentKey l) = some ⟨a, some (m.hb.hr b), i⟩ ∧
      m.right.get (m.hb.hr r) (equivalentKey r) = some ⟨b, some (m.hb.hl a), i⟩) ∨
    ∃ p q qs x y, ps.Perm (p :: q :: qs) ∧ hasL l p.e = true ∧ hasR r q.e = true ∧
      toL m.hb p = some x ∧ toR m.hb q = some y ∧
      m.left.get (m.hb.hl l) (equivalentKey l) = some x.2 ∧ m.right.get (m.hb.hr r) (equivalentKey r) = some y.2 := by
  rcases h.probeL l with h1 | ⟨p, qs, x, hq, hl, hx, e⟩
  · exact .inl h1
  · rcases h.probeR r with h1 | ⟨q, qs', y, hq', hr, hy, e'⟩
    · exact .inr (.inl h1)
    · refine .inr (.inr ?_)
      by_cases hid : p.id = q.id
      · have := h.inj (hq.mem_iff.2 List.mem_cons_self) (hq'.mem_iff.2 List.mem_cons_self) hid
        subst this
        obtain ⟨f, i⟩ := p
        rcases hasL_cases hl with ⟨a, rfl, ha⟩ | ⟨a, b, rfl, ha⟩
        · cases hr
        · cases hx; cases hy
          exact .inl ⟨a, b, i, qs, hq, ha, hr, e, e'⟩
      · have hmem : q ∈ qs := by
          rcases List.mem_cons.1 (hq.mem_iff.1 (hq'.mem_iff.2 List.mem_cons_self)) with rfl | hm
          · exact absurd rfl hid
          · exact hm
        obtain ⟨d, hd⟩ := perm_cons_of_mem hmem
        exact .inr ⟨p, q, d, x, y, hq.trans (hd.cons p), hl, hr, hx, hy, e, e'⟩

/-- replacing some records by others -/
theorem Linked.rebuild {old new : List (Rec L R)} (h : Linked m (old ++ ps)) {k : Nat} (hk : m.counter ≤ k)
    {left' : RawTable (MappingPair L)} {right' : RawTable (MappingPair R)}
    (hl : left'.entries.Perm (tabL m.hb (new ++ ps))) (hr : right'.entries.Perm (tabR m.hb (new ++ ps)))
    (ha : new.Pairwise (·.id ≠ ·.id)) (hne : ∀ p ∈ new, p.e ≠ neither)
    (hid : ∀ p ∈ new, (p.id = m.counter ∧ m.counter < k) ∨ ∃ q ∈ old, q.id = p.id) :
    Linked { m with counter := k, left := left', right := right' } (new ++ ps) where
  left := hl
  right := hr
  ids := by
    have h0 := List.pairwise_append.1 h.ids
    refine List.pairwise_append.2 ⟨ha, h0.2.1, ?_⟩
    intro p hp x hx
    rcases hid p hp with ⟨h1, _⟩ | ⟨q, hq, h1⟩
    · have := h.bound x (List.mem_append_right _ hx); omega
    · rw [← h1]; exact h0.2.2 q hq x hx
  bound := by
    intro p hp
    rcases List.mem_append.1 hp with hp | hp
    · rcases hid p hp with ⟨h1, h2⟩ | ⟨q, hq, h1⟩
      · show p.id < k; omega
      · have := h.bound q (List.mem_append_left _ hq); show p.id < k; omega
    · have := h.bound p (List.mem_append_right _ hp); show p.id < k; omega
  nonempty := by
    intro p hp
    rcases List.mem_append.1 hp with hp | hp
    · exact hne p hp
    · exact h.nonempty p (List.mem_append_right _ hp)

/-- the partner of a left entry -/
theorem Linked.partnerR {a b i} (h : Linked m (⟨someBoth a b, i⟩ :: qs)) :
    m.right.get (m.hb.hr b) (hashAndId (m.hb.hl a) i) = some ⟨b, some (m.hb.hl a), i⟩ :=
  RawTable.get_some (h.consR rfl) rfl (hashAndId_self _ _ _) (hidsR _ h.tail)

theorem Linked.partnerL {a b i} (h : Linked m (⟨someBoth a b, i⟩ :: qs)) :
    m.left.get (m.hb.hl a) (hashAndId (m.hb.hr b) i) = some ⟨a, some (m.hb.hr b), i⟩ :=
  RawTable.get_some (h.consL rfl) rfl (hashAndId_self _ _ _) (hidsL _ h.tail)

theorem Linked.partnerR' {a b i} (h : Linked m (⟨someBoth a b, i⟩ :: qs)) :
    m.right.get (m.hb.hr b) (justId i) = some ⟨b, some (m.hb.hl a), i⟩ :=
  RawTable.get_some (h.consR rfl) rfl (justId_self _ _ _) (idsR h.tail)

theorem Linked.partnerL' {a b i} (h : Linked m (⟨someBoth a b, i⟩ :: qs)) :
    m.left.get (m.hb.hl a) (justId i) = some ⟨a, some (m.hb.hr b), i⟩ :=
  RawTable.get_some (h.consL rfl) rfl (justId_self _ _ _) (idsL h.tail)

theorem Linked.dropped (h : Linked m (p :: qs)) {tl : RawTable (MappingPair L)} {tr : RawTable (MappingPair R)}
    (hl : tl.entries.Perm (tabL m.hb qs)) (hr : tr.entries.Perm (tabR m.hb qs)) :
    Linked { m with left := tl, right := tr } qs :=
  h.rebuild (old := [p]) (new := []) (Nat.le_refl _) hl hr (by simp) (by simp) (by simp)

/-! ### Removing -/

theorem noL_ents : NoL (ents ps) l ↔ ∀ p ∈ ps, hasL l p.e = false := by simp [NoL]

theorem noR_ents : NoR (ents ps) r ↔ ∀ p ∈ ps, hasR r p.e = false := by simp [NoR]

theorem mem_ents (hq : ps.Perm (p :: qs)) : p.e ∈ ents ps := List.mem_map.2 ⟨p, hq.mem_iff.2 List.mem_cons_self, rfl⟩

theorem removeViaLeft_hit (h : Linked m (p :: qs)) (hl : hasL l p.e = true) {x} (hx : toL m.hb p = some x)
    (e : m.left.get (m.hb.hl l) (equivalentKey l) = some x.2) :
    ∃ m', m.removeViaLeft l = .ok (p.e, m') ∧ Linked m' qs ∧ m'.hb = m.hb ∧ m'.counter = m.counter := by
  obtain ⟨⟨tl, e1, h1⟩, -⟩ := h.accessL hx e
  obtain ⟨f, i⟩ := p
  rcases hasL_cases hl with ⟨a, rfl, ha⟩ | ⟨a, b, rfl, ha⟩ <;> cases hx
  · refine ⟨{ m with left := tl }, ?_, h.dropped h1 (h.tailR rfl), rfl, rfl⟩
    simp only [removeViaLeft, e1]; rfl
  · obtain ⟨⟨tr, e2, h2⟩, -⟩ := h.accessR rfl h.partnerR
    refine ⟨{ m with left := tl, right := tr }, ?_, h.dropped h1 h2, rfl, rfl⟩
    rw [m.hb.hl_congr _ _ ha] at e1
    simp only [removeViaLeft, m.hb.hl_congr _ _ ha, e1, e2]; rfl

theorem removeViaRight_hit (h : Linked m (p :: qs)) (hr : hasR r p.e = true) {x} (hx : toR m.hb p = some x)
    (e : m.right.get (m.hb.hr r) (equivalentKey r) = some x.2) :
    ∃ m', m.removeViaRight r = .ok (p.e, m') ∧ Linked m' qs ∧ m'.hb = m.hb ∧ m'.counter = m.counter := by
  obtain ⟨⟨tr, e1, h1⟩, -⟩ := h.accessR hx e
  obtain ⟨f, i⟩ := p
  rcases hasR_cases hr with ⟨b, rfl, hb⟩ | ⟨a, b, rfl, hb⟩ <;> cases hx
  · refine ⟨{ m with right := tr }, ?_, h.dropped (h.tailL rfl) h1, rfl, rfl⟩
    simp only [removeViaRight, e1]; rfl
  · obtain ⟨⟨tl, e2, h2⟩, -⟩ := h.accessL rfl h.partnerL
    refine ⟨{ m with left := tl, right := tr }, ?_, h.dropped h2 h1, rfl, rfl⟩
    rw [m.hb.hr_congr _ _ hb] at e1
    simp only [removeViaRight, m.hb.hr_congr _ _ hb, e1, e2]; rfl

theorem removeViaLeft_weak (h : Linked m ps) (l : L) :
    ∃ o m' qs, m.removeViaLeft l = .ok (o, m') ∧ TakeL (ents ps) l o (ents qs) ∧ Linked m' qs ∧
      m'.hb = m.hb ∧ m'.counter = m.counter := by
  rcases h.probeL l with ⟨e, hn⟩ | ⟨p, qs, x, hq, hl, hx, e⟩
  · refine ⟨neither, m, ps, ?_, .inl ⟨rfl, noL_ents.2 hn, .refl _⟩, h, rfl, rfl⟩
    simp only [removeViaLeft, removeEntry_of_get_none e]
  · obtain ⟨m', e', h', hb, hc⟩ := removeViaLeft_hit (h.perm hq) hl hx e
    exact ⟨_, m', qs, e', .inr ⟨hl, hq.map _⟩, h', hb, hc⟩

theorem removeViaRight_weak (h : Linked m ps) (r : R) :
    ∃ o m' qs, m.removeViaRight r = .ok (o, m') ∧ TakeR (ents ps) r o (ents qs) ∧ Linked m' qs ∧
      m'.hb = m.hb ∧ m'.counter = m.counter := by
  rcases h.probeR r with ⟨e, hn⟩ | ⟨p, qs, x, hq, hl, hx, e⟩
  · refine ⟨neither, m, ps, ?_, .inl ⟨rfl, noR_ents.2 hn, .refl _⟩, h, rfl, rfl⟩
    simp only [removeViaRight, removeEntry_of_get_none e]
  · obtain ⟨m', e', h', hb, hc⟩ := removeViaRight_hit (h.perm hq) hl hx e
    exact ⟨_, m', qs, e', .inr ⟨hl, hq.map _⟩, h', hb, hc⟩

theorem removeLeft_weak (h : Linked m ps) (l : L) :
    ∃ o m' qs, m.removeLeft l = .ok (o, m') ∧ RemoveLeft (ents ps) l o (ents qs) ∧ Linked m' qs ∧ m'.hb = m.hb := by
  rcases h.probeL l with ⟨e, hn⟩ | ⟨p, qs, x, hq, hl, hx, e⟩
  · refine ⟨none, m, ps, ?_, ⟨neither, _, .inl ⟨rfl, noL_ents.2 hn, .refl _⟩, rfl, .refl _⟩, h, rfl⟩
    simp only [removeLeft, removeEntry_of_get_none e]
  · have h := h.perm hq
    obtain ⟨⟨tl, e1, h1⟩, -⟩ := h.accessL hx e
    obtain ⟨f, i⟩ := p
    rcases hasL_cases hl with ⟨a, rfl, ha⟩ | ⟨a, b, rfl, ha⟩ <;> cases hx
    · refine ⟨some a, { m with left := tl }, qs, ?_, ⟨_, _, .inr ⟨hl, hq.map _⟩, rfl, .refl _⟩, h.dropped h1 (h.tailR rfl), rfl⟩
      simp only [removeLeft, e1]
    · obtain ⟨-, w, e2, h2⟩ := h.accessR rfl h.partnerR'
      refine ⟨some a, { m with left := tl, right := w ⟨b, none, i⟩ }, ⟨someRight b, i⟩ :: qs, ?_,
        ⟨_, _, .inr ⟨hl, hq.map _⟩, rfl, .refl _⟩, ?_, rfl⟩
      · simp only [removeLeft, e1, e2]
      · exact h.rebuild (old := [_]) (new := [⟨someRight b, i⟩]) (Nat.le_refl _) h1 (h2 ⟨b, none, i⟩) (by simp) (by simp) (by simp)

theorem removeRight_weak (h : Linked m ps) (r : R) :
    ∃ o m' qs, m.removeRight r = .ok (o, m') ∧ RemoveRight (ents ps) r o (ents qs) ∧ Linked m' qs ∧ m'.hb = m.hb := by
  rcases h.probeR r with ⟨e, hn⟩ | ⟨p, qs, x, hq, hl, hx, e⟩
  · refine ⟨none, m, ps, ?_, ⟨neither, _, .inl ⟨rfl, noR_ents.2 hn, .refl _⟩, rfl, .refl _⟩, h, rfl⟩
    simp only [removeRight, removeEntry_of_get_none e]
  · have h := h.perm hq
    obtain ⟨⟨tr, e1, h1⟩, -⟩ := h.accessR hx e
    obtain ⟨f, i⟩ := p
    rcases hasR_cases hl with ⟨b, rfl, ha⟩ | ⟨a, b, rfl, ha⟩ <;> cases hx
    · refine ⟨some b, { m with right := tr }, qs, ?_, ⟨_, _, .inr ⟨hl, hq.map _⟩, rfl, .refl _⟩, h.dropped (h.tailL rfl) h1, rfl⟩
      simp only [removeRight, e1]
    · obtain ⟨-, w, e2, h2⟩ := h.accessL rfl h.partnerL'
      refine ⟨some b, { m with left := w ⟨a, none, i⟩, right := tr }, ⟨someLeft a, i⟩ :: qs, ?_,
        ⟨_, _, .inr ⟨hl, hq.map _⟩, rfl, .refl _⟩, ?_, rfl⟩
      · simp only [removeRight, e1, e2]
      · exact h.rebuild (old := [_]) (new := [⟨someLeft a, i⟩]) (Nat.le_refl _) (h2 ⟨a, none, i⟩) h1 (by simp) (by simp) (by simp)

theorem containsLeft_weak (h : Linked m ps) (l : L) : m.containsLeft l = (ents ps).any (hasL l) := by
  rw [containsLeft]
  rcases h.probeL l with ⟨e, hn⟩ | ⟨p, qs, x, hq, hl, hx, e⟩ <;> rw [e]
  · symm; simpa using hn
  · symm; simp only [Option.isSome_some, List.any_eq_true]
    exact ⟨p.e, mem_ents hq, hl⟩

theorem containsRight_weak (h : Linked m ps) (r : R) : m.containsRight r = (ents ps).any (hasR r) := by
  rw [containsRight]
  rcases h.probeR r with ⟨e, hn⟩ | ⟨p, qs, x, hq, hl, hx, e⟩ <;> rw [e]
  · symm; simpa using hn
  · symm; simp only [Option.isSome_some, List.any_eq_true]
    exact ⟨p.e, mem_ents hq, hl⟩

theorem isLeftPaired_weak (h : Linked m ps) (l : L) :
    (NoL (ents ps) l ∧ m.isLeftPaired l = false) ∨ ∃ e ∈ ents ps, hasL l e = true ∧ m.isLeftPaired l = isPair e := by
  rw [isLeftPaired]
  rcases h.probeL l with ⟨e, hn⟩ | ⟨p, qs, x, hq, hl, hx, e⟩ <;> rw [e]
  · exact .inl ⟨noL_ents.2 hn, rfl⟩
  · refine .inr ⟨p.e, mem_ents hq, hl, ?_⟩
    obtain ⟨f, i⟩ := p
    rcases hasL_cases hl with ⟨a, rfl, ha⟩ | ⟨a, b, rfl, ha⟩ <;> cases hx <;> rfl

theorem isRightPaired_weak (h : Linked m ps) (r : R) :
    (NoR (ents ps) r ∧ m.isRightPaired r = false) ∨ ∃ e ∈ ents ps, hasR r e = true ∧ m.isRightPaired r = isPair e := by
  rw [isRightPaired]
  rcases h.probeR r with ⟨e, hn⟩ | ⟨p, qs, x, hq, hl, hx, e⟩ <;> rw [e]
  · exact .inl ⟨noR_ents.2 hn, rfl⟩
  · refine .inr ⟨p.e, mem_ents hq, hl, ?_⟩
    obtain ⟨f, i⟩ := p
    rcases hasR_cases hl with ⟨a, rfl, ha⟩ | ⟨a, b, rfl, ha⟩ <;> cases hx <;> rfl

/-- the lookups of two items may find two records -/
theorem unpaired_two (hq : ps.Perm (p :: q :: qs)) (hl : hasL l p.e = true) (hr : hasR r q.e = true) :
    Unpaired (ents ps) l r := .inr (.inr ⟨p.e, q.e, ents qs, hq.map _, hl, hr⟩)

/-- `are_paired`: if it says yes, the lookups of both items found the same record -/
theorem arePaired_weak (h : Linked m ps) (l : L) (r : R) :
    (m.arePaired l r = true ∧ ∃ a b i qs, ps.Perm (⟨someBoth a b, i⟩ :: qs) ∧ (l == a) = true ∧ (r == b) = true ∧
      m.left.get (m.hb.hl l) (equivalentKey l) = some ⟨a, some (m.hb.hr b), i⟩) ∨
    (m.arePaired l r = false ∧ Unpaired (ents ps) l r) := by
  simp only [arePaired]
  rcases h.casesLR l r with ⟨e, hn⟩ | ⟨e, hn⟩ | ⟨a, b, i, qs, hq, hl, hr, e, e'⟩ | ⟨p, q, qs, x, y, hq, hl, hr, hx, hy, e, e'⟩
  · rw [e]; exact .inr ⟨rfl, .inl (noL_ents.2 hn)⟩
  · rw [e]; exact .inr ⟨by split <;> simp_all, .inr (.inl (noR_ents.2 hn))⟩
  · refine .inl ⟨?_, a, b, i, qs, hq, hl, hr, e⟩
    rw [e, e']; simp [m.hb.hl_congr _ _ hl, m.hb.hr_congr _ _ hr]
  · refine .inr ⟨?_, unpaired_two hq hl hr⟩
    have hid : p.id ≠ q.id := (h.perm hq).tail q (by simp)
    rw [e, e']; simp [(toL_some hx).1, (toR_some hy).1, hid]

theorem paired_ents {a b i} (hq : ps.Perm (⟨someBoth a b, i⟩ :: qs)) (hl : (l == a) = true) (hr : (r == b) = true) :
    Paired (ents ps) l r := ⟨_, mem_ents hq, hl, hr⟩

theorem remove_weak (h : Linked m ps) (l : L) (r : R) :
    ∃ o m' qs, m.remove l r = .ok (o, m') ∧ Linked m' qs ∧ m'.hb = m.hb ∧
      ((∃ x y, o = some (x, y) ∧ (l == x) = true ∧ (r == y) = true ∧ (ents ps).Perm (someBoth x y :: ents qs)) ∨
        (o = none ∧ Unpaired (ents ps) l r ∧ (ents qs).Perm (ents ps))) := by
  rcases arePaired_weak h l r with ⟨e, a, b, i, qs, hq, hl, hr, e1⟩ | ⟨e, hu⟩
  · obtain ⟨m', e', h', hb, -⟩ := removeViaLeft_hit (p := ⟨someBoth a b, i⟩) (h.perm hq) hl rfl e1
    refine ⟨some (a, b), m', qs, ?_, h', hb, .inl ⟨a, b, rfl, hl, hr, hq.map _⟩⟩
    simp only [remove, e, if_true, e', bind, Except.bind]; rfl
  · exact ⟨none, m, ps, by simp [remove, e], h, rfl, .inr ⟨rfl, hu, .refl _⟩⟩

/-! ### Inserting -/

/-- a new record -/
theorem Linked.add (h : Linked m ps) {e : OptionalPair L R} (he : e ≠ neither) {left' : RawTable (MappingPair L)}
    {right' : RawTable (MappingPair R)} (hl : left'.entries.Perm (tabL m.hb (⟨e, m.counter⟩ :: ps)))
    (hr : right'.entries.Perm (tabR m.hb (⟨e, m.counter⟩ :: ps))) :
    Linked { m with counter := m.counter + 1, left := left', right := right' } (⟨e, m.counter⟩ :: ps) :=
  h.rebuild (old := []) (new := [⟨e, m.counter⟩]) (Nat.le_succ _) hl hr (by simp) (by simpa using he) (by simp)

theorem insert_weak (h : Linked m ps) (l : L) (r : R) :
    ∃ o₁ o₂ m' qs, m.insert l r = .ok ((o₁, o₂), m') ∧ Insert (ents ps) l r o₁ o₂ (ents qs) ∧
      Linked m' qs ∧ m'.hb = m.hb := by
  obtain ⟨o₁, m1, q1, e1, t1, h1, hb1, c1⟩ := removeViaLeft_weak h l
  obtain ⟨o₂, m2, q2, e2, t2, h2, hb2, c2⟩ := removeViaRight_weak h1 r
  refine ⟨o₁, o₂, _, _, ?_, ⟨_, _, t1, t2, .refl _⟩, h2.add (e := someBoth l r) (by simp)
    ((RawTable.insert_perm m2.left (m2.hb.hl l) ⟨l, some (m2.hb.hr r), m2.counter⟩ (hashesL h2.left)).trans (h2.left.cons _))
    ((RawTable.insert_perm m2.right (m2.hb.hr r) ⟨r, some (m2.hb.hl l), m2.counter⟩ (hashesR h2.right)).trans (h2.right.cons _)),
    hb2.trans hb1⟩
  simp only [insert, e1, e2, bind, Except.bind]; rfl

theorem insertLeft_weak (h : Linked m ps) (l : L) :
    ∃ o m' qs, m.insertLeft l = .ok (o, m') ∧ InsertLeft (ents ps) l o (ents qs) ∧ Linked m' qs ∧ m'.hb = m.hb := by
  obtain ⟨o, m2, q2, e1, t1, h2, hb1, c1⟩ := removeViaLeft_weak h l
  refine ⟨o, _, _, ?_, ⟨_, t1, .refl _⟩, h2.add (e := someLeft l) (by simp)
    ((RawTable.insert_perm m2.left (m2.hb.hl l) ⟨l, none, m2.counter⟩ (hashesL h2.left)).trans (h2.left.cons _))
    h2.right, hb1⟩
  simp only [insertLeft, e1, bind, Except.bind]; rfl

theorem insertRight_weak (h : Linked m ps) (r : R) :
    ∃ o m' qs, m.insertRight r = .ok (o, m') ∧ InsertRight (ents ps) r o (ents qs) ∧ Linked m' qs ∧ m'.hb = m.hb := by
  obtain ⟨o, m2, q2, e1, t1, h2, hb1, c1⟩ := removeViaRight_weak h r
  refine ⟨o, _, _, ?_, ⟨_, t1, .refl _⟩, h2.add (e := someRight r) (by simp) h2.left
    ((RawTable.insert_perm m2.right (m2.hb.hr r) ⟨r, none, m2.counter⟩ (hashesR h2.right)).trans (h2.right.cons _)), hb1⟩
  simp only [insertRight, e1, bind, Except.bind]; rfl

/-! ### Pairing -/

theorem pair_weak (h : Linked m ps) (l : L) (r : R) :
    ∃ b m' qs, m.pair l r = (b, m') ∧ Pair (ents ps) l r b (ents qs) ∧ Linked m' qs ∧ m'.hb = m.hb := by
  rcases h.casesLR l r with ⟨e, hn⟩ | ⟨e, hn⟩ | ⟨a, b, i, qs, hq, hl, hr, e, e'⟩ | ⟨p, q, qs, x, y, hq, hl, hr, hx, hy, e, e'⟩
  · exact ⟨false, m, ps, by simp [pair, getMut_of_get_none e], .inr ⟨rfl, .refl _, .inl (noL_ents.2 hn)⟩, h, rfl⟩
  · refine ⟨false, m, ps, ?_, .inr ⟨rfl, .refl _, .inr (.inl (noR_ents.2 hn))⟩, h, rfl⟩
    simp only [pair, getMut_of_get_none e]
    split <;> simp_all
  · obtain ⟨-, w1, e1, f1⟩ := (h.perm hq).accessL rfl e
    obtain ⟨-, w2, e2, f2⟩ := (h.perm hq).accessR rfl e'
    exact ⟨false, m, ps, by simp [pair, e1, e2], .inr ⟨rfl, .refl _, .inr (.inr ⟨_, mem_ents hq, rfl, .inl hl⟩)⟩, h, rfl⟩
  · have h' := h.perm hq
    obtain ⟨-, w1, e1, f1⟩ := h'.accessL hx e
    obtain ⟨-, w2, e2, f2⟩ := h'.swap.accessR hy e'
    have mp := mem_ents hq
    have mq := mem_ents (hq.trans (.swap _ _ _))
    obtain ⟨e, i⟩ := p
    obtain ⟨f, j⟩ := q
    rcases hasL_cases hl with ⟨a, rfl, ha⟩ | ⟨a, a', rfl, ha⟩ <;>
      rcases hasR_cases hr with ⟨b, rfl, hb⟩ | ⟨b', b, rfl, hb⟩ <;> cases hx <;> cases hy
    · have := h'.rebuild (old := [_, _]) (new := [⟨someBoth a b, i⟩]) (ps := qs) (Nat.le_refl _)
        (left' := w1 ⟨a, some (m.hb.hr r), i⟩) (right' := w2 ⟨b, some (m.hb.hl l), i⟩)
        (by rw [m.hb.hr_congr _ _ hb]; exact f1 _)
        (by rw [m.hb.hl_congr _ _ ha]; exact f2 _)
        (by simp) (by simp) (by simp)
      exact ⟨true, _, _, by simp [pair, e1, e2], .inl ⟨rfl, a, b, ents qs, hq.map _, ha, hb, .refl _⟩, this, rfl⟩
    · exact ⟨false, m, ps, by simp [pair, e1, e2], .inr ⟨rfl, .refl _, .inr (.inr ⟨_, mq, rfl, .inr hb⟩)⟩, h, rfl⟩
    · exact ⟨false, m, ps, by simp [pair, e1, e2], .inr ⟨rfl, .refl _, .inr (.inr ⟨_, mp, rfl, .inl ha⟩)⟩, h, rfl⟩
    · exact ⟨false, m, ps, by simp [pair, e1, e2], .inr ⟨rfl, .refl _, .inr (.inr ⟨_, mq, rfl, .inr hb⟩)⟩, h, rfl⟩

theorem arePaired_two (h : Linked m (p :: q :: qs)) {x y} (hx : toL m.hb p = some x) (hy : toR m.hb q = some y)
    (e : m.left.get (m.hb.hl l) (equivalentKey l) = some x.2) (e' : m.right.get (m.hb.hr r) (equivalentKey r) = some y.2) :
    m.arePaired l r = false := by
  have hid : p.id ≠ q.id := h.tail q (by simp)
  simp [arePaired, e, e', (toL_some hx).1, (toR_some hy).1, hid]

theorem arePaired_one {a b i} (hl : (l == a) = true) (hr : (r == b) = true)
    (e : m.left.get (m.hb.hl l) (equivalentKey l) = some ⟨a, some (m.hb.hr b), i⟩)
    (e' : m.right.get (m.hb.hr r) (equivalentKey r) = some ⟨b, some (m.hb.hl a), i⟩) : m.arePaired l r = true := by
  simp only [arePaired, e, e']
  simp [m.hb.hl_congr _ _ hl, m.hb.hr_congr _ _ hr]

theorem force_two {keep : Bool} (hq : ps.Perm (p :: q :: qs)) {a b} (h1 : leftOf p.e = some a) (h2 : rightOf q.e = some b)
    (ha : (l == a) = true) (hb : (r == b) = true) {o c'} (ho : o = ofPair (leftOf q.e, rightOf p.e))
    (hc : c'.Perm (someBoth a b :: ((if keep then lones (leftOf q.e) (rightOf p.e) else []) ++ ents qs))) :
    Force keep (ents ps) l r o c' :=
  .inr ⟨p.e, q.e, ents qs, a, b, hq.map _, h1, h2, ha, hb, ho, hc⟩

theorem pairForced_weak (h : Linked m ps) (l : L) (r : R) :
    ∃ o m' qs, m.pairForced l r = .ok (o, m') ∧ Force true (ents ps) l r o (ents qs) ∧ Linked m' qs ∧ m'.hb = m.hb := by
  unfold pairForced
  rcases h.casesLR l r with ⟨e, hn⟩ | ⟨e, hn⟩ | ⟨a, b, i, qs, hq, hl, hr, e, e'⟩ | ⟨p, q, ps', x, y, hq, hl, hrr, hx, hy, e, e'⟩
  · refine ⟨neither, m, ps, ?_, .inl ⟨rfl, .inl (noL_ents.2 hn), .refl _⟩, h, rfl⟩
    simp [arePaired, e, getMut_of_get_none e]
  · refine ⟨neither, m, ps, ?_, .inl ⟨rfl, .inr (.inl (noR_ents.2 hn)), .refl _⟩, h, rfl⟩
    have : m.arePaired l r = false := by simp only [arePaired, e]; split <;> simp_all
    simp only [this, Bool.false_eq_true, if_false, getMut_of_get_none e]
    split <;> simp_all
  · refine ⟨neither, m, ps, ?_, .inl ⟨rfl, .inr (.inr (paired_ents hq hl hr)), .refl _⟩, h, rfl⟩
    simp [arePaired_one hl hr e e']
  · have hr := h.perm hq
    obtain ⟨-, w1, e1, f1⟩ := hr.accessL hx e
    obtain ⟨-, w2, e2, f2⟩ := hr.swap.accessR hy e'
    rw [arePaired_two hr hx hy e e']
    have hidp : ∀ x ∈ ps', p.id ≠ x.id := fun x hx => hr.tail x (List.mem_cons_of_mem _ hx)
    have hidq : ∀ x ∈ ps', q.id ≠ x.id := fun x hx => hr.swap.tail x (List.mem_cons_of_mem _ hx)
    have hpq : p.id ≠ q.id := hr.tail q (by simp)
    have hip : p.id < m.counter := hr.bound p (by simp)
    have hiq : q.id < m.counter := hr.bound q (by simp)
    clear e e'
    obtain ⟨e, i⟩ := p
    obtain ⟨f, j⟩ := q
    dsimp only at hidp hidq hpq hip hiq
    rcases hasL_cases hl with ⟨a, rfl, ha⟩ | ⟨a, a', rfl, ha⟩ <;>
      rcases hasR_cases hrr with ⟨b, rfl, hb⟩ | ⟨b', b, rfl, hb⟩ <;> cases hx <;> cases hy <;>
      rw [m.hb.hr_congr _ _ hb] at * <;> rw [m.hb.hl_congr _ _ ha] at *
    · have := hr.rebuild (old := [_, _]) (new := [⟨someBoth a b, i⟩]) (ps := ps') (Nat.le_refl _)
        (f1 ⟨a, some (m.hb.hr b), i⟩) (f2 ⟨b, some (m.hb.hl a), i⟩) (by simp) (by simp) (by simp)
      exact ⟨_, _, _, by simp [e1, e2, leftOf, rightOf, ofPair], force_two hq rfl rfl ha hb rfl (.refl _), this, rfl⟩
    · obtain ⟨w3, e3, f3⟩ := RawTable.getMut_some (p := hashAndId (m.hb.hr b) j) (h := m.hb.hl b')
        ((f1 ⟨a, some (m.hb.hr b), i⟩).trans (.swap _ _ _)) rfl (hashAndId_self _ _ _)
        (hids_of_ids (idsL_cons hpq.symm hidq))
      have e4 := RawTable.get_some (p := justId j) (h := m.hb.hl b') (f3 ⟨b', none, j⟩) rfl (justId_self _ _ _)
        (idsL_cons hpq.symm hidq)
      have := hr.rebuild (old := [_, _]) (new := [⟨someBoth a b, i⟩, ⟨someLeft b', j⟩]) (ps := ps') (Nat.le_refl _)
        ((f3 ⟨b', none, j⟩).trans (.swap _ _ _)) (f2 ⟨b, some (m.hb.hl a), i⟩)
        (by simpa using hpq) (by simp) (by simp)
      exact ⟨_, _, _, by simp [e1, e2, e3, e4, leftOf, rightOf, ofPair], force_two hq rfl rfl ha hb rfl (.refl _), this, rfl⟩
    · obtain ⟨w3, e3, f3⟩ := RawTable.getMut_some (p := hashAndId (m.hb.hl a) i) (h := m.hb.hr a')
        ((f2 ⟨b, some (m.hb.hl a), j⟩).trans (.swap _ _ _)) rfl (hashAndId_self _ _ _)
        (hids_of_ids (idsR_cons hpq hidp))
      have e4 := RawTable.get_some (p := justId i) (h := m.hb.hr a') (f3 ⟨a', none, i⟩) rfl (justId_self _ _ _)
        (idsR_cons hpq hidp)
      have := hr.rebuild (old := [_, _]) (new := [⟨someBoth a b, j⟩, ⟨someRight a', i⟩]) (ps := ps') (Nat.le_refl _)
        (f1 ⟨a, some (m.hb.hr b), j⟩) ((f3 ⟨a', none, i⟩).trans (.swap _ _ _))
        (by simpa using hpq.symm) (by simp) (by simp)
      exact ⟨_, _, _, by simp [e1, e2, e3, e4, leftOf, rightOf, ofPair], force_two hq rfl rfl ha hb rfl (.refl _), this, rfl⟩
    · obtain ⟨w3, e3, f3⟩ := RawTable.getMut_some (p := hashAndId (m.hb.hr b) j) (h := m.hb.hl b')
        ((f1 ⟨a, some (m.hb.hr b), m.counter⟩).trans (.swap _ _ _)) rfl (hashAndId_self _ _ _)
        (hids_of_ids (idsL_cons (by simp; omega) hidq))
      have e4 := RawTable.get_some (p := justId j) (h := m.hb.hl b') (f3 ⟨b', none, j⟩) rfl (justId_self _ _ _)
        (idsL_cons (by simp; omega) hidq)
      obtain ⟨w5, e5, f5⟩ := RawTable.getMut_some (p := hashAndId (m.hb.hl a) i) (h := m.hb.hr a')
        ((f2 ⟨b, some (m.hb.hl a), m.counter⟩).trans (.swap _ _ _)) rfl (hashAndId_self _ _ _)
        (hids_of_ids (idsR_cons (by simp; omega) hidp))
      have e6 := RawTable.get_some (p := justId i) (h := m.hb.hr a') (f5 ⟨a', none, i⟩) rfl (justId_self _ _ _)
        (idsR_cons (by simp; omega) hidp)
      have := hr.rebuild (old := [_, _]) (new := [⟨someBoth a b, m.counter⟩, ⟨someLeft b', j⟩, ⟨someRight a', i⟩])
        (ps := ps') (Nat.le_succ _)
        ((f3 ⟨b', none, j⟩).trans (.swap _ _ _)) ((f5 ⟨a', none, i⟩).trans (.swap _ _ _))
        (by simp; omega) (by simp) (by simp)
      exact ⟨_, _, _, by simp [e1, e2, e3, e4, e5, e6, leftOf, rightOf, ofPair], force_two hq rfl rfl ha hb rfl (.refl _), this, rfl⟩

theorem pairForcedRemove_weak (h : Linked m ps) (l : L) (r : R) :
    ∃ o m' qs, m.pairForcedRemove l r = .ok (o, m') ∧ Force false (ents ps) l r o (ents qs) ∧ Linked m' qs ∧
      m'.hb = m.hb := by
  unfold pairForcedRemove
  rcases h.casesLR l r with ⟨e, hn⟩ | ⟨e, hn⟩ | ⟨a, b, i, qs, hq, hl, hr, e, e'⟩ | ⟨p, q, ps', x, y, hq, hl, hrr, hx, hy, e, e'⟩
  · refine ⟨neither, m, ps, ?_, .inl ⟨rfl, .inl (noL_ents.2 hn), .refl _⟩, h, rfl⟩
    simp [arePaired, e, getMut_of_get_none e]
  · refine ⟨neither, m, ps, ?_, .inl ⟨rfl, .inr (.inl (noR_ents.2 hn)), .refl _⟩, h, rfl⟩
    have : m.arePaired l r = false := by simp only [arePaired, e]; split <;> simp_all
    simp only [this, Bool.false_eq_true, if_false, getMut_of_get_none e]
    split <;> simp_all
  · refine ⟨neither, m, ps, ?_, .inl ⟨rfl, .inr (.inr (paired_ents hq hl hr)), .refl _⟩, h, rfl⟩
    simp [arePaired_one hl hr e e']
  · have hr := h.perm hq
    obtain ⟨-, w1, e1, f1⟩ := hr.accessL hx e
    obtain ⟨-, w2, e2, f2⟩ := hr.swap.accessR hy e'
    rw [arePaired_two hr hx hy e e']
    have hidp : ∀ x ∈ ps', p.id ≠ x.id := fun x hx => hr.tail x (List.mem_cons_of_mem _ hx)
    have hidq : ∀ x ∈ ps', q.id ≠ x.id := fun x hx => hr.swap.tail x (List.mem_cons_of_mem _ hx)
    have hpq : p.id ≠ q.id := hr.tail q (by simp)
    have hip : p.id < m.counter := hr.bound p (by simp)
    have hiq : q.id < m.counter := hr.bound q (by simp)
    clear e e'
    obtain ⟨e, i⟩ := p
    obtain ⟨f, j⟩ := q
    dsimp only at hidp hidq hpq hip hiq
    rcases hasL_cases hl with ⟨a, rfl, ha⟩ | ⟨a, a', rfl, ha⟩ <;>
      rcases hasR_cases hrr with ⟨b, rfl, hb⟩ | ⟨b', b, rfl, hb⟩ <;> cases hx <;> cases hy <;>
      rw [m.hb.hr_congr _ _ hb] at * <;> rw [m.hb.hl_congr _ _ ha] at *
    · have := hr.rebuild (old := [_, _]) (new := [⟨someBoth a b, i⟩]) (ps := ps') (Nat.le_refl _)
        (f1 ⟨a, some (m.hb.hr b), i⟩) (f2 ⟨b, some (m.hb.hl a), i⟩) (by simp) (by simp) (by simp)
      exact ⟨_, _, _, by simp [e1, e2, leftOf, rightOf, ofPair], force_two hq rfl rfl ha hb rfl (.refl _), this, rfl⟩
    · obtain ⟨t3, e3, f3⟩ := RawTable.removeEntry_some (p := hashAndId (m.hb.hr b) j) (h := m.hb.hl b')
        ((f1 ⟨a, some (m.hb.hr b), i⟩).trans (.swap _ _ _)) rfl (hashAndId_self _ _ _)
        (hids_of_ids (idsL_cons hpq.symm hidq))
      have := hr.rebuild (old := [_, _]) (new := [⟨someBoth a b, i⟩]) (ps := ps') (Nat.le_refl _)
        f3 (f2 ⟨b, some (m.hb.hl a), i⟩) (by simp) (by simp) (by simp)
      exact ⟨_, _, _, by simp [e1, e2, e3, leftOf, rightOf, ofPair], force_two hq rfl rfl ha hb rfl (.refl _), this, rfl⟩
    · obtain ⟨t3, e3, f3⟩ := RawTable.removeEntry_some (p := justId i) (h := m.hb.hr a')
        ((f2 ⟨b, some (m.hb.hl a), j⟩).trans (.swap _ _ _)) rfl (justId_self _ _ _)
        (idsR_cons hpq hidp)
      have := hr.rebuild (old := [_, _]) (new := [⟨someBoth a b, j⟩]) (ps := ps') (Nat.le_refl _)
        (f1 ⟨a, some (m.hb.hr b), j⟩) f3 (by simp) (by simp) (by simp)
      exact ⟨_, _, _, by simp [e1, e2, e3, leftOf, rightOf, ofPair], force_two hq rfl rfl ha hb rfl (.refl _), this, rfl⟩
    · obtain ⟨t3, e3, f3⟩ := RawTable.removeEntry_some (p := justId j) (h := m.hb.hl b')
        ((f1 ⟨a, some (m.hb.hr b), m.counter⟩).trans (.swap _ _ _)) rfl (justId_self _ _ _)
        (idsL_cons (by simp; omega) hidq)
      obtain ⟨t5, e5, f5⟩ := RawTable.removeEntry_some (p := justId i) (h := m.hb.hr a')
        ((f2 ⟨b, some (m.hb.hl a), m.counter⟩).trans (.swap _ _ _)) rfl (justId_self _ _ _)
        (idsR_cons (by simp; omega) hidp)
      have := hr.rebuild (old := [_, _]) (new := [⟨someBoth a b, m.counter⟩])
        (ps := ps') (Nat.le_succ _) f3 f5 (by simp) (by simp) (by simp)
      exact ⟨_, _, _, by simp [e1, e2, e3, e5, leftOf, rightOf, ofPair], force_two hq rfl rfl ha hb rfl (.refl _), this, rfl⟩

theorem unpair_weak (h : Linked m ps) (l : L) (r : R) (hs : Sane m.hb (ents ps) (.unpair l r)) :
    ∃ b m' qs, m.unpair l r = (b, m') ∧ Unpair (ents ps) l r b (ents qs) ∧ Linked m' qs ∧ m'.hb = m.hb := by
  unfold unpair
  rcases h.casesLR l r with ⟨e, hn⟩ | ⟨e, hn⟩ | ⟨a, b, i, qs, hq, hl, hr, e, e'⟩ | ⟨p, q, ps', x, y, hq, hl, hrr, hx, hy, e, e'⟩
  · exact ⟨false, m, ps, by simp [getMut_of_get_none e], .inr ⟨rfl, .inl (noL_ents.2 hn), .refl _⟩, h, rfl⟩
  · refine ⟨false, m, ps, ?_, .inr ⟨rfl, .inr (.inl (noR_ents.2 hn)), .refl _⟩, h, rfl⟩
    simp only [getMut_of_get_none e]
    split <;> simp_all
  · have h' := h.perm hq
    obtain ⟨-, w1, e1, f1⟩ := h'.accessL rfl e
    obtain ⟨-, w2, e2, f2⟩ := h'.accessR rfl e'
    have hi : i < m.counter := h'.bound ⟨someBoth a b, i⟩ (by simp)
    have := h'.rebuild (old := [_]) (new := [⟨someLeft a, i⟩, ⟨someRight b, m.counter⟩]) (ps := qs) (Nat.le_succ _)
      (f1 ⟨a, none, i⟩) (f2 ⟨b, none, m.counter⟩) (by simp; omega) (by simp) (by simp)
    refine ⟨true, _, _, ?_, .inl ⟨rfl, a, b, ents qs, hq.map _, hl, hr, .refl _⟩, this, rfl⟩
    simp only [e1, e2]
    simp [m.hb.hl_congr _ _ hl, m.hb.hr_congr _ _ hr]
  · have h' := h.perm hq
    obtain ⟨-, w1, e1, f1⟩ := h'.accessL hx e
    obtain ⟨-, w2, e2, f2⟩ := h'.swap.accessR hy e'
    refine ⟨false, m, ps, ?_, .inr ⟨rfl, unpaired_two hq hl hrr, .refl _⟩, h, rfl⟩
    clear e e'
    obtain ⟨e, i⟩ := p
    obtain ⟨f, j⟩ := q
    rcases hasL_cases hl with ⟨a, rfl, ha⟩ | ⟨a, a', rfl, ha⟩ <;>
      rcases hasR_cases hrr with ⟨b, rfl, hb⟩ | ⟨b', b, rfl, hb⟩ <;> cases hx <;> cases hy <;>
      simp only [e1, e2]
    · split
      · rename_i hc
        simp at hc
        exact (hs a a' b' b _ (hq.map _) ha hb hc.2 hc.1).elim
      · rfl

end Verif.PartialMap
