import Verif.CycleMap.Iterate
import Verif.CycleMap.Always
import Verif.CycleMap.WeakSpec
/-! `CycleMap` with a `==` that is any relation the hash agrees with: the two sides stay linked. -/
set_option linter.unusedSectionVars false
namespace Verif.CycleMap
open CycleSpec CycleWeak OptionalPair

variable [RawImpl] [LawfulRaw] {L R : Type} [BEq L] [BEq R]

/-- `m` holds exactly the records `ps`, with distinct ids -/
structure Linked (m : CycleMap L R) (ps : List (Rec L R)) : Prop where
  left : m.left.entries.Perm (ps.map (toL m.hb))
  right : m.right.entries.Perm (ps.map (toR m.hb))
  ids : ps.Pairwise (·.id ≠ ·.id)
  bound : ∀ p ∈ ps, p.id < m.counter

variable {m : CycleMap L R} {p : Rec L R} {ps qs : List (Rec L R)}

theorem Linked.perm (h : Linked m ps) (hp : ps.Perm qs) : Linked m qs where
  left := h.left.trans (hp.map _)
  right := h.right.trans (hp.map _)
  ids := (hp.pairwise_iff (fun h => Ne.symm h)).1 h.ids
  bound := fun p hm => h.bound p (hp.mem_iff.2 hm)

theorem Linked.hashL (h : Linked m ps) : ∀ e ∈ m.left.entries, e.2.hashWith m.hb.hl = e.1 := by
  intro e he
  obtain ⟨p, -, rfl⟩ := List.mem_map.1 (h.left.mem_iff.1 he)
  rfl

theorem Linked.hashR (h : Linked m ps) : ∀ e ∈ m.right.entries, e.2.hashWith m.hb.hr = e.1 := by
  intro e he
  obtain ⟨p, -, rfl⟩ := List.mem_map.1 (h.right.mem_iff.1 he)
  rfl

theorem Linked.tail (h : Linked m (p :: qs)) : ∀ q ∈ qs, p.id ≠ q.id := (List.pairwise_cons.1 h.ids).1

/-- records with the same id are the same -/
theorem Linked.inj (h : Linked m ps) {a b : Rec L R} (ha : a ∈ ps) (hb : b ∈ ps) (e : a.id = b.id) : a = b := by
  obtain ⟨qs, hq⟩ := perm_cons_of_mem ha
  rcases List.mem_cons.1 (hq.mem_iff.1 hb) with rfl | hb
  · rfl
  · exact absurd e ((h.perm hq).tail b hb)

/-! ### Probes -/

/-- looking up a left item: a miss means that nothing matches, a hit is one of the records -/
theorem Linked.probeL (h : Linked m ps) (l : L) :
    (m.left.get (m.hb.hl l) (equivalentKey l) = none ∧ ∀ p ∈ ps, (l == p.l) = false) ∨
    ∃ p qs, ps.Perm (p :: qs) ∧ (l == p.l) = true ∧ m.left.get (m.hb.hl l) (equivalentKey l) = some (toL m.hb p).2 := by
  cases e : m.left.get (m.hb.hl l) (equivalentKey l) with
  | none =>
    refine .inl ⟨rfl, fun p hp => eq_false_of_ne_true' fun hc => ?_⟩
    have hmem : toL m.hb p ∈ m.left.entries := h.left.mem_iff.2 (List.mem_map.2 ⟨p, hp, rfl⟩)
    have hf := LawfulRaw.find_complete m.left (m.hb.hl l) (equivalentKey l) _ hmem (m.hb.hl_congr _ _ hc).symm hc
    rw [RawTable.get] at e
    split at e
    · exact hf ‹_›
    · rename_i i hi
      obtain ⟨x, hx, -⟩ := LawfulRaw.find_sound _ _ _ _ hi
      rw [hx] at e; cases e
  | some x =>
    obtain ⟨h1, k, h2⟩ := RawTable.get_mem e
    obtain ⟨p, hp, hx⟩ := List.mem_map.1 (h.left.mem_iff.1 h2)
    obtain ⟨qs, hq⟩ := perm_cons_of_mem hp
    refine .inr ⟨p, qs, hq, ?_, by rw [hx]⟩
    have : (toL m.hb p).2 = x := by rw [hx]
    rw [← this] at h1; exact h1

theorem Linked.probeR (h : Linked m ps) (r : R) :
    (m.right.get (m.hb.hr r) (equivalentKey r) = none ∧ ∀ p ∈ ps, (r == p.r) = false) ∨
    ∃ p qs, ps.Perm (p :: qs) ∧ (r == p.r) = true ∧ m.right.get (m.hb.hr r) (equivalentKey r) = some (toR m.hb p).2 := by
  cases e : m.right.get (m.hb.hr r) (equivalentKey r) with
  | none =>
    refine .inl ⟨rfl, fun p hp => eq_false_of_ne_true' fun hc => ?_⟩
    have hmem : toR m.hb p ∈ m.right.entries := h.right.mem_iff.2 (List.mem_map.2 ⟨p, hp, rfl⟩)
    have hf := LawfulRaw.find_complete m.right (m.hb.hr r) (equivalentKey r) _ hmem (m.hb.hr_congr _ _ hc).symm hc
    rw [RawTable.get] at e
    split at e
    · exact hf ‹_›
    · rename_i i hi
      obtain ⟨x, hx, -⟩ := LawfulRaw.find_sound _ _ _ _ hi
      rw [hx] at e; cases e
  | some x =>
    obtain ⟨h1, k, h2⟩ := RawTable.get_mem e
    obtain ⟨p, hp, hx⟩ := List.mem_map.1 (h.right.mem_iff.1 h2)
    obtain ⟨qs, hq⟩ := perm_cons_of_mem hp
    refine .inr ⟨p, qs, hq, ?_, by rw [hx]⟩
    have : (toR m.hb p).2 = x := by rw [hx]
    rw [← this] at h1; exact h1

theorem removeEntry_of_get_none {T : Type} {t : RawTable T} {h q} (e : t.get h q = none) : t.removeEntry h q = none := by
  have := RawTable.get_isSome_removeEntry (t := t) h q
  rw [e] at this
  simpa using this

/-- taking out what a lookup finds -/
theorem Linked.removeL (h : Linked m (p :: qs)) {k q} (e : m.left.get k q = some (toL m.hb p).2) :
    ∃ t, m.left.removeEntry k q = some ((toL m.hb p).2, t) ∧ t.entries.Perm (qs.map (toL m.hb)) := by
  have hs := RawTable.get_isSome_removeEntry (t := m.left) k q
  rw [e] at hs
  obtain ⟨⟨y, t⟩, e2⟩ := Option.isSome_iff_exists.1 hs
  have hy := get_removeEntry e e2
  subst hy
  refine ⟨t, e2, ?_⟩
  obtain ⟨-, k', hp⟩ := RawTable.removeEntry_perm e2
  have hmem := h.left.mem_iff.1 (hp.mem_iff.2 List.mem_cons_self)
  obtain ⟨p', hp', hx⟩ := List.mem_map.1 hmem
  have hid : p'.id = p.id := by simpa [toL] using congrArg (fun x => x.2.id) hx
  have := h.inj hp' List.mem_cons_self hid
  subst this
  rw [← hx] at hp
  exact (List.perm_cons _).1 (hp.symm.trans h.left)

theorem Linked.removeR (h : Linked m (p :: qs)) {k q} (e : m.right.get k q = some (toR m.hb p).2) :
    ∃ t, m.right.removeEntry k q = some ((toR m.hb p).2, t) ∧ t.entries.Perm (qs.map (toR m.hb)) := by
  have hs := RawTable.get_isSome_removeEntry (t := m.right) k q
  rw [e] at hs
  obtain ⟨⟨y, t⟩, e2⟩ := Option.isSome_iff_exists.1 hs
  have hy := get_removeEntry e e2
  subst hy
  refine ⟨t, e2, ?_⟩
  obtain ⟨-, k', hp⟩ := RawTable.removeEntry_perm e2
  have hmem := h.right.mem_iff.1 (hp.mem_iff.2 List.mem_cons_self)
  obtain ⟨p', hp', hx⟩ := List.mem_map.1 hmem
  have hid : p'.id = p.id := by simpa [toR] using congrArg (fun x => x.2.id) hx
  have := h.inj hp' List.mem_cons_self hid
  subst this
  rw [← hx] at hp
  exact (List.perm_cons _).1 (hp.symm.trans h.right)

theorem Linked.otherR (h : Linked m (p :: qs)) :
    ∀ e ∈ qs.map (toR m.hb), hashAndId (m.hb.hl p.l) p.id e.2 = false :=
  forall_mem_map_of fun q hq => hashAndId_ne (h.tail q hq)

theorem Linked.otherL (h : Linked m (p :: qs)) :
    ∀ e ∈ qs.map (toL m.hb), hashAndId (m.hb.hr p.r) p.id e.2 = false :=
  forall_mem_map_of fun q hq => hashAndId_ne (h.tail q hq)

/-- the partner of a left entry -/
theorem Linked.partnerR (h : Linked m (p :: qs)) :
    m.right.get (m.hb.hr p.r) (hashAndId (m.hb.hl p.l) p.id) = some (toR m.hb p).2 :=
  RawTable.get_some h.right rfl (hashAndId_self _ _ _) h.otherR

theorem Linked.partnerL (h : Linked m (p :: qs)) :
    m.left.get (m.hb.hl p.l) (hashAndId (m.hb.hr p.r) p.id) = some (toL m.hb p).2 :=
  RawTable.get_some h.left rfl (hashAndId_self _ _ _) h.otherL

theorem Linked.dropped (h : Linked m (p :: qs)) {tl : RawTable (MappingPair L)} {tr : RawTable (MappingPair R)}
    (hl : tl.entries.Perm (qs.map (toL m.hb))) (hr : tr.entries.Perm (qs.map (toR m.hb))) :
    Linked { m with left := tl, right := tr } qs :=
  ⟨hl, hr, (List.pairwise_cons.1 h.ids).2, fun q hq => h.bound q (List.mem_cons_of_mem _ hq)⟩

/-! ### Removing -/

theorem removeViaLeft_hit (h : Linked m (p :: qs)) {l : L} (hl : (l == p.l) = true)
    (e : m.left.get (m.hb.hl l) (equivalentKey l) = some (toL m.hb p).2) :
    ∃ m', m.removeViaLeft l = .ok (some p.pair, m') ∧ Linked m' qs ∧ m'.hb = m.hb ∧ m'.counter = m.counter := by
  obtain ⟨tl, e1, h1⟩ := h.removeL e
  obtain ⟨tr, e2, h2⟩ := h.removeR h.partnerR
  refine ⟨{ m with left := tl, right := tr }, ?_, h.dropped h1 h2, rfl, rfl⟩
  rw [m.hb.hl_congr _ _ hl] at e1
  simp only [toL] at e1
  simp only [removeViaLeft, m.hb.hl_congr _ _ hl, e1, e2]; rfl

theorem removeViaRight_hit (h : Linked m (p :: qs)) {r : R} (hr : (r == p.r) = true)
    (e : m.right.get (m.hb.hr r) (equivalentKey r) = some (toR m.hb p).2) :
    ∃ m', m.removeViaRight r = .ok (some p.pair, m') ∧ Linked m' qs ∧ m'.hb = m.hb ∧ m'.counter = m.counter := by
  obtain ⟨tr, e1, h1⟩ := h.removeR e
  obtain ⟨tl, e2, h2⟩ := h.removeL h.partnerL
  refine ⟨{ m with left := tl, right := tr }, ?_, h.dropped h2 h1, rfl, rfl⟩
  rw [m.hb.hr_congr _ _ hr] at e1
  simp only [toR] at e1
  simp only [removeViaRight, m.hb.hr_congr _ _ hr, e1, e2]; rfl

theorem noL_map {l : L} : NoL (ps.map Rec.pair) l ↔ ∀ p ∈ ps, (l == p.l) = false := by
  simp [NoL, Rec.pair]

theorem noR_map {r : R} : NoR (ps.map Rec.pair) r ↔ ∀ p ∈ ps, (r == p.r) = false := by
  simp [NoR, Rec.pair]

theorem removeViaLeft_weak (h : Linked m ps) (l : L) :
    ∃ o m' qs, m.removeViaLeft l = .ok (o, m') ∧ TakeL (ps.map Rec.pair) l o (qs.map Rec.pair) ∧ Linked m' qs ∧
      m'.hb = m.hb ∧ m'.counter = m.counter := by
  rcases h.probeL l with ⟨e, hn⟩ | ⟨p, qs, hq, hl, e⟩
  · refine ⟨none, m, ps, ?_, .inl ⟨rfl, noL_map.2 hn, .refl _⟩, h, rfl, rfl⟩
    simp only [removeViaLeft, removeEntry_of_get_none e]
  · obtain ⟨m', e', h', hb, hc⟩ := removeViaLeft_hit (h.perm hq) hl e
    exact ⟨_, m', qs, e', .inr ⟨_, rfl, hl, hq.map _⟩, h', hb, hc⟩

theorem removeViaRight_weak (h : Linked m ps) (r : R) :
    ∃ o m' qs, m.removeViaRight r = .ok (o, m') ∧ TakeR (ps.map Rec.pair) r o (qs.map Rec.pair) ∧ Linked m' qs ∧
      m'.hb = m.hb ∧ m'.counter = m.counter := by
  rcases h.probeR r with ⟨e, hn⟩ | ⟨p, qs, hq, hr, e⟩
  · refine ⟨none, m, ps, ?_, .inl ⟨rfl, noR_map.2 hn, .refl _⟩, h, rfl, rfl⟩
    simp only [removeViaRight, removeEntry_of_get_none e]
  · obtain ⟨m', e', h', hb, hc⟩ := removeViaRight_hit (h.perm hq) hr e
    exact ⟨_, m', qs, e', .inr ⟨_, rfl, hr, hq.map _⟩, h', hb, hc⟩

theorem containsLeft_weak (h : Linked m ps) (l : L) : m.containsLeft l = (ps.map Rec.pair).any fun p => l == p.1 := by
  rw [containsLeft]
  rcases h.probeL l with ⟨e, hn⟩ | ⟨p, qs, hq, hl, e⟩ <;> rw [e]
  · symm; simpa [Rec.pair] using hn
  · symm; simp only [Option.isSome_some, List.any_eq_true]
    exact ⟨p.pair, List.mem_map.2 ⟨p, hq.mem_iff.2 List.mem_cons_self, rfl⟩, hl⟩

theorem containsRight_weak (h : Linked m ps) (r : R) : m.containsRight r = (ps.map Rec.pair).any fun p => r == p.2 := by
  rw [containsRight]
  rcases h.probeR r with ⟨e, hn⟩ | ⟨p, qs, hq, hl, e⟩ <;> rw [e]
  · symm; simpa [Rec.pair] using hn
  · symm; simp only [Option.isSome_some, List.any_eq_true]
    exact ⟨p.pair, List.mem_map.2 ⟨p, hq.mem_iff.2 List.mem_cons_self, rfl⟩, hl⟩

/-- `are_paired`: if it says yes, the lookups of both items found the same record -/
theorem arePaired_weak (h : Linked m ps) (l : L) (r : R) :
    (m.arePaired l r = true ∧ ∃ p qs, ps.Perm (p :: qs) ∧ (l == p.l) = true ∧ (r == p.r) = true ∧
      m.left.get (m.hb.hl l) (equivalentKey l) = some (toL m.hb p).2) ∨
    (m.arePaired l r = false ∧ Unpaired (ps.map Rec.pair) l r) := by
  simp only [arePaired]
  rcases h.probeL l with ⟨e, hn⟩ | ⟨p, qs, hq, hl, e⟩
  · rw [e]; exact .inr ⟨rfl, .inl (noL_map.2 hn)⟩
  · rcases h.probeR r with ⟨e', hn⟩ | ⟨q, qs', hq', hr, e'⟩
    · rw [e, e']; exact .inr ⟨rfl, .inr (.inl (noR_map.2 hn))⟩
    · rw [e, e']
      by_cases hid : p.id = q.id
      · have := h.inj (hq.mem_iff.2 List.mem_cons_self) (hq'.mem_iff.2 List.mem_cons_self) hid
        subst this
        refine .inl ⟨?_, p, qs, hq, hl, hr, rfl⟩
        simp [toL, toR, m.hb.hl_congr _ _ hl, m.hb.hr_congr _ _ hr]
      · refine .inr ⟨by simp [toL, toR, hid], .inr (.inr ?_)⟩
        have hmem : q ∈ qs := by
          rcases List.mem_cons.1 (hq.mem_iff.1 (hq'.mem_iff.2 List.mem_cons_self)) with rfl | hm
          · exact absurd rfl hid
          · exact hm
        obtain ⟨d, hd⟩ := perm_cons_of_mem hmem
        exact ⟨p.pair, q.pair, d.map Rec.pair, ((hq.trans (hd.cons p)).map Rec.pair), hl, hr⟩

theorem paired_map {l : L} {r : R} (hq : ps.Perm (p :: qs)) (hl : (l == p.l) = true) (hr : (r == p.r) = true) :
    Paired (ps.map Rec.pair) l r :=
  ⟨p.pair, List.mem_map.2 ⟨p, hq.mem_iff.2 List.mem_cons_self, rfl⟩, hl, hr⟩

/-! ### Inserting and swapping -/

theorem insert_weak (h : Linked m ps) (l : L) (r : R) :
    ∃ o₁ o₂ m' qs, m.insert l r = .ok (ofPair (o₁, o₂), m') ∧ Insert (ps.map Rec.pair) l r o₁ o₂ (qs.map Rec.pair) ∧
      Linked m' qs ∧ m'.hb = m.hb := by
  obtain ⟨o₁, m1, q1, e1, t1, h1, hb1, c1⟩ := removeViaLeft_weak h l
  obtain ⟨o₂, m2, q2, e2, t2, h2, hb2, c2⟩ := removeViaRight_weak h1 r
  refine ⟨o₁, o₂, { m2 with
      counter := m2.counter + 1
      left := m2.left.insert (m2.hb.hl l) ⟨l, m2.hb.hr r, m2.counter⟩ (·.hashWith m2.hb.hl)
      right := m2.right.insert (m2.hb.hr r) ⟨r, m2.hb.hl l, m2.counter⟩ (·.hashWith m2.hb.hr) },
    ⟨l, r, m2.counter⟩ :: q2, ?_, ⟨_, _, t1, t2, .refl _⟩, ⟨?_, ?_, ?_, ?_⟩, hb2.trans hb1⟩
  · simp only [insert, e1, e2, bind, Except.bind]; rfl
  · exact (RawTable.insert_perm _ _ _ h2.hashL).trans (h2.left.cons _)
  · exact (RawTable.insert_perm _ _ _ h2.hashR).trans (h2.right.cons _)
  · exact List.pairwise_cons.2 ⟨fun q hq => (Nat.ne_of_lt (h2.bound q hq)).symm, h2.ids⟩
  · intro q hq
    rcases List.mem_cons.1 hq with rfl | hq
    · exact Nat.lt_succ_self _
    · exact Nat.lt_succ_of_lt (h2.bound q hq)

theorem extend_weak (h : Linked m ps) (xs : List (L × R)) :
    ∃ m' qs, m.extend xs = .ok m' ∧ InsertAll (ps.map Rec.pair) xs (qs.map Rec.pair) ∧ Linked m' qs ∧ m'.hb = m.hb := by
  induction xs generalizing m ps with
  | nil => exact ⟨m, ps, rfl, .refl _, h, rfl⟩
  | cons x xs ih =>
    obtain ⟨o₁, o₂, m1, q1, e1, s1, h1, hb1⟩ := insert_weak h x.1 x.2
    obtain ⟨m2, q2, e2, s2, h2, hb2⟩ := ih h1
    refine ⟨m2, q2, ?_, ⟨o₁, o₂, _, s1, s2⟩, h2, hb2.trans hb1⟩
    simp only [extend, e1, bind, Except.bind]; exact e2

theorem swapLeftEqCheck_weak (h : Linked m ps) (old new : L) :
    ∃ eq m' qs, m.swapLeftEqCheck old new (m.hb.hl new) = .ok (eq, m') ∧
      (if new == old then eq = none ∧ (qs.map Rec.pair).Perm (ps.map Rec.pair) else TakeL (ps.map Rec.pair) new eq (qs.map Rec.pair)) ∧
      Linked m' qs ∧ m'.hb = m.hb := by
  obtain ⟨o, m1, q1, e1, t1, h1, hb1, -⟩ := removeViaLeft_weak h new
  cases hno : new == old
  · rcases h.probeL new with ⟨e, hn⟩ | ⟨p, qs, hq, hl, e⟩
    · refine ⟨none, m, ps, by simp only [swapLeftEqCheck, e], ?_, h, rfl⟩
      simp only [Bool.false_eq_true, if_false]
      exact .inl ⟨rfl, noL_map.2 hn, .refl _⟩
    · refine ⟨o, m1, q1, ?_, by simpa using t1, h1, hb1⟩
      simp only [swapLeftEqCheck, e, bne, hno, Bool.not_false, if_true, e1]
  · refine ⟨none, m, ps, ?_, by simp, h, rfl⟩
    simp only [swapLeftEqCheck, bne, hno, Bool.not_true, Bool.false_eq_true, if_false]
    split <;> rfl

theorem swapRightEqCheck_weak (h : Linked m ps) (old new : R) :
    ∃ eq m' qs, m.swapRightEqCheck old new (m.hb.hr new) = .ok (eq, m') ∧
      (if new == old then eq = none ∧ (qs.map Rec.pair).Perm (ps.map Rec.pair) else TakeR (ps.map Rec.pair) new eq (qs.map Rec.pair)) ∧
      Linked m' qs ∧ m'.hb = m.hb := by
  obtain ⟨o, m1, q1, e1, t1, h1, hb1, -⟩ := removeViaRight_weak h new
  cases hno : new == old
  · rcases h.probeR new with ⟨e, hn⟩ | ⟨p, qs, hq, hl, e⟩
    · refine ⟨none, m, ps, by simp only [swapRightEqCheck, e], ?_, h, rfl⟩
      simp only [Bool.false_eq_true, if_false]
      exact .inl ⟨rfl, noR_map.2 hn, .refl _⟩
    · refine ⟨o, m1, q1, ?_, by simpa using t1, h1, hb1⟩
      simp only [swapRightEqCheck, e, bne, hno, Bool.not_false, if_true, e1]
  · refine ⟨none, m, ps, ?_, by simp, h, rfl⟩
    simp only [swapRightEqCheck, bne, hno, Bool.not_true, Bool.false_eq_true, if_false]
    split <;> rfl

theorem swapLeft_weak (h : Linked m ps) (old new : L) :
    ∃ o m' qs, m.swapLeft old new = .ok (o, m') ∧ SwapL (ps.map Rec.pair) old new o (qs.map Rec.pair) ∧
      Linked m' qs ∧ m'.hb = m.hb := by
  obtain ⟨eq, m1, q1, e1, s1, h1, hb1⟩ := swapLeftEqCheck_weak h old new
  rcases h1.probeL old with ⟨e, hn⟩ | ⟨p, qs, hq, hl, e⟩
  · refine ⟨neither, m1, q1, ?_, ⟨eq, _, s1, .inl ⟨noL_map.2 hn, rfl, .refl _⟩⟩, h1, hb1⟩
    simp only [swapLeft, e1, bind, Except.bind, e]; rfl
  · have h2 := h1.perm hq
    obtain ⟨w, ew, hw⟩ := RawTable.getMut_some (h := m1.hb.hr p.r) (p := hashAndId (m1.hb.hl p.l) p.id)
      h2.right rfl (hashAndId_self _ _ _) h2.otherR
    obtain ⟨tl, e3, h3⟩ := h2.removeL e
    have hhl := m1.hb.hl_congr _ _ hl
    rw [hhl] at e e3
    have hhash : ∀ e ∈ tl.entries, e.2.hashWith m1.hb.hl = e.1 := fun e he =>
      (by
        obtain ⟨x, -, rfl⟩ := List.mem_map.1 (h3.mem_iff.1 he)
        rfl)
    refine ⟨ofPair (some p.l, eq), { m1 with
        left := tl.insert (m1.hb.hl new) ⟨new, m1.hb.hr p.r, p.id⟩ (·.hashWith m1.hb.hl),
        right := w ⟨p.r, m1.hb.hl new, p.id⟩ }, ⟨new, p.r, p.id⟩ :: qs, ?_,
      ⟨eq, _, s1, .inr ⟨p.pair, qs.map Rec.pair, hq.map _, hl, rfl, .refl _⟩⟩, ⟨?_, ?_, ?_, ?_⟩, hb1⟩
    · simp only [toL] at e e3
      simp only [swapLeft, e1, bind, Except.bind, hhl, e, ew, e3]; rw [← hb1]; rfl
    · exact (RawTable.insert_perm tl (m1.hb.hl new) ⟨new, m1.hb.hr p.r, p.id⟩ hhash).trans (h3.cons _)
    · exact hw ⟨p.r, m1.hb.hl new, p.id⟩
    · exact List.pairwise_cons.2 ⟨fun q hq => h2.tail q hq, (List.pairwise_cons.1 h2.ids).2⟩
    · intro q hq
      rcases List.mem_cons.1 hq with rfl | hq
      · exact h2.bound p List.mem_cons_self
      · exact h2.bound q (List.mem_cons_of_mem _ hq)

theorem swapRight_weak (h : Linked m ps) (old new : R) :
    ∃ o m' qs, m.swapRight old new = .ok (o, m') ∧ SwapR (ps.map Rec.pair) old new o (qs.map Rec.pair) ∧
      Linked m' qs ∧ m'.hb = m.hb := by
  obtain ⟨eq, m1, q1, e1, s1, h1, hb1⟩ := swapRightEqCheck_weak h old new
  rcases h1.probeR old with ⟨e, hn⟩ | ⟨p, qs, hq, hr, e⟩
  · refine ⟨neither, m1, q1, ?_, ⟨eq, _, s1, .inl ⟨noR_map.2 hn, rfl, .refl _⟩⟩, h1, hb1⟩
    simp only [swapRight, e1, bind, Except.bind, e]; rfl
  · have h2 := h1.perm hq
    obtain ⟨w, ew, hw⟩ := RawTable.getMut_some (h := m1.hb.hl p.l) (p := hashAndId (m1.hb.hr p.r) p.id)
      h2.left rfl (hashAndId_self _ _ _) h2.otherL
    obtain ⟨tr, e3, h3⟩ := h2.removeR e
    have hhr := m1.hb.hr_congr _ _ hr
    rw [hhr] at e e3
    have hhash : ∀ e ∈ tr.entries, e.2.hashWith m1.hb.hr = e.1 := fun e he =>
      (by
        obtain ⟨x, -, rfl⟩ := List.mem_map.1 (h3.mem_iff.1 he)
        rfl)
    refine ⟨ofPair (some p.r, eq), { m1 with
        left := w ⟨p.l, m1.hb.hr new, p.id⟩,
        right := tr.insert (m1.hb.hr new) ⟨new, m1.hb.hl p.l, p.id⟩ (·.hashWith m1.hb.hr) },
      ⟨p.l, new, p.id⟩ :: qs, ?_,
      ⟨eq, _, s1, .inr ⟨p.pair, qs.map Rec.pair, hq.map _, hr, rfl, .refl _⟩⟩, ⟨?_, ?_, ?_, ?_⟩, hb1⟩
    · simp only [toR] at e e3
      simp only [swapRight, e1, bind, Except.bind, hhr, e, ew, e3]; rfl
    · exact hw ⟨p.l, m1.hb.hr new, p.id⟩
    · exact (RawTable.insert_perm tr (m1.hb.hr new) ⟨new, m1.hb.hl p.l, p.id⟩ hhash).trans (h3.cons _)
    · exact List.pairwise_cons.2 ⟨fun q hq => h2.tail q hq, (List.pairwise_cons.1 h2.ids).2⟩
    · intro q hq
      rcases List.mem_cons.1 hq with rfl | hq
      · exact h2.bound p List.mem_cons_self
      · exact h2.bound q (List.mem_cons_of_mem _ hq)

/-! ### Lookups and iteration -/

theorem getRight_weak (h : Linked m ps) (l : L) :
    (m.getRight l = none ∧ ∀ p ∈ ps, (l == p.l) = false) ∨
    ∃ p ∈ ps, (l == p.l) = true ∧ m.getRight l = some p.r ∧ m.getLeftInner l = some (toL m.hb p).2 := by
  rcases h.probeL l with ⟨e, hn⟩ | ⟨p, qs, hq, hl, e⟩
  · refine .inl ⟨?_, hn⟩
    change m.left.get (m.hb.hl l) (fun x => l == x.value) = none at e
    simp only [getRight, getRightBy, e]
  · refine .inr ⟨p, hq.mem_iff.2 List.mem_cons_self, hl, ?_, e⟩
    have e2 := (h.perm hq).partnerR
    change m.left.get (m.hb.hl l) (fun x => l == x.value) = _ at e
    simp only [toL] at e
    rw [m.hb.hl_congr _ _ hl] at e
    simp only [getRight, getRightBy, m.hb.hl_congr _ _ hl, e, e2]; rfl

theorem getLeft_weak (h : Linked m ps) (r : R) :
    (m.getLeft r = none ∧ ∀ p ∈ ps, (r == p.r) = false) ∨ ∃ p ∈ ps, (r == p.r) = true ∧ m.getLeft r = some p.l := by
  rcases h.probeR r with ⟨e, hn⟩ | ⟨p, qs, hq, hr, e⟩
  · refine .inl ⟨?_, hn⟩
    change m.right.get (m.hb.hr r) (fun x => r == x.value) = none at e
    simp only [getLeft, getLeftBy, e]
  · refine .inr ⟨p, hq.mem_iff.2 List.mem_cons_self, hr, ?_⟩
    have e2 := (h.perm hq).partnerL
    change m.right.get (m.hb.hr r) (fun x => r == x.value) = _ at e
    simp only [toR] at e
    rw [m.hb.hr_congr _ _ hr] at e
    simp only [getLeft, getLeftBy, m.hb.hr_congr _ _ hr, e, e2]; rfl

/-- `Iter::next`: the left item with the partner of a match, or a panic if it does not even match itself -/
theorem next_weak (h : Linked m ps) {q : Rec L R} (hq : q ∈ ps) (rest : List (MappingPair L)) :
    ((∃ e, Iter.next ⟨(toL m.hb q).2 :: rest⟩ m = .error e) ∧ (q.l == q.l) = false) ∨
    ∃ p ∈ ps, (q.l == p.l) = true ∧ m.getLeftInner q.l = some (toL m.hb p).2 ∧
      Iter.next ⟨(toL m.hb q).2 :: rest⟩ m = .ok (some ((q.l, p.r), ⟨rest⟩)) := by
  rcases getRight_weak h q.l with ⟨e, hn⟩ | ⟨p, hp, hl, e, e'⟩
  · exact .inl ⟨⟨.unwrapNone, by simp [Iter.next, toL, e]⟩, hn q hq⟩
  · exact .inr ⟨p, hp, hl, e', by simp [Iter.next, toL, e]⟩

theorem collect_weak (h : Linked m ps) {qs} (hq : ∀ q ∈ qs, q ∈ ps) :
    ((∃ e, Iter.collect m (elemsL m.hb qs) = .error e) ∧ ∃ q ∈ ps, (q.l == q.l) = false) ∨
    ∃ d : List (L × R), Iter.collect m (elemsL m.hb qs) = .ok d ∧ d.map (·.1) = qs.map (·.l) ∧
      ∀ x ∈ d, ∃ p ∈ ps, (x.1 == p.l) = true ∧ x.2 = p.r := by
  induction qs with
  | nil => exact .inr ⟨[], rfl, rfl, by simp⟩
  | cons q qs ih =>
    have hqm := hq q (by simp)
    simp only [elemsL, List.map_cons, Iter.collect]
    rcases next_weak h hqm (qs.map fun q => (toL m.hb q).2) with ⟨⟨e, he⟩, hn⟩ | ⟨p, hp, hl, -, e⟩
    · exact .inl ⟨⟨e, by rw [he]; rfl⟩, q, hqm, hn⟩
    · rw [e]
      rcases ih fun x hx => hq x (List.mem_cons_of_mem _ hx) with ⟨⟨e', he'⟩, hn⟩ | ⟨d, e', h1, h2⟩
      · simp only [elemsL] at he'
        exact .inl ⟨⟨e', by simp only [bind, Except.bind, he']⟩, hn⟩
      · simp only [elemsL] at e'
        refine .inr ⟨(q.l, p.r) :: d, by simp only [bind, Except.bind, e']; rfl, by simp [h1], ?_⟩
        intro x hx
        rcases List.mem_cons.1 hx with rfl | hx
        · exact ⟨p, hp, hl, rfl⟩
        · exact h2 x hx

theorem Linked.ordered (h : Linked m ps) :
    ∃ qs, ps.Perm qs ∧ Linked m qs ∧ m.left.entries = qs.map (toL m.hb) := by
  obtain ⟨qs, hq, he⟩ := perm_map_inv h.left
  exact ⟨qs, hq, h.perm hq, he⟩

theorem todo_weak {qs} (he : m.left.entries = qs.map (toL m.hb)) : m.iter.todo = elemsL m.hb qs := by
  simp [iter, RawTable.toList, he, elemsL]

theorem iterLeft_weak (h : Linked m ps) : m.iterLeft.Perm ((ps.map Rec.pair).map (·.1)) := by
  have := (h.left.map (·.2)).map (·.value)
  simpa [iterLeft, RawTable.toList, Rec.pair, toL, Function.comp_def] using this

theorem iterRight_weak (h : Linked m ps) : m.iterRight.Perm ((ps.map Rec.pair).map (·.2)) := by
  have := (h.right.map (·.2)).map (·.value)
  simpa [iterRight, RawTable.toList, Rec.pair, toR, Function.comp_def] using this

theorem len_weak (h : Linked m ps) : m.len = (ps.map Rec.pair).length := by
  rw [len, RawTable.len, h.left.length_eq]; simp

/-! ### retain -/

theorem retainScan_weak {σ : Type} (h : Linked m ps) (f : σ → L → R → Bool × σ) {qs} (hq : ∀ q ∈ qs, q ∈ ps) (s : σ) :
    ((∃ e, m.retainScan f (elemsL m.hb qs) s = .error e) ∧ ∃ q ∈ ps, (q.l == q.l) = false) ∨
    ∃ (ds : List (Rec L R)) (xs : List (L × R)) (s' : σ), m.retainScan f (elemsL m.hb qs) s = .ok (ds.map (keyOf m.hb), s') ∧
      xs.map (·.1) = qs.map (·.l) ∧ (∀ x ∈ xs, ∃ p ∈ ps, ShownFrom x p.pair) ∧
      (∀ p ∈ ds, p ∈ ps ∧ ∃ x ∈ (split (fun s p => f s p.1 p.2) xs s).2.1, ShownFrom x p.pair) ∧
      ∀ x ∈ (split (fun s p => f s p.1 p.2) xs s).2.1, ∃ p ∈ ds, ShownFrom x p.pair := by
  induction qs generalizing s with
  | nil => exact .inr ⟨[], [], s, rfl, rfl, by simp, by simp, by simp [split]⟩
  | cons q qs ih =>
    have ih := fun s => ih (fun x hx => hq x (List.mem_cons_of_mem _ hx)) s
    have hqm := hq q (by simp)
    simp only [elemsL, List.map_cons, retainScan] at ih ⊢
    rcases next_weak h hqm (qs.map fun q => (toL m.hb q).2) with ⟨⟨e, he⟩, hn⟩ | ⟨p, hp, hl, ei, e⟩
    · exact .inl ⟨⟨e, by rw [he]; rfl⟩, q, hqm, hn⟩
    · rw [e]
      cases hf : f s q.l p.r with
      | mk b s' =>
        cases b with
        | true =>
          simp only [bind, Except.bind, hf]
          rcases ih s' with hbad | ⟨ds, xs, s'', e', h1, h2, h3, h4⟩
          · exact .inl hbad
          · refine .inr ⟨ds, (q.l, p.r) :: xs, s'', e', by simp [h1], ?_, ?_, ?_⟩
            · intro x hx
              rcases List.mem_cons.1 hx with rfl | hx
              · exact ⟨p, hp, hl, rfl⟩
              · exact h2 x hx
            · simpa only [split, hf] using h3
            · simpa only [split, hf] using h4
        | false =>
          simp only [bind, Except.bind, hf, ei]
          rcases ih s' with ⟨⟨e', he'⟩, hn⟩ | ⟨ds, xs, s'', e', h1, h2, h3, h4⟩
          · exact .inl ⟨⟨e', by rw [he']⟩, hn⟩
          · refine .inr ⟨p :: ds, (q.l, p.r) :: xs, s'', ?_, by simp [h1], ?_, ?_, ?_⟩
            · rw [e']; simp only [List.map_cons, keyOf, toL, m.hb.hl_congr _ _ hl]; rfl
            · intro x hx
              rcases List.mem_cons.1 hx with rfl | hx
              · exact ⟨p, hp, hl, rfl⟩
              · exact h2 x hx
            · intro x hx
              simp only [split, hf]
              rcases List.mem_cons.1 hx with rfl | hx
              · exact ⟨hp, _, List.mem_cons_self, hl, rfl⟩
              · obtain ⟨h5, y, hy, h6⟩ := h3 x hx
                exact ⟨h5, y, List.mem_cons_of_mem _ hy, h6⟩
            · intro x hx
              simp only [split, hf] at hx
              rcases List.mem_cons.1 hx with rfl | hx
              · exact ⟨p, List.mem_cons_self, hl, rfl⟩
              · obtain ⟨y, hy, h6⟩ := h4 x hx
                exact ⟨y, List.mem_cons_of_mem _ hy, h6⟩

theorem removeViaHashesAndId_weak (h : Linked m ps) (p : Rec L R) (hp : p ∈ ps ∨ ∀ q ∈ ps, p.id ≠ q.id) :
    ∃ o m' qs, m.removeViaHashesAndId (m.hb.hl p.l) (m.hb.hr p.r) p.id = .ok (o, m') ∧ Linked m' qs ∧ m'.hb = m.hb ∧
      (ps.Perm (p :: qs) ∨ (qs = ps ∧ p ∉ ps)) := by
  rcases hp with hp | hp
  · obtain ⟨qs, hq⟩ := perm_cons_of_mem hp
    have h2 := h.perm hq
    obtain ⟨tl, e1, h1⟩ := h2.removeL h2.partnerL
    obtain ⟨tr, e2, h3⟩ := h2.removeR h2.partnerR
    exact ⟨some p.pair, _, qs, by simp only [removeViaHashesAndId, e1, e2]; rfl, h2.dropped h1 h3, rfl, .inl hq⟩
  · refine ⟨none, m, ps, ?_, h, rfl, .inr ⟨rfl, fun hin => hp p hin rfl⟩⟩
    have : m.left.removeEntry (m.hb.hl p.l) (hashAndId (m.hb.hr p.r) p.id) = none := by
      refine RawTable.removeEntry_none fun e he => ?_
      obtain ⟨q, hq, rfl⟩ := List.mem_map.1 (h.left.mem_iff.1 he)
      exact hashAndId_ne (hp q hq)
    simp only [removeViaHashesAndId, this]

/-- the second loop takes out the records it was given, and nothing else -/
theorem retainDrop_weak {all : List (Rec L R)} (hall : all.Pairwise (·.id ≠ ·.id)) {gone ds : List (Rec L R)}
    (h : Linked m ps) (hp : all.Perm (ps ++ gone)) (hd : ∀ p ∈ ds, p ∈ all) :
    ∃ m' qs more, m.retainDrop (ds.map (keyOf m.hb)) = .ok m' ∧ Linked m' qs ∧ m'.hb = m.hb ∧
      all.Perm (qs ++ (more ++ gone)) ∧ (∀ p ∈ more, p ∈ ds) ∧ ∀ p ∈ ds, p ∈ more ++ gone := by
  induction ds generalizing m ps gone with
  | nil => exact ⟨m, ps, [], rfl, h, rfl, by simpa using hp, by simp, by simp⟩
  | cons p ds ih =>
    have hcase : p ∈ ps ∨ ∀ q ∈ ps, p.id ≠ q.id := by
      by_cases hm : p ∈ ps
      · exact .inl hm
      · refine .inr fun q hq he => ?_
        have hq' : q ∈ all := hp.mem_iff.2 (List.mem_append_left _ hq)
        have hp' : p ∈ all := hd p (by simp)
        obtain ⟨rest, hr⟩ := perm_cons_of_mem hp'
        rcases List.mem_cons.1 (hr.mem_iff.1 hq') with rfl | hx
        · exact hm hq
        · exact (List.pairwise_cons.1 ((hr.pairwise_iff (fun h => Ne.symm h)).1 hall)).1 q hx he
    obtain ⟨o, m1, q1, e1, h1, hb1, hor⟩ := removeViaHashesAndId_weak h p hcase
    rcases hor with hperm | ⟨rfl, hno⟩
    · obtain ⟨m2, q2, more, e2, h2, hb2, hp2, hm2, hd2⟩ := ih (gone := p :: gone) h1
        (hp.trans ((hperm.append_right gone).trans List.perm_middle.symm)) fun x hx => hd x (List.mem_cons_of_mem _ hx)
      refine ⟨m2, q2, more ++ [p], ?_, h2, hb2.trans hb1, by simpa using hp2, ?_, ?_⟩
      · rw [hb1] at e2
        simp only [List.map_cons, keyOf, retainDrop, e1, bind, Except.bind]; exact e2
      · intro x hx
        rcases List.mem_append.1 hx with hx | hx
        · exact List.mem_cons_of_mem _ (hm2 x hx)
        · simp at hx; simp [hx]
      · intro x hx
        rcases List.mem_cons.1 hx with rfl | hx
        · simp
        · simpa using hd2 x hx
    · obtain ⟨m2, q2, more, e2, h2, hb2, hp2, hm2, hd2⟩ := ih h1 hp fun x hx => hd x (List.mem_cons_of_mem _ hx)
      refine ⟨m2, q2, more, ?_, h2, hb2.trans hb1, hp2, fun x hx => List.mem_cons_of_mem _ (hm2 x hx), fun x hx => ?_⟩
      · rw [hb1] at e2
        simp only [List.map_cons, keyOf, retainDrop, e1, bind, Except.bind]; exact e2
      · rcases List.mem_cons.1 hx with rfl | hx
        · rcases List.mem_append.1 (hp.mem_iff.1 (hd x (by simp))) with hin | hin
          · exact absurd hin hno
          · exact List.mem_append_right _ hin
        · exact hd2 x hx

theorem retain_weak {σ : Type} (h : Linked m ps) (f : σ → L → R → Bool × σ) (s : σ) :
    ((∃ e, m.retain f s = .error e) ∧ ∃ q ∈ ps, (q.l == q.l) = false) ∨
    ∃ s' m' qs ds xs, m.retain f s = .ok (s', m') ∧ Linked m' qs ∧ m'.hb = m.hb ∧ ps.Perm (qs ++ ds) ∧
      Seen (ps.map Rec.pair) xs ∧
      (∀ p ∈ ds, ∃ x ∈ (split (fun s p => f s p.1 p.2) xs s).2.1, ShownFrom x p.pair) ∧
      ∀ x ∈ (split (fun s p => f s p.1 p.2) xs s).2.1, ∃ p ∈ ds, ShownFrom x p.pair := by
  obtain ⟨qs, hq, h1, he⟩ := h.ordered
  rcases retainScan_weak h1 f (fun q hq => hq) s with ⟨⟨e, he'⟩, q, hq', hn⟩ | ⟨ds, xs, s', e, hx1, hx2, hds, hxs⟩
  · exact .inl ⟨⟨e, by rw [retain, todo_weak he, he']; rfl⟩, q, hq.mem_iff.2 hq', hn⟩
  · obtain ⟨m', q2, more, e2, h2, hb2, hp2, hm, hd⟩ :=
      retainDrop_weak (gone := []) h1.ids h1 (by simp) fun p hp => (hds p hp).1
    refine .inr ⟨s', m', q2, more, xs, ?_, h2, hb2, hq.trans (by simpa using hp2), ⟨?_, fun x hx => ?_⟩, fun p hp => (hds p (hm p hp)).2,
      fun x hx => ?_⟩
    · rw [retain, todo_weak he, e]
      simp only [bind, Except.bind, e2]; rfl
    · rw [hx1]; simpa [Rec.pair, Function.comp_def] using (hq.map (·.l)).symm
    · obtain ⟨p, hp, hs⟩ := hx2 x hx
      exact ⟨p.pair, List.mem_map.2 ⟨p, hq.mem_iff.2 hp, rfl⟩, hs⟩
    · obtain ⟨p, hp, hs⟩ := hxs x hx
      exact ⟨p, by simpa using hd p hp, hs⟩

/-! ### drain and drain_filter -/

theorem drainTake_weak (h : Linked m ps) {n : Nat} (hn : ps.length ≤ n) :
    ∃ (d : List (L × R)) (m' : CycleMap L R), d.Perm (ps.map Rec.pair) ∧ m.drainTake n = .ok (d, m') ∧ Linked m' [] ∧
      m'.hb = m.hb := by
  obtain ⟨qs, hq, h1, he⟩ := h.ordered
  obtain ⟨t', e, ht'⟩ := drain_take (hb := m.hb) n h1.right h1.ids
  have hlen : qs.length ≤ n := by rw [← hq.length_eq]; exact hn
  have hd : m.drain = ⟨elemsL m.hb qs, m.right⟩ := by simp [drain, RawTable.toList, he, elemsL]
  rw [List.take_of_length_le hlen] at e
  rw [List.drop_eq_nil_of_le hlen] at ht' e
  refine ⟨qs.map Rec.pair, { m with counter := 0, left := m.left.clear, right := t' }, (hq.map _).symm, ?_, ⟨?_, ?_, .nil, by simp⟩, rfl⟩
  · simp only [drainTake, hd, e, bind, Except.bind]; rfl
  · rw [RawTable.clear_entries]; exact .refl _
  · simpa using ht'

theorem drainFilterTake_weak {σ : Type} (h : Linked m ps) (f : σ → L → R → Bool × σ) (s : σ) (n : Nat) :
    ∃ (qs : List (Rec L R)) (m' : CycleMap L R), ps.Perm qs ∧
      m.drainFilterTake f s n = .ok (((split (onRec f) qs s).1.take n).map Rec.pair, (split (onRec f) qs s).2.2, m') ∧
      Linked m' (split (onRec f) qs s).2.1 ∧ m'.hb = m.hb := by
  obtain ⟨qs, hq, h1, he⟩ := h.ordered
  obtain ⟨a1, a2, t1, hqa, e1, hp1, hle, hor⟩ :=
    drainFilter_take (hb := m.hb) f n (ks := []) (qs := qs) (t := m.right) s (by simpa using h1.right) (by simpa using h1.ids)
  have hperm := split_perm (onRec f) a1 s
  have hsub : ((split (onRec f) a1 s).2.1 ++ a2).Pairwise (·.id ≠ ·.id) := by
    have : qs.Perm ((split (onRec f) a1 s).1 ++ ((split (onRec f) a1 s).2.1 ++ a2)) := by
      rw [hqa, ← List.append_assoc]; exact hperm.append_right a2
    exact (List.pairwise_append.1 ((this.pairwise_iff (fun h => Ne.symm h)).1 h1.ids)).2.1
  obtain ⟨b1, b2, t2, hq2, e2, hp2, hle2, hor2⟩ :=
    drainFilter_take (hb := m.hb) f ((a2.map (toL m.hb)).length + 1) (split (onRec f) a1 s).2.2 hp1 (by simpa using hsub)
  have hb2 : b2 = [] := by
    rcases hor2 with h | h
    · exfalso
      have h3 := (split_perm (onRec f) b1 (split (onRec f) a1 s).2.2).length_eq
      have h4 : a2.length = b1.length + b2.length := by rw [hq2]; simp
      simp at h h3; omega
    · exact h
  subst hb2
  simp only [List.append_nil] at hq2
  subst hq2
  have hsp := split_append (onRec f) a1 a2 s
  rw [← hqa] at hsp
  have htake : ((split (onRec f) qs s).1.take n) = (split (onRec f) a1 s).1 := by
    rw [hsp]
    rcases hor with h | h
    · rw [← h]; simp
    · subst h; simp [split, List.take_of_length_le hle]
  have hall := split_perm (onRec f) qs s
  refine ⟨qs, { m with
    left := RawImpl.touch (.erase (stays m.left ((split (onRec f) qs s).2.1.map (toL m.hb)))) { m.left with entries := (split (onRec f) qs s).2.1.map (toL m.hb) },
    right := t2 }, hq, ?_, ⟨LawfulRaw.touch_perm _ _, ?_, ?_, ?_⟩, rfl⟩
  · simp only [List.map_nil] at e1
    simp only [drainFilterTake, he, e1, bind, Except.bind, e2, pure, Except.pure]
    congr 1
    rw [htake, hsp]
    simp
  · refine hp2.trans ?_
    rw [hsp]; simp
  · exact (List.pairwise_append.1 ((hall.pairwise_iff (fun h => Ne.symm h)).1 h1.ids)).2.1
  · intro p hpm
    exact h1.bound p (hall.mem_iff.2 (List.mem_append_right _ hpm))

/-! ### Construction, capacity, clone -/

theorem withCapacity_weak (n : Nat) (hb : BuildHasher L R) : Linked (withCapacityAndHasher n hb) [] := by
  refine ⟨?_, ?_, .nil, by simp⟩ <;> simp [withCapacityAndHasher, RawTable.withCapacity_entries]

theorem clear_weak (m : CycleMap L R) : Linked m.clear [] := by
  refine ⟨?_, ?_, .nil, by simp⟩ <;> simp [clear, RawTable.clear_entries]

theorem Linked.of_tables (h : Linked m ps) {left' : RawTable (MappingPair L)} {right' : RawTable (MappingPair R)}
    (hl : left'.entries.Perm m.left.entries) (hr : right'.entries.Perm m.right.entries) :
    Linked { m with left := left', right := right' } ps :=
  ⟨hl.trans h.left, hr.trans h.right, h.ids, h.bound⟩

theorem clone_weak (h : Linked m ps) {cl : L → L} {cr : R → R} (hl : ∀ x, (cl x == x) = true)
    (hr : ∀ x, (cr x == x) = true) : Linked (m.clone cl cr) (ps.map fun p => ⟨cl p.l, cr p.r, p.id⟩) := by
  have hbl : ∀ x, m.hb.hl (cl x) = m.hb.hl x := fun x => m.hb.hl_congr _ _ (hl x)
  have hbr : ∀ x, m.hb.hr (cr x) = m.hb.hr x := fun x => m.hb.hr_congr _ _ (hr x)
  refine ⟨?_, ?_, ?_, ?_⟩
  · refine (h.left.map _).trans ?_
    simp [clone, toL, Function.comp_def, MappingPair.clone, hbl, hbr]
  · refine (h.right.map _).trans ?_
    simp [clone, toR, Function.comp_def, MappingPair.clone, hbl, hbr]
  · rw [List.pairwise_map]; exact h.ids
  · intro p hp
    obtain ⟨q, hq, rfl⟩ := List.mem_map.1 hp
    exact h.bound q hq

theorem Linked.links (h : Linked m ps) : Links m (ps.map Rec.pair) where
  len := len_weak h
  iterLeft := iterLeft_weak h
  iterRight := iterRight_weak h
  drain n hn := by
    obtain ⟨d, m', hd, e, h', -⟩ := drainTake_weak (n := n) h (by simpa using hn)
    exact ⟨d, m', e, hd, List.perm_nil.1 (iterLeft_weak h'), List.perm_nil.1 (iterRight_weak h')⟩

/-! ### All calls -/

theorem exec_weak (h : Linked m ps) (op : Op L R) (hs : Sane (ps.map Rec.pair) op) :
    (∃ o m' qs, m.exec op = .ok (o, m') ∧ CycleWeak.Step (ps.map Rec.pair) op o (qs.map Rec.pair) ∧ Linked m' qs) ∨
    ((∃ e, m.exec op = .error e) ∧ ¬ Calm (ps.map Rec.pair) op) := by
  cases op with
  | insert l r =>
    obtain ⟨o₁, o₂, m', qs, e, s, h', -⟩ := insert_weak h l r
    exact .inl ⟨_, m', qs, by simp only [exec, e, bind, Except.bind]; rfl, ⟨o₁, o₂, s, rfl⟩, h'⟩
  | remove l r =>
    rcases arePaired_weak h l r with ⟨e, p, qs, hq, hl, hr, e'⟩ | ⟨e, hu⟩
    · obtain ⟨m', e2, h', -⟩ := removeViaLeft_hit (h.perm hq) hl e'
      exact .inl ⟨_, m', qs, by simp only [exec, remove, e, if_true, e2, bind, Except.bind]; rfl,
        .inl ⟨p.pair, rfl, hl, hr, hq.map _⟩, h'⟩
    · exact .inl ⟨.pair none, m, ps, by simp [exec, remove, e, bind, Except.bind, pure, Except.pure],
        .inr ⟨rfl, hu, .refl _⟩, h⟩
  | removeViaLeft l =>
    obtain ⟨o, m', qs, e, s, h', -⟩ := removeViaLeft_weak h l
    exact .inl ⟨_, m', qs, by simp only [exec, e, bind, Except.bind]; rfl, ⟨o, s, rfl⟩, h'⟩
  | removeViaRight r =>
    obtain ⟨o, m', qs, e, s, h', -⟩ := removeViaRight_weak h r
    exact .inl ⟨_, m', qs, by simp only [exec, e, bind, Except.bind]; rfl, ⟨o, s, rfl⟩, h'⟩
  | swapLeft old new =>
    obtain ⟨o, m', qs, e, s, h', -⟩ := swapLeft_weak h old new
    exact .inl ⟨_, m', qs, by simp only [exec, e, bind, Except.bind]; rfl, ⟨o, s, rfl⟩, h'⟩
  | swapLeftChecked old x new =>
    rcases arePaired_weak h old x with ⟨e, p, qs, hq, hl, hr, -⟩ | ⟨e, hu⟩
    · obtain ⟨o, m', qs', e', s, h', -⟩ := swapLeft_weak h old new
      exact .inl ⟨.swappedLeft o, m', qs', by simp [exec, swapLeftChecked, e, e', bind, Except.bind, pure, Except.pure],
        .inl ⟨paired_map hq hl hr, o, s, rfl⟩, h'⟩
    · exact .inl ⟨.swappedLeft neither, m, ps, by simp [exec, swapLeftChecked, e, bind, Except.bind, pure, Except.pure],
        .inr ⟨hu, rfl, .refl _⟩, h⟩
  | swapLeftOrInsert old new r =>
    rcases h.probeL old with ⟨e, hn⟩ | ⟨p, qs, hq, hl, e⟩
    · obtain ⟨o₁, o₂, m', qs, e', s, h', -⟩ := insert_weak h new r
      exact .inl ⟨.swappedLeft ((ofPair (o₁, o₂)).mapLeft (·.1)), m', qs,
        by simp [exec, swapLeftOrInsert, e, e', bind, Except.bind, pure, Except.pure],
        .inr ⟨noL_map.2 hn, o₁, o₂, s, rfl⟩, h'⟩
    · obtain ⟨o, m', qs', e', s, h', -⟩ := swapLeft_weak h old new
      refine .inl ⟨.swappedLeft o, m', qs', by simp [exec, swapLeftOrInsert, e, e', bind, Except.bind, pure, Except.pure],
        .inl ⟨fun hn => ?_, o, s, rfl⟩, h'⟩
      rw [noL_map.1 hn p (hq.mem_iff.2 List.mem_cons_self)] at hl; cases hl
  | swapRight old new =>
    obtain ⟨o, m', qs, e, s, h', -⟩ := swapRight_weak h old new
    exact .inl ⟨_, m', qs, by simp only [exec, e, bind, Except.bind]; rfl, ⟨o, s, rfl⟩, h'⟩
  | swapRightChecked old x new =>
    rcases arePaired_weak h x old with ⟨e, p, qs, hq, hl, hr, -⟩ | ⟨e, hu⟩
    · obtain ⟨o, m', qs', e', s, h', -⟩ := swapRight_weak h old new
      exact .inl ⟨.swappedRight o, m', qs', by simp [exec, swapRightChecked, e, e', bind, Except.bind, pure, Except.pure],
        .inl ⟨paired_map hq hl hr, o, s, rfl⟩, h'⟩
    · exact .inl ⟨.swappedRight neither, m, ps, by simp [exec, swapRightChecked, e, bind, Except.bind, pure, Except.pure],
        .inr ⟨hu, rfl, .refl _⟩, h⟩
  | swapRightOrInsert old new l =>
    rcases h.probeR old with ⟨e, hn⟩ | ⟨p, qs, hq, hr, e⟩
    · obtain ⟨o₁, o₂, m', qs, e', s, h', -⟩ := insert_weak h l new
      cases o₁ with
      | none =>
        refine .inl ⟨.swappedRight (ofPair (none, o₂)), m', qs, ?_, .inr ⟨noR_map.2 hn, o₂, s, rfl⟩, h'⟩
        cases o₂ <;> simp [exec, swapRightOrInsert, e, e', ofPair, bind, Except.bind, pure, Except.pure]
      | some x =>
        refine .inr ⟨⟨.unreachable, ?_⟩, ?_⟩
        · cases o₂ <;> simp [exec, swapRightOrInsert, e, e', ofPair, bind, Except.bind]
        · rintro (hc | hc)
          · exact hc (noR_map.2 hn)
          · obtain ⟨c₁, c₂, ht, -⟩ := s
            rcases ht with ⟨hx, -⟩ | ⟨y, -, hy, hp⟩
            · cases hx
            · rw [hc y (hp.mem_iff.2 List.mem_cons_self)] at hy; cases hy
    · obtain ⟨o, m', qs', e', s, h', -⟩ := swapRight_weak h old new
      refine .inl ⟨.swappedRight o, m', qs', by simp [exec, swapRightOrInsert, e, e', bind, Except.bind, pure, Except.pure],
        .inl ⟨fun hn => ?_, o, s, rfl⟩, h'⟩
      rw [noR_map.1 hn p (hq.mem_iff.2 List.mem_cons_self)] at hr; cases hr
  | getLeft r =>
    refine .inl ⟨_, m, ps, rfl, ⟨?_, .refl _⟩, h⟩
    rcases getLeft_weak h r with ⟨e, hn⟩ | ⟨p, hp, hr, e⟩ <;> rw [e]
    · exact .inl ⟨noR_map.2 hn, rfl⟩
    · exact .inr ⟨p.pair, List.mem_map.2 ⟨p, hp, rfl⟩, hr, rfl⟩
  | getRight l =>
    refine .inl ⟨_, m, ps, rfl, ⟨?_, .refl _⟩, h⟩
    rcases getRight_weak h l with ⟨e, hn⟩ | ⟨p, hp, hl, e, -⟩ <;> rw [e]
    · exact .inl ⟨noL_map.2 hn, rfl⟩
    · exact .inr ⟨p.pair, List.mem_map.2 ⟨p, hp, rfl⟩, hl, rfl⟩
  | containsLeft l => exact .inl ⟨_, m, ps, rfl, ⟨by rw [containsLeft_weak h], .refl _⟩, h⟩
  | containsRight r => exact .inl ⟨_, m, ps, rfl, ⟨by rw [containsRight_weak h], .refl _⟩, h⟩
  | arePaired l r =>
    refine .inl ⟨_, m, ps, rfl, ⟨?_, .refl _⟩, h⟩
    rcases arePaired_weak h l r with ⟨e, p, qs, hq, hl, hr, -⟩ | ⟨e, hu⟩ <;> rw [e]
    · exact .inl ⟨paired_map hq hl hr, rfl⟩
    · exact .inr ⟨hu, rfl⟩
  | len => exact .inl ⟨_, m, ps, rfl, ⟨by rw [len_weak h], .refl _⟩, h⟩
  | isEmpty =>
    refine .inl ⟨_, m, ps, rfl, ⟨?_, .refl _⟩, h⟩
    rw [isEmpty, len_weak h]; cases ps <;> rfl
  | clear => exact .inl ⟨_, _, [], rfl, ⟨rfl, rfl⟩, clear_weak m⟩
  | iter =>
    obtain ⟨qs, hq, h1, he⟩ := h.ordered
    rcases collect_weak h1 (fun q hq => hq) with ⟨⟨e, he'⟩, q, hqm, hn⟩ | ⟨d, e, h2, h3⟩
    · refine .inr ⟨⟨e, by simp only [exec, iterList, todo_weak he, he', bind, Except.bind]⟩, fun hc => ?_⟩
      have := hc q.pair (List.mem_map.2 ⟨q, hq.mem_iff.2 hqm, rfl⟩)
      simp only [Rec.pair] at this
      rw [hn] at this; cases this
    · refine .inl ⟨.pairs d, m, ps, by simp only [exec, iterList, todo_weak he, e, bind, Except.bind]; rfl,
        ⟨⟨d, ⟨?_, fun x hx => ?_⟩, rfl⟩, .refl _⟩, h⟩
      · rw [h2]; simpa [Rec.pair, Function.comp_def] using (hq.map (·.l)).symm
      · obtain ⟨p, hp, h4, h5⟩ := h3 x hx
        exact ⟨p.pair, List.mem_map.2 ⟨p, hq.mem_iff.2 hp, rfl⟩, h4, h5⟩
  | iterLeft => exact .inl ⟨_, m, ps, rfl, ⟨⟨_, iterLeft_weak h, rfl⟩, .refl _⟩, h⟩
  | iterRight => exact .inl ⟨_, m, ps, rfl, ⟨⟨_, iterRight_weak h, rfl⟩, .refl _⟩, h⟩
  | drain n =>
    have hn : (ps.map Rec.pair).length ≤ n := hs
    obtain ⟨d, m', hd, e, h', -⟩ := drainTake_weak (n := n) h (by simpa using hn)
    exact .inl ⟨.pairs d, m', [], by simp only [exec, e, bind, Except.bind]; rfl, ⟨hn, d, hd, rfl, rfl⟩, h'⟩
  | drainFilter σ f s n =>
    obtain ⟨qs, m', hq, e, h', -⟩ := drainFilterTake_weak h f s n
    refine .inl ⟨_, m', _, by simp only [exec, e, bind, Except.bind]; rfl, ⟨qs.map Rec.pair, (hq.map _).symm, ?_, ?_⟩, h'⟩
    · rw [show (fun s (p : L × R) => f s p.1 p.2) = onPair f from rfl, split_map]
      simp
    · rw [show (fun s (p : L × R) => f s p.1 p.2) = onPair f from rfl, split_map]
  | drainFilterAll σ f s =>
    obtain ⟨qs, m', hq, e, h', -⟩ := drainFilterTake_weak h f s (m.len + 1)
    refine .inl ⟨_, m', _, by simp only [exec, e, bind, Except.bind]; rfl, ⟨qs.map Rec.pair, (hq.map _).symm, ?_, ?_⟩, h'⟩
    · rw [show (fun s (p : L × R) => f s p.1 p.2) = onPair f from rfl, split_map, List.take_of_length_le]
      have h1 := (split_perm (onRec f) qs s).length_eq
      have h2 := hq.length_eq
      have h3 := len_weak h
      simp at h1 h3; omega
    · rw [show (fun s (p : L × R) => f s p.1 p.2) = onPair f from rfl, split_map]
  | retain σ f s =>
    rcases retain_weak h f s with ⟨⟨e, he⟩, q, hq, hn⟩ | ⟨s', m', qs, ds, xs, e, h', -, hp, hs, hd, hx⟩
    · refine .inr ⟨⟨e, by simp only [exec, he, bind, Except.bind]⟩, fun hc => ?_⟩
      have := hc q.pair (List.mem_map.2 ⟨q, hq, rfl⟩)
      simp only [Rec.pair] at this
      rw [hn] at this; cases this
    · refine .inl ⟨.unit, m', qs, by simp only [exec, e, bind, Except.bind]; rfl,
        ⟨rfl, xs, ds.map Rec.pair, hs, by simpa using hp.map Rec.pair, fun p hp => ?_, fun x hxm => ?_⟩, h'⟩
      · obtain ⟨q, hq, rfl⟩ := List.mem_map.1 hp
        exact hd q hq
      · obtain ⟨q, hq, h1⟩ := hx x hxm
        exact ⟨q.pair, List.mem_map.2 ⟨q, hq, rfl⟩, h1⟩
  | extend xs =>
    obtain ⟨m', qs, e, s, h', -⟩ := extend_weak h xs
    exact .inl ⟨.unit, m', qs, by simp only [exec, e, bind, Except.bind]; rfl, ⟨rfl, s⟩, h'⟩
  | reserve n =>
    exact .inl ⟨_, _, ps, rfl, ⟨rfl, .refl _⟩, h.of_tables (RawTable.reserve_perm _ _ h.hashL) (RawTable.reserve_perm _ _ h.hashR)⟩
  | tryReserve n a b =>
    refine .inl ⟨_, _, ps, rfl, ⟨?_, .refl _⟩, ?_⟩
    · cases a <;> cases b <;> rfl
    · cases a <;> cases b <;> simp only [tryReserve]
      · exact h
      · exact h
      · exact h.of_tables (right' := m.right) (RawTable.reserve_perm _ _ h.hashL) (.refl _)
      · exact h.of_tables (RawTable.reserve_perm _ _ h.hashL) (RawTable.reserve_perm _ _ h.hashR)
  | shrinkTo n =>
    exact .inl ⟨_, _, ps, rfl, ⟨rfl, .refl _⟩, h.of_tables (RawTable.shrinkTo_perm _ _ h.hashL) (RawTable.shrinkTo_perm _ _ h.hashR)⟩
  | shrinkToFit =>
    exact .inl ⟨_, _, ps, rfl, ⟨rfl, .refl _⟩, h.of_tables (RawTable.shrinkTo_perm _ _ h.hashL) (RawTable.shrinkTo_perm _ _ h.hashR)⟩
  | clone cl cr =>
    refine .inl ⟨_, _, _, rfl, ⟨rfl, ?_⟩, clone_weak h hs.1 hs.2⟩
    simp [Rec.pair, Function.comp_def]

/-- a history that is certain not to panic -/
theorem run_weak (h : Linked m ps) {ops : List (Op L R)} (hs : CalmRun (ps.map Rec.pair) ops) :
    ∃ os m' qs, m.run ops = .ok (os, m') ∧ CycleWeak.Steps (ps.map Rec.pair) ops os (qs.map Rec.pair) ∧ Linked m' qs := by
  induction ops generalizing m ps with
  | nil => exact ⟨[], m, ps, rfl, ⟨rfl, .refl _⟩, h⟩
  | cons op ops ih =>
    obtain ⟨⟨h1, h2⟩, h3⟩ := hs
    rcases exec_weak h op h1 with ⟨o, m1, q1, e1, s1, k1⟩ | ⟨-, hc⟩
    · obtain ⟨os, m2, q2, e2, s2, k2⟩ := ih k1 (h3 _ _ s1)
      exact ⟨o :: os, m2, q2, by simp only [run, e1, e2, bind, Except.bind]; rfl, ⟨o, os, _, rfl, s1, s2⟩, k2⟩
    · exact absurd h2 hc

/-- a history that returned -/
theorem run_weak_ok (h : Linked m ps) {ops : List (Op L R)} (hs : SaneRun (ps.map Rec.pair) ops) {os m'}
    (e : m.run ops = .ok (os, m')) :
    ∃ qs, CycleWeak.Steps (ps.map Rec.pair) ops os (qs.map Rec.pair) ∧ Linked m' qs := by
  induction ops generalizing m ps os with
  | nil => cases e; exact ⟨ps, ⟨rfl, .refl _⟩, h⟩
  | cons op ops ih =>
    obtain ⟨h1, h3⟩ := hs
    rcases exec_weak h op h1 with ⟨o, m1, q1, e1, s1, k1⟩ | ⟨⟨x, hx⟩, -⟩
    · simp only [run, e1, bind, Except.bind] at e
      cases e2 : m1.run ops with
      | error x => rw [e2] at e; cases e
      | ok y =>
        rw [e2] at e; cases e
        obtain ⟨q2, s2, k2⟩ := ih k1 (h3 _ _ s1) e2
        exact ⟨q2, ⟨o, _, _, rfl, s1, s2⟩, k2⟩
    · simp only [run, hx, bind, Except.bind] at e; cases e

end Verif.CycleMap
