import Verif.PartialMap.Weak
/-! `PartialCycleMap` with a `==` that is any relation the hash agrees with: swaps, lookups and iteration. -/
set_option linter.unusedSectionVars false
set_option linter.unusedSimpArgs false
namespace Verif.PartialMap
open PartialSpec PartialWeak OptionalPair
open CycleMap (eq_false_of_ne_true' removeEntry_of_get_none get_removeEntry)

variable [RawImpl] [LawfulRaw] {L R : Type} [BEq L] [BEq R]
variable {m : PartialMap L R} {p q : Rec L R} {ps qs : List (Rec L R)} {l : L} {r : R}

/-! ### Swaps -/

theorem swapLeftEqCheck_weak (h : Linked m ps) (old new : L) :
    ∃ eq m' qs, m.swapLeftEqCheck old new (m.hb.hl new) = .ok (eq, m') ∧
      (if new == old then eq = neither ∧ (ents qs).Perm (ents ps) else TakeL (ents ps) new eq (ents qs)) ∧
      Linked m' qs ∧ m'.hb = m.hb := by
  obtain ⟨o, m1, q1, e1, t1, h1, hb1, -⟩ := removeViaLeft_weak h new
  cases hno : new == old
  · rcases h.probeL new with ⟨e, hn⟩ | ⟨p, qs, x, hq, hl, hx, e⟩
    · refine ⟨neither, m, ps, by simp [swapLeftEqCheck, e], ?_, h, rfl⟩
      simp only [Bool.false_eq_true, if_false]
      exact .inl ⟨rfl, noL_ents.2 hn, .refl _⟩
    · refine ⟨o, m1, q1, ?_, by simpa using t1, h1, hb1⟩
      simp [swapLeftEqCheck, e, bne, hno, e1]
  · exact ⟨neither, m, ps, by simp [swapLeftEqCheck, bne, hno], by simp, h, rfl⟩

theorem swapRightEqCheck_weak (h : Linked m ps) (old new : R) :
    ∃ eq m' qs, m.swapRightEqCheck old new (m.hb.hr new) = .ok (eq, m') ∧
      (if new == old then eq = neither ∧ (ents qs).Perm (ents ps) else TakeR (ents ps) new eq (ents qs)) ∧
      Linked m' qs ∧ m'.hb = m.hb := by
  obtain ⟨o, m1, q1, e1, t1, h1, hb1, -⟩ := removeViaRight_weak h new
  cases hno : new == old
  · rcases h.probeR new with ⟨e, hn⟩ | ⟨p, qs, x, hq, hl, hx, e⟩
    · refine ⟨neither, m, ps, by simp [swapRightEqCheck, e], ?_, h, rfl⟩
      simp only [Bool.false_eq_true, if_false]
      exact .inl ⟨rfl, noR_ents.2 hn, .refl _⟩
    · refine ⟨o, m1, q1, ?_, by simpa using t1, h1, hb1⟩
      simp [swapRightEqCheck, e, bne, hno, e1]
  · exact ⟨neither, m, ps, by simp [swapRightEqCheck, bne, hno], by simp, h, rfl⟩

theorem swapLeft_weak (h : Linked m ps) (old new : L) :
    ∃ o m' qs, m.swapLeft old new = .ok (o, m') ∧ SwapL (ents ps) old new o (ents qs) ∧ Linked m' qs ∧ m'.hb = m.hb := by
  obtain ⟨eq, m1, q1, e1, s1, h1, hb1⟩ := swapLeftEqCheck_weak h old new
  rcases h1.probeL old with ⟨e, hn⟩ | ⟨p, qs, x, hq, hl, hx, e⟩
  · refine ⟨neither, m1, q1, ?_, ⟨eq, _, s1, .inl ⟨noL_ents.2 hn, rfl, .refl _⟩⟩, h1, hb1⟩
    simp only [swapLeft, e1, bind, Except.bind, e]; rfl
  · have h2 := h1.perm hq
    obtain ⟨⟨tl, e3, h3⟩, -⟩ := h2.accessL hx e
    obtain ⟨f, i⟩ := p
    have ho : ∀ a : L, ∃ o : OptionalPair L (OptionalPair L R), (∀ {m : PartialMap L R},
        (if eq.isNone = true then (.ok (someLeft a, m) : Res _) else .ok (someBoth a eq, m)) = .ok (o, m)) ∧
        ((eq = neither ∧ o = someLeft a) ∨ (eq ≠ neither ∧ o = someBoth a eq)) := by
      intro a
      cases eq <;> simp [OptionalPair.isNone, OptionalPair.beq]
    rcases hasL_cases hl with ⟨a, rfl, ha⟩ | ⟨a, b, rfl, ha⟩ <;> cases hx
    · obtain ⟨o, ho1, ho2⟩ := ho a
      have hins := (RawTable.insert_perm tl (m1.hb.hl new) ⟨new, none, i⟩ (hashesL h3)).trans (h3.cons _)
      refine ⟨o, _, _, ?_, ⟨eq, _, s1, .inr ⟨_, a, ents qs, hq.map _, rfl, ha, ho2, .refl _⟩⟩,
        h2.rebuild (old := [_]) (new := [⟨someLeft new, i⟩]) (Nat.le_refl _) hins (h2.tailR rfl) (by simp) (by simp) (by simp), hb1⟩
      simp only [swapLeft, e1, bind, Except.bind, pure, Except.pure, e, e3, ho1]
      rw [← hb1]
    · obtain ⟨o, ho1, ho2⟩ := ho a
      obtain ⟨-, w, ew, hw⟩ := h2.accessR rfl h2.partnerR
      have hins := (RawTable.insert_perm tl (m1.hb.hl new) ⟨new, some (m1.hb.hr b), i⟩ (hashesL h3)).trans (h3.cons _)
      refine ⟨o, _, _, ?_, ⟨eq, _, s1, .inr ⟨_, a, ents qs, hq.map _, rfl, ha, ho2, .refl _⟩⟩,
        h2.rebuild (old := [_]) (new := [⟨someBoth new b, i⟩]) (Nat.le_refl _) hins (hw ⟨b, some (m1.hb.hl new), i⟩) (by simp) (by simp) (by simp), hb1⟩
      rw [m1.hb.hl_congr _ _ ha] at e e3
      simp only [swapLeft, e1, bind, Except.bind, pure, Except.pure, m1.hb.hl_congr _ _ ha, e, e3, ew, ho1]
      rw [← hb1]

theorem swapRight_weak (h : Linked m ps) (old new : R) :
    ∃ o m' qs, m.swapRight old new = .ok (o, m') ∧ SwapR (ents ps) old new o (ents qs) ∧ Linked m' qs ∧ m'.hb = m.hb := by
  obtain ⟨eq, m1, q1, e1, s1, h1, hb1⟩ := swapRightEqCheck_weak h old new
  rcases h1.probeR old with ⟨e, hn⟩ | ⟨p, qs, x, hq, hr, hx, e⟩
  · refine ⟨neither, m1, q1, ?_, ⟨eq, _, s1, .inl ⟨noR_ents.2 hn, rfl, .refl _⟩⟩, h1, hb1⟩
    simp only [swapRight, e1, bind, Except.bind, e]; rfl
  · have h2 := h1.perm hq
    obtain ⟨⟨tr, e3, h3⟩, -⟩ := h2.accessR hx e
    obtain ⟨f, i⟩ := p
    have ho : ∀ b : R, ∃ o : OptionalPair R (OptionalPair L R), (∀ {m : PartialMap L R},
        (if eq.isNone = true then (.ok (someLeft b, m) : Res _) else .ok (someBoth b eq, m)) = .ok (o, m)) ∧
        ((eq = neither ∧ o = someLeft b) ∨ (eq ≠ neither ∧ o = someBoth b eq)) := by
      intro b
      cases eq <;> simp [OptionalPair.isNone, OptionalPair.beq]
    rcases hasR_cases hr with ⟨b, rfl, hb⟩ | ⟨a, b, rfl, hb⟩ <;> cases hx
    · obtain ⟨o, ho1, ho2⟩ := ho b
      have hins := (RawTable.insert_perm tr (m1.hb.hr new) ⟨new, none, i⟩ (hashesR h3)).trans (h3.cons _)
      refine ⟨o, _, _, ?_, ⟨eq, _, s1, .inr ⟨_, b, ents qs, hq.map _, rfl, hb, ho2, .refl _⟩⟩,
        h2.rebuild (old := [_]) (new := [⟨someRight new, i⟩]) (Nat.le_refl _) (h2.tailL rfl) hins (by simp) (by simp) (by simp), hb1⟩
      simp only [swapRight, e1, bind, Except.bind, pure, Except.pure, e, e3, ho1]
      rw [← hb1]
    · obtain ⟨o, ho1, ho2⟩ := ho b
      obtain ⟨-, w, ew, hw⟩ := h2.accessL rfl h2.partnerL
      have hins := (RawTable.insert_perm tr (m1.hb.hr new) ⟨new, some (m1.hb.hl a), i⟩ (hashesR h3)).trans (h3.cons _)
      refine ⟨o, _, _, ?_, ⟨eq, _, s1, .inr ⟨_, b, ents qs, hq.map _, rfl, hb, ho2, .refl _⟩⟩,
        h2.rebuild (old := [_]) (new := [⟨someBoth a new, i⟩]) (Nat.le_refl _) (hw ⟨a, some (m1.hb.hr new), i⟩) hins (by simp) (by simp) (by simp), hb1⟩
      rw [m1.hb.hr_congr _ _ hb] at e e3
      simp only [swapRight, e1, bind, Except.bind, pure, Except.pure, m1.hb.hr_congr _ _ hb, e, e3, ew, ho1]
      rw [← hb1]

/-! ### Lookups -/

theorem getRight_weak (h : Linked m ps) (l : L) :
    (m.getRight l = none ∧ m.getLeftInner l = none ∧ ∀ p ∈ ps, hasL l p.e = false) ∨
    ∃ p ∈ ps, hasL l p.e = true ∧ m.getRight l = rightOf p.e ∧
      ∃ x, toL m.hb p = some x ∧ m.getLeftInner l = some x.2 := by
  rcases h.probeL l with ⟨e, hn⟩ | ⟨p, qs, x, hq, hl, hx, e⟩
  · refine .inl ⟨?_, e, hn⟩
    change m.left.get (m.hb.hl l) (fun x => l == x.value) = none at e
    simp only [getRight, getRightBy, e]
  · refine .inr ⟨p, hq.mem_iff.2 List.mem_cons_self, hl, ?_, x, hx, e⟩
    have h' := h.perm hq
    change m.left.get (m.hb.hl l) (fun x => l == x.value) = _ at e
    obtain ⟨f, i⟩ := p
    rcases hasL_cases hl with ⟨a, rfl, ha⟩ | ⟨a, b, rfl, ha⟩ <;> cases hx
    · simp only [getRight, getRightBy, e]; rfl
    · have e2 := h'.partnerR
      rw [m.hb.hl_congr _ _ ha] at e
      simp only [getRight, getRightBy, m.hb.hl_congr _ _ ha, e, e2]; rfl

theorem getLeft_weak (h : Linked m ps) (r : R) :
    (m.getLeft r = none ∧ m.getRightInner r = none ∧ ∀ p ∈ ps, hasR r p.e = false) ∨
    ∃ p ∈ ps, hasR r p.e = true ∧ m.getLeft r = leftOf p.e ∧
      ∃ x, toR m.hb p = some x ∧ m.getRightInner r = some x.2 := by
  rcases h.probeR r with ⟨e, hn⟩ | ⟨p, qs, x, hq, hr, hx, e⟩
  · refine .inl ⟨?_, e, hn⟩
    change m.right.get (m.hb.hr r) (fun x => r == x.value) = none at e
    simp only [getLeft, getLeftBy, e]
  · refine .inr ⟨p, hq.mem_iff.2 List.mem_cons_self, hr, ?_, x, hx, e⟩
    have h' := h.perm hq
    change m.right.get (m.hb.hr r) (fun x => r == x.value) = _ at e
    obtain ⟨f, i⟩ := p
    rcases hasR_cases hr with ⟨b, rfl, hb⟩ | ⟨a, b, rfl, hb⟩ <;> cases hx
    · simp only [getLeft, getLeftBy, e]; rfl
    · have e2 := h'.partnerL
      rw [m.hb.hr_congr _ _ hb] at e
      simp only [getLeft, getLeftBy, m.hb.hr_congr _ _ hb, e, e2]; rfl

/-! ### Iteration -/

theorem Linked.ordered (h : Linked m ps) :
    ∃ qs us, ps.Perm (qs ++ us) ∧ Linked m (qs ++ us) ∧ m.left.entries = tabL m.hb qs ∧
      (∀ q ∈ qs, (leftOf q.e).isSome = true) ∧ ∀ u ∈ us, leftOf u.e = none := by
  obtain ⟨qs, us, hq, he, hs, hn⟩ := perm_filterMap_inv h.left
  exact ⟨qs, us, hq, h.perm hq, he, fun q hm => by rw [← toL_isSome (hb := m.hb)]; exact hs q hm,
    fun u hu => toL_none.1 (hn u hu)⟩

/-- `Iter::next`: the left item with the partner of a match, or alone if nothing matches it -/
theorem next_weak (h : Linked m ps) {x} (hx : toL m.hb q = some x) (rest : List (MappingPair L)) :
    ∃ y, Iter.next ⟨x.2 :: rest⟩ m = some (y, ⟨rest⟩) ∧ leftOf y = leftOf q.e ∧
      ((m.getLeftInner x.2.value = none ∧ NoL (ents ps) x.2.value ∧ y = someLeft x.2.value) ∨
        ∃ p ∈ ps, ShownFrom y p.e ∧ ∃ z, toL m.hb p = some z ∧ m.getLeftInner x.2.value = some z.2) := by
  have hq := (toL_some hx).2.1
  rcases getRight_weak h x.2.value with ⟨e, e', hn⟩ | ⟨p, hp, hl, e, z, hz, e'⟩
  · exact ⟨someLeft x.2.value, by simp [Iter.next, e, ofPair], hq.symm, .inl ⟨e', noL_ents.2 hn, rfl⟩⟩
  · refine ⟨setLeft x.2.value p.e, ?_, ?_, .inr ⟨p, hp, ⟨x.2.value, ?_, hl, rfl⟩, z, hz, e'⟩⟩
    · rcases hasL_cases hl with ⟨a, ha, -⟩ | ⟨a, b, ha, -⟩ <;> simp [Iter.next, e, ha, ofPair, rightOf, setLeft]
    · rw [setLeft_L hl, hq]
    · rw [setLeft_L hl]

theorem collect_weak (h : Linked m ps) (hs : ∀ q ∈ qs, (leftOf q.e).isSome = true) :
    (Iter.collect m (elemsL m.hb qs)).filterMap leftOf = (ents qs).filterMap leftOf ∧
    ∀ x ∈ Iter.collect m (elemsL m.hb qs), (∃ a, NoL (ents ps) a ∧ x = someLeft a) ∨ ∃ e ∈ ents ps, ShownFrom x e := by
  induction qs with
  | nil => exact ⟨rfl, by simp [elemsL, tabL, Iter.collect]⟩
  | cons q qs ih =>
    obtain ⟨h1, h2⟩ := ih fun x hx => hs x (List.mem_cons_of_mem _ hx)
    obtain ⟨x, hx⟩ := exists_toL (hb := m.hb) (hs q (by simp))
    obtain ⟨y, e, hy, hd⟩ := next_weak h hx (elemsL m.hb qs)
    rw [elemsL_cons hx, Iter.collect, e]
    refine ⟨?_, fun z hz => ?_⟩
    · simp only [ents, List.filterMap_cons, List.map_cons, hy] at h1 ⊢
      rw [h1]
    · rcases List.mem_cons.1 hz with rfl | hz
      · rcases hd with ⟨-, hn, rfl⟩ | ⟨p, hp, hf, -⟩
        · exact .inl ⟨_, hn, rfl⟩
        · exact .inr ⟨p.e, List.mem_map.2 ⟨p, hp, rfl⟩, hf⟩
      · exact h2 z hz

theorem filterMap_left_none {us : List (Rec L R)} (hn : ∀ u ∈ us, leftOf u.e = none) : (ents us).filterMap leftOf = [] := by
  simpa [List.filterMap_eq_nil_iff] using hn

theorem iterList_weak (h : Linked m ps) : Seen (ents ps) m.iterList := by
  obtain ⟨qs, us, hp, hr, he, hs, hn⟩ := h.ordered
  obtain ⟨h1, h2⟩ := collect_weak h hs
  rw [iterList, iter_todo he]
  refine ⟨?_, h2⟩
  rw [h1]
  have := (hp.map Rec.e).filterMap leftOf
  rw [List.map_append, List.filterMap_append, filterMap_left_none hn, List.append_nil] at this
  exact this.symm

theorem Linked.getVia {ps} (h : Linked m ps) {q : Rec L R} (hq : q ∈ ps) {a : L} {b : R} (he : q.e = someBoth a b) :
    m.getViaHashesAndId (m.hb.hl a) (m.hb.hr b) q.id = .ok (some (a, b)) := by
  obtain ⟨qs, hqs⟩ := perm_cons_of_mem hq
  have h' := h.perm hqs
  obtain ⟨e, i⟩ := q
  cases he
  have e1 := RawTable.get_some (p := hashAndId (m.hb.hr b) i) (h := m.hb.hl a) (h'.consL rfl) rfl (hashAndId_self _ _ _) (hidsL _ h'.tail)
  have e2 := RawTable.get_some (p := hashAndId (m.hb.hl a) i) (h := m.hb.hr b) (h'.consR rfl) rfl (hashAndId_self _ _ _) (hidsR _ h'.tail)
  simp [getViaHashesAndId, e1, e2]

theorem Linked.pairedNext {ps} (h : Linked m ps) {qs} (hq : ∀ q ∈ qs, q ∈ ps) (hs : ∀ q ∈ qs, (leftOf q.e).isSome = true) :
    ∃ qs1 qs2 o, qs = qs1 ++ qs2 ∧ PairedIter.next m (elemsL m.hb qs) = .ok (o, elemsL m.hb qs2) ∧
      ((o = none ∧ pairsOf qs1 = [] ∧ qs2 = []) ∨ ∃ p, o = some p ∧ pairsOf qs1 = [p]) := by
  induction qs with
  | nil => exact ⟨[], [], none, rfl, rfl, .inl ⟨rfl, rfl, rfl⟩⟩
  | cons q qs ih =>
    obtain ⟨x, hx⟩ := exists_toL (hb := m.hb) (hs q (by simp))
    have hqm := hq q (by simp)
    rw [elemsL_cons hx]
    obtain ⟨e, i⟩ := q
    cases e with
    | neither => cases hx
    | someRight => cases hx
    | someLeft a =>
      cases hx
      obtain ⟨qs1, qs2, o, h1, h2, h3⟩ := ih (fun x hx => hq x (List.mem_cons_of_mem _ hx)) (fun x hx => hs x (List.mem_cons_of_mem _ hx))
      refine ⟨_ :: qs1, qs2, o, by rw [h1]; rfl, ?_, ?_⟩
      · rw [← h2]; rfl
      · simpa [pairsOf, pairOf] using h3
    | someBoth a b =>
      cases hx
      refine ⟨[⟨someBoth a b, i⟩], qs, some (a, b), rfl, ?_, .inr ⟨_, rfl, rfl⟩⟩
      simp [PairedIter.next, h.getVia hqm rfl, bind, Except.bind, pure, Except.pure]

theorem Linked.pairedTake {ps} (h : Linked m ps) (n : Nat) {qs} (hq : ∀ q ∈ qs, q ∈ ps)
    (hs : ∀ q ∈ qs, (leftOf q.e).isSome = true) :
    ∃ qs1 qs2, qs = qs1 ++ qs2 ∧ PairedIter.take m n ⟨elemsL m.hb qs⟩ = .ok (pairsOf qs1, ⟨elemsL m.hb qs2⟩) ∧
      (pairsOf qs1).length ≤ n ∧ ((pairsOf qs1).length = n ∨ qs2 = []) := by
  induction n generalizing qs with
  | zero => exact ⟨[], qs, rfl, rfl, Nat.le_refl _, .inl rfl⟩
  | succ n ih =>
    obtain ⟨a1, a2, o, h1, h2, h3⟩ := h.pairedNext hq hs
    subst h1
    rcases h3 with ⟨rfl, hnil, rfl⟩ | ⟨p, rfl, hone⟩
    · refine ⟨a1, [], rfl, ?_, by simp [hnil], .inr rfl⟩
      simp only [PairedIter.take, h2, bind, Except.bind, hnil]; rfl
    · obtain ⟨b1, b2, h4, h5, h6, h7⟩ := ih (qs := a2) (fun x hx => hq x (List.mem_append_right _ hx)) (fun x hx => hs x (List.mem_append_right _ hx))
      subst h4
      have : pairsOf (a1 ++ b1) = p :: pairsOf b1 := by
        have := hone; simp only [pairsOf] at this ⊢; rw [List.filterMap_append, this]; rfl
      refine ⟨a1 ++ b1, b2, by simp, ?_, ?_, ?_⟩
      · simp only [PairedIter.take, h2, bind, Except.bind, h5, this]; rfl
      · rw [this]; simp; exact h6
      · rw [this]; simpa using h7

theorem Linked.pairedAll {ps} (h : Linked m ps) {n : Nat} {qs} (hq : ∀ q ∈ qs, q ∈ ps)
    (hs : ∀ q ∈ qs, (leftOf q.e).isSome = true) (hn : qs.length < n) :
    PairedIter.take m n ⟨elemsL m.hb qs⟩ = .ok (pairsOf qs, ⟨[]⟩) := by
  obtain ⟨a1, a2, h1, h2, h3, h4⟩ := h.pairedTake n hq hs
  have : a2 = [] := by
    rcases h4 with h4 | h4
    · have := pairsOf_length a1; rw [h1] at hn; simp at hn; omega
    · exact h4
  subst this
  simp at h1; subst h1
  exact h2

theorem iterPairedList_weak_eq {qs us} (hr : Linked m (qs ++ us)) (he : m.left.entries = tabL m.hb qs)
    (hs : ∀ q ∈ qs, (leftOf q.e).isSome = true) : m.iterPairedList = .ok (pairsOf qs) := by
  have h0 : m.iterPaired = ⟨elemsL m.hb qs⟩ := by simp [iterPaired, RawTable.toList, he, elemsL]
  have h1 : m.left.len = qs.length := by
    rw [← elemsL_length (hb := m.hb) hs]; simp [RawTable.len, he, elemsL]
  rw [iterPairedList, h0, hr.pairedAll (fun q hq => List.mem_append_left _ hq) hs (by omega)]
  rfl


theorem iterPairedList_weak (h : Linked m ps) : ∃ d, m.iterPairedList = .ok d ∧ d.Perm ((ents ps).filterMap pairOf) := by
  obtain ⟨qs, us, hp, hr, he, hs, hn⟩ := h.ordered
  exact ⟨_, iterPairedList_weak_eq hr he hs, pairsOf_perm (hp.map Rec.e).symm hn⟩

theorem iterUnpairedList_weak (h : Linked m ps) : m.iterUnpairedList.Perm ((ents ps).filter fun e => !isPair e) := by
  rw [iterUnpairedList_eq]
  have e1 := ((h.left.map (·.2)).filterMap fun l => if l.hash.isSome then none else some (someLeft l.value : OptionalPair L R))
  have e2 := ((h.right.map (·.2)).filterMap fun r => if r.hash.isSome then none else some (someRight r.value : OptionalPair L R))
  rw [futureL_eq] at e1
  rw [futureR_eq] at e2
  exact (e1.append e2).trans (lone_perm h.nonempty)

theorem iterLeft_weak (h : Linked m ps) : m.iterLeft.Perm ((ents ps).filterMap leftOf) := by
  have := h.left.map (·.2.value)
  rw [tabL_values] at this
  simp only [iterLeft, RawTable.toList, List.map_map]
  exact this

theorem iterRight_weak (h : Linked m ps) : m.iterRight.Perm ((ents ps).filterMap rightOf) := by
  have := h.right.map (·.2.value)
  rw [tabR_values] at this
  simp only [iterRight, RawTable.toList, List.map_map]
  exact this

theorem lenLeft_weak (h : Linked m ps) : m.lenLeft = ((ents ps).filterMap leftOf).length := by
  rw [← (iterLeft_weak h).length_eq]; simp [lenLeft, iterLeft, RawTable.len, RawTable.toList]

theorem lenRight_weak (h : Linked m ps) : m.lenRight = ((ents ps).filterMap rightOf).length := by
  rw [← (iterRight_weak h).length_eq]; simp [lenRight, iterRight, RawTable.len, RawTable.toList]

theorem isEmpty_weak (h : Linked m ps) : m.isEmpty = (ents ps).isEmpty := by
  rw [isEmpty, lenLeft_weak h, lenRight_weak h]
  cases ps with
  | nil => rfl
  | cons p ps =>
    have := h.nonempty p (by simp)
    obtain ⟨e, i⟩ := p
    cases e <;> simp_all [leftOf, rightOf]

theorem Linked.links (h : Linked m ps) : Links m (ents ps) where
  nonempty := by
    intro hc
    obtain ⟨p, hp, he⟩ := List.mem_map.1 hc
    exact h.nonempty p hp he
  iterPaired := iterPairedList_weak h
  iterUnpaired := iterUnpairedList_weak h
  iterLeft := iterLeft_weak h
  iterRight := iterRight_weak h
  lenLeft := lenLeft_weak h
  lenRight := lenRight_weak h
  isEmpty := isEmpty_weak h

/-! ### Whole maps -/

theorem Linked.nil (hl : m.left.entries = []) (hr : m.right.entries = []) : Linked m [] :=
  ⟨by rw [hl]; exact .refl _, by rw [hr]; exact .refl _, .nil, by simp, by simp⟩

theorem withCapacity_weak (n : Nat) (hb : BuildHasher L R) : Linked (withCapacityAndHasher n hb) [] :=
  .nil (RawTable.withCapacity_entries _) (RawTable.withCapacity_entries _)

theorem withHasher_weak (hb : BuildHasher L R) : Linked (withHasher hb) [] := withCapacity_weak 0 hb

theorem clear_weak (m : PartialMap L R) : Linked m.clear [] := .nil (RawTable.clear_entries _) (RawTable.clear_entries _)

theorem Linked.of_tables (h : Linked m ps) {left' : RawTable (MappingPair L)} {right' : RawTable (MappingPair R)}
    (hl : left'.entries.Perm m.left.entries) (hr : right'.entries.Perm m.right.entries) :
    Linked { m with left := left', right := right' } ps :=
  ⟨hl.trans h.left, hr.trans h.right, h.ids, h.bound, h.nonempty⟩

theorem extend_weak (h : Linked m ps) (xs : List (OptionalPair L R)) :
    ∃ m' qs, m.extend xs = .ok m' ∧ InsertAll (ents ps) xs (ents qs) ∧ Linked m' qs ∧ m'.hb = m.hb := by
  induction xs generalizing m ps with
  | nil => exact ⟨m, ps, rfl, .refl _, h, rfl⟩
  | cons x xs ih =>
    cases x with
    | neither =>
      obtain ⟨m2, q2, e2, s2, h2, hb2⟩ := ih h
      exact ⟨m2, q2, by simpa only [extend] using e2, ⟨_, .refl _, s2⟩, h2, hb2⟩
    | someLeft l =>
      obtain ⟨o, m1, q1, e1, s1, h1, hb1⟩ := insertLeft_weak h l
      obtain ⟨m2, q2, e2, s2, h2, hb2⟩ := ih h1
      refine ⟨m2, q2, ?_, ⟨_, ⟨o, s1⟩, s2⟩, h2, hb2.trans hb1⟩
      simp only [extend, e1, bind, Except.bind]; exact e2
    | someRight r =>
      obtain ⟨o, m1, q1, e1, s1, h1, hb1⟩ := insertRight_weak h r
      obtain ⟨m2, q2, e2, s2, h2, hb2⟩ := ih h1
      refine ⟨m2, q2, ?_, ⟨_, ⟨o, s1⟩, s2⟩, h2, hb2.trans hb1⟩
      simp only [extend, e1, bind, Except.bind]; exact e2
    | someBoth l r =>
      obtain ⟨o₁, o₂, m1, q1, e1, s1, h1, hb1⟩ := insert_weak h l r
      obtain ⟨m2, q2, e2, s2, h2, hb2⟩ := ih h1
      refine ⟨m2, q2, ?_, ⟨_, ⟨o₁, o₂, s1⟩, s2⟩, h2, hb2.trans hb1⟩
      simp only [extend, e1, bind, Except.bind]; exact e2

theorem extendPairs_weak (h : Linked m ps) (xs : List (L × R)) :
    ∃ m' qs, m.extendPairs xs = .ok m' ∧ InsertAll (ents ps) (xs.map fun p => someBoth p.1 p.2) (ents qs) ∧
      Linked m' qs ∧ m'.hb = m.hb := by
  induction xs generalizing m ps with
  | nil => exact ⟨m, ps, rfl, .refl _, h, rfl⟩
  | cons x xs ih =>
    obtain ⟨o₁, o₂, m1, q1, e1, s1, h1, hb1⟩ := insert_weak h x.1 x.2
    obtain ⟨m2, q2, e2, s2, h2, hb2⟩ := ih h1
    refine ⟨m2, q2, ?_, ⟨_, ⟨o₁, o₂, s1⟩, s2⟩, h2, hb2.trans hb1⟩
    simp only [extendPairs, e1, bind, Except.bind]; exact e2

theorem clone_weak (h1 : Linked m ps) {cl : L → L} {cr : R → R} (hl : ∀ x, (cl x == x) = true)
    (hr : ∀ x, (cr x == x) = true) : ∃ qs, Linked (m.clone cl cr) qs ∧ ents qs = (ents ps).map (mapEntry cl cr) := by
  let g : Rec L R → Rec L R := fun p => ⟨mapEntry cl cr p.e, p.id⟩
  have hbl : ∀ x, m.hb.hl (cl x) = m.hb.hl x := fun x => m.hb.hl_congr _ _ (hl x)
  have hbr : ∀ x, m.hb.hr (cr x) = m.hb.hr x := fun x => m.hb.hr_congr _ _ (hr x)
  refine ⟨ps.map g, ⟨?_, ?_, ?_, ?_, ?_⟩, ?_⟩
  · refine (h1.left.map _).trans (.of_eq ?_)
    simp only [tabL, List.map_filterMap, List.filterMap_map]
    refine congrArg (List.filterMap · ps) (funext fun p => ?_)
    obtain ⟨e, i⟩ := p
    cases e <;> simp [clone, toL, g, mapEntry, MappingPair.clone, hbl, hbr]
  · refine (h1.right.map _).trans (.of_eq ?_)
    simp only [tabR, List.map_filterMap, List.filterMap_map]
    refine congrArg (List.filterMap · ps) (funext fun p => ?_)
    obtain ⟨e, i⟩ := p
    cases e <;> simp [clone, toR, g, mapEntry, MappingPair.clone, hbl, hbr]
  · rw [List.pairwise_map]
    exact h1.ids
  · intro p hp
    obtain ⟨q, hq, rfl⟩ := List.mem_map.1 hp
    exact h1.bound q hq
  · intro p hp
    obtain ⟨q, hq, rfl⟩ := List.mem_map.1 hp
    have := h1.nonempty q hq
    obtain ⟨e, i⟩ := q
    cases e <;> simp_all [g, mapEntry]
  · simp [g, ents, Function.comp_def]

end Verif.PartialMap
