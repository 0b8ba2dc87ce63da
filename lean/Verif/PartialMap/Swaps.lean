import Verif.PartialMap.Pairing
/-! The swaps of `PartialCycleMap` refine their specification. -/
set_option linter.unusedSectionVars false
set_option linter.unusedSimpArgs false
namespace Verif.PartialMap
open PartialSpec OptionalPair
open CycleMap (eq_false_of_ne_true' beq_false_of_left forall_mem_map_of)

variable [RawImpl] [LawfulRaw] {L R : Type} [BEq L] [BEq R] [EquivBEq L] [EquivBEq R]
variable {m : PartialMap L R} {c : List (OptionalPair L R)}

theorem ite_ok {α β : Type} {b : Prop} [Decidable b] {x y : α} {z : β} :
    (if b then (.ok (x, z) : Res (α × β)) else .ok (y, z)) = .ok (if b then x else y, z) := by
  split <;> rfl

theorem swapLeftEqCheck_refines (h : Repr m c) (old new : L) :
    ∃ m', m.swapLeftEqCheck old new (m.hb.hl new) =
        .ok (if new == old then neither else (findL c new).getD neither, m') ∧
      Repr m' (if new == old then c else eraseL c new) ∧ m'.hb = m.hb ∧ m'.counter = m.counter := by
  unfold swapLeftEqCheck
  cases he : new == old with
  | true => simp only [bne, he]; cases m.left.get (m.hb.hl new) (equivalentKey new) <;> exact ⟨m, rfl, h, rfl, rfl⟩
  | false =>
    simp only [bne, he]
    rcases h.casesL new with ⟨hn, ps, hr, hp, hn'⟩ | ⟨p, ps, hr, hp, hl, hn⟩
    · rw [hr.get_left_none hn', findL_none hn, eraseL_none hn]
      exact ⟨m, rfl, h, rfl, rfl⟩
    · obtain ⟨x, _, hx⟩ := hr.get_left_some hl
      rw [hx]
      exact removeViaLeft_refines h new

theorem eqOptLeft_isNone {c : List (OptionalPair L R)} {new old : L} {a : L} :
    (if ((if new == old then neither else (findL c new).getD neither) : OptionalPair L R).isNone then
      someLeft a else someBoth a (if new == old then neither else (findL c new).getD neither)) =
    ofPair (some a, if new == old then none else findL c new) := by
  cases new == old with
  | true => rfl
  | false =>
    cases hf : findL c new with
    | none => rfl
    | some e =>
      have hl : hasL new e = true := List.find?_some hf
      cases e <;> simp_all [hasL, OptionalPair.isNone, OptionalPair.beq, ofPair]

theorem hasL_congr {l l' : L} {e : OptionalPair L R} (h : (l == l') = true) : hasL l e = hasL l' e := by
  cases e <;> simp only [hasL] <;> exact BEq.congr_left h

omit [EquivBEq L] [EquivBEq R] in
theorem setLeft_L {l new : L} {e : OptionalPair L R} (h : hasL l e = true) : leftOf (setLeft new e) = some new := by
  cases e <;> simp_all [hasL, setLeft, leftOf]

theorem setLeft_R {new : L} {e : OptionalPair L R} : rightOf (setLeft new e) = rightOf e := by
  cases e <;> rfl

theorem swapLeft_refines (h : Repr m c) (old new : L) :
    ∃ m', m.swapLeft old new = .ok ((PartialSpec.swapLeft c old new).1, m') ∧
      Repr m' (PartialSpec.swapLeft c old new).2 ∧ m'.hb = m.hb ∧ m'.counter = m.counter := by
  obtain ⟨m1, e1, h1, hb1, c1⟩ := swapLeftEqCheck_refines h old new
  have hfe : findL (if new == old then c else eraseL c new) old = findL c old := by
    split
    · rfl
    · rename_i hne
      rcases h.casesL old with ⟨hn, _⟩ | ⟨p, ps, hr, hp, hl, hn⟩
      · rw [findL_none hn]; exact findL_none fun q hq => hn q (mem_eraseL.1 hq).1
      · rw [findL_some hp hl (forall_map hn)]
        have hp2 : (eraseL c new).Perm (p.e :: eraseL (ps.map Rec.e) new) := by
          refine (hp.filter _).trans ?_
          rw [List.filter_cons_of_pos]
          · exact .refl _
          · rw [Bool.not_eq_true']
            refine eq_false_of_ne_true' fun hc => hne ?_
            rcases hasL_cases hl with ⟨a, he, ha⟩ | ⟨a, b, he, ha⟩ <;> rw [he] at hc <;>
              exact BEq.trans hc (BEq.symm ha)
        exact findL_some hp2 hl fun q hq => forall_map hn q (mem_eraseL.1 hq).1
  unfold swapLeft
  rcases h1.casesL old with ⟨hn, ps, hr, hp, hn'⟩ | ⟨p, ps, hr, hp, hl, hn⟩
  · have hnone : findL c old = none := by rw [← hfe]; exact findL_none hn
    have hc : (if (new == old) = true then c else eraseL c new) = eraseL c new := by
      split
      · rename_i he
        rw [eraseL_none]
        intro q hq
        rw [if_pos he] at hn
        rw [hasL_congr he]; exact hn q hq
      · rfl
    refine ⟨m1, ?_, ?_, hb1, c1⟩
    · simp [e1, bind, Except.bind, pure, Except.pure, hr.get_left_none hn', PartialSpec.swapLeft, hnone]
    · simp only [PartialSpec.swapLeft, hnone]
      rw [hc] at h1; exact h1
  · have hf : findL c old = some p.e := by rw [← hfe]; exact findL_some hp hl (forall_map hn)
    have hnew : ∀ q ∈ ps, hasL new q.e = false := by
      intro q hq
      have hmem : q.e ∈ (if (new == old) = true then c else eraseL c new) :=
        hp.mem_iff.2 (List.mem_cons_of_mem _ (List.mem_map_of_mem hq))
      cases he : new == old with
      | true => rw [hasL_congr he]; exact hn q hq
      | false =>
        rw [he] at hmem
        exact (mem_eraseL.1 hmem).2
    have hd : ∀ q ∈ ps, Disj (setLeft new p.e) q.e := by
      intro q hq
      refine ⟨fun a ha => ?_, fun a ha => ?_⟩
      · rw [setLeft_L hl] at ha; cases ha; exact hnew q hq
      · rw [setLeft_R] at ha; exact (hr.tailApart q hq).2.2 a ha
    obtain ⟨x, t, hx, ht, ht'⟩ := hr.remove_left_some hl
    obtain ⟨x', hx', hg⟩ := hr.get_left_some hl
    have hrest : (ps.map Rec.e).Perm (c.filter fun e => !hasL old e && !hasL new e) := by
      have hfil := (hp.filter fun q => !hasL old q).symm
      rw [List.filter_cons_of_neg (by simp [hl]), filter_eq_self_of (P := hasL old) (forall_map hn)] at hfil
      refine hfil.trans ?_
      cases he : new == old with
      | true =>
        have : ∀ q : OptionalPair L R, hasL new q = hasL old q := fun q => hasL_congr he
        simp only [this, Bool.and_self, if_true]; exact .refl _
      | false =>
        simp [eraseL, List.filter_filter]
    obtain ⟨e, i⟩ := p
    rcases hasL_cases hl with ⟨a, rfl, ha⟩ | ⟨a, b, rfl, ha⟩ <;> cases hx <;> cases hx'
    · refine ⟨{ m1 with left := t.insert (m1.hb.hl new) ⟨new, none, i⟩ (·.hashWith m1.hb.hl) }, ?_, ?_, hb1, c1⟩
      · simp only [PartialSpec.swapLeft, hf, leftOf, ← eqOptLeft_isNone]
        rw [← hb1] at e1
        simp only [e1, ← hb1, bind, Except.bind, pure, Except.pure, hg, ht]
        exact ite_ok
      · simp only [PartialSpec.swapLeft, hf]
        exact (hr.replace (e := someLeft new) (by simp) hd ((RawTable.insert_perm t _ _ (hashesL ht')).trans (ht'.cons _))
          (hr.tailR rfl)).repr.perm (hrest.cons _)
    · obtain ⟨w, hw, hw'⟩ := RawTable.getMut_some (p := hashAndId (m1.hb.hl old) i) (hr.consR rfl) rfl
        (by rw [m1.hb.hl_congr _ _ ha]; exact hashAndId_self _ _ _) (hidsR _ hr.ids)
      refine ⟨{ m1 with left := t.insert (m1.hb.hl new) ⟨new, some (m1.hb.hr b), i⟩ (·.hashWith m1.hb.hl),
                        right := w ⟨b, some (m1.hb.hl new), i⟩ }, ?_, ?_, hb1, c1⟩
      · simp only [PartialSpec.swapLeft, hf, leftOf, ← eqOptLeft_isNone]
        rw [← hb1] at e1
        simp only [e1, ← hb1, bind, Except.bind, pure, Except.pure, hg, ht, hw]
        exact ite_ok
      · simp only [PartialSpec.swapLeft, hf]
        exact (hr.replace (e := someBoth new b) (by simp) hd ((RawTable.insert_perm t _ _ (hashesL ht')).trans (ht'.cons _))
          (hw' _)).repr.perm (hrest.cons _)

theorem swapRightEqCheck_refines (h : Repr m c) (old new : R) :
    ∃ m', m.swapRightEqCheck old new (m.hb.hr new) =
        .ok (if new == old then neither else (findR c new).getD neither, m') ∧
      Repr m' (if new == old then c else eraseR c new) ∧ m'.hb = m.hb ∧ m'.counter = m.counter := by
  unfold swapRightEqCheck
  cases he : new == old with
  | true => simp only [bne, he]; cases m.right.get (m.hb.hr new) (equivalentKey new) <;> exact ⟨m, rfl, h, rfl, rfl⟩
  | false =>
    simp only [bne, he]
    rcases h.casesR new with ⟨hn, ps, hr, hp, hn'⟩ | ⟨p, ps, hr, hp, hl, hn⟩
    · rw [hr.get_right_none hn', findR_none hn, eraseR_none hn]
      exact ⟨m, rfl, h, rfl, rfl⟩
    · obtain ⟨x, _, hx⟩ := hr.get_right_some hl
      rw [hx]
      exact removeViaRight_refines h new

theorem eqOptRight_isNone {c : List (OptionalPair L R)} {new old : R} {a : R} :
    (if ((if new == old then neither else (findR c new).getD neither) : OptionalPair L R).isNone then
      someLeft a else someBoth a (if new == old then neither else (findR c new).getD neither)) =
    ofPair (some a, if new == old then none else findR c new) := by
  cases new == old with
  | true => rfl
  | false =>
    cases hf : findR c new with
    | none => rfl
    | some e =>
      have hl : hasR new e = true := List.find?_some hf
      cases e <;> simp_all [hasR, OptionalPair.isNone, OptionalPair.beq, ofPair]

theorem hasR_congr {l l' : R} {e : OptionalPair L R} (h : (l == l') = true) : hasR l e = hasR l' e := by
  cases e <;> simp only [hasR] <;> exact BEq.congr_left h

omit [EquivBEq L] [EquivBEq R] in
theorem setRight_R {l new : R} {e : OptionalPair L R} (h : hasR l e = true) : rightOf (setRight new e) = some new := by
  cases e <;> simp_all [hasR, setRight, rightOf]

theorem setRight_L {new : R} {e : OptionalPair L R} : leftOf (setRight new e) = leftOf e := by
  cases e <;> rfl

theorem swapRight_refines (h : Repr m c) (old new : R) :
    ∃ m', m.swapRight old new = .ok ((PartialSpec.swapRight c old new).1, m') ∧
      Repr m' (PartialSpec.swapRight c old new).2 ∧ m'.hb = m.hb ∧ m'.counter = m.counter := by
  obtain ⟨m1, e1, h1, hb1, c1⟩ := swapRightEqCheck_refines h old new
  have hfe : findR (if new == old then c else eraseR c new) old = findR c old := by
    split
    · rfl
    · rename_i hne
      rcases h.casesR old with ⟨hn, _⟩ | ⟨p, ps, hr, hp, hl, hn⟩
      · rw [findR_none hn]; exact findR_none fun q hq => hn q (mem_eraseR.1 hq).1
      · rw [findR_some hp hl (forall_map hn)]
        have hp2 : (eraseR c new).Perm (p.e :: eraseR (ps.map Rec.e) new) := by
          refine (hp.filter _).trans ?_
          rw [List.filter_cons_of_pos]
          · exact .refl _
          · rw [Bool.not_eq_true']
            refine eq_false_of_ne_true' fun hc => hne ?_
            rcases hasR_cases hl with ⟨a, he, ha⟩ | ⟨b, a, he, ha⟩ <;> rw [he] at hc <;>
              exact BEq.trans hc (BEq.symm ha)
        exact findR_some hp2 hl fun q hq => forall_map hn q (mem_eraseR.1 hq).1
  unfold swapRight
  rcases h1.casesR old with ⟨hn, ps, hr, hp, hn'⟩ | ⟨p, ps, hr, hp, hl, hn⟩
  · have hnone : findR c old = none := by rw [← hfe]; exact findR_none hn
    have hc : (if (new == old) = true then c else eraseR c new) = eraseR c new := by
      split
      · rename_i he
        rw [eraseR_none]
        intro q hq
        rw [if_pos he] at hn
        rw [hasR_congr he]; exact hn q hq
      · rfl
    refine ⟨m1, ?_, ?_, hb1, c1⟩
    · simp [e1, bind, Except.bind, pure, Except.pure, hr.get_right_none hn', PartialSpec.swapRight, hnone]
    · simp only [PartialSpec.swapRight, hnone]
      rw [hc] at h1; exact h1
  · have hf : findR c old = some p.e := by rw [← hfe]; exact findR_some hp hl (forall_map hn)
    have hnew : ∀ q ∈ ps, hasR new q.e = false := by
      intro q hq
      have hmem : q.e ∈ (if (new == old) = true then c else eraseR c new) :=
        hp.mem_iff.2 (List.mem_cons_of_mem _ (List.mem_map_of_mem hq))
      cases he : new == old with
      | true => rw [hasR_congr he]; exact hn q hq
      | false =>
        rw [he] at hmem
        exact (mem_eraseR.1 hmem).2
    have hd : ∀ q ∈ ps, Disj (setRight new p.e) q.e := by
      intro q hq
      refine ⟨fun a ha => ?_, fun a ha => ?_⟩
      · rw [setRight_L] at ha; exact (hr.tailApart q hq).2.1 a ha
      · rw [setRight_R hl] at ha; cases ha; exact hnew q hq
    obtain ⟨x, t, hx, ht, ht'⟩ := hr.remove_right_some hl
    obtain ⟨x', hx', hg⟩ := hr.get_right_some hl
    have hrest : (ps.map Rec.e).Perm (c.filter fun e => !hasR old e && !hasR new e) := by
      have hfil := (hp.filter fun q => !hasR old q).symm
      rw [List.filter_cons_of_neg (by simp [hl]), filter_eq_self_of (P := hasR old) (forall_map hn)] at hfil
      refine hfil.trans ?_
      cases he : new == old with
      | true =>
        have : ∀ q : OptionalPair L R, hasR new q = hasR old q := fun q => hasR_congr he
        simp only [this, Bool.and_self, if_true]; exact .refl _
      | false =>
        simp [eraseR, List.filter_filter]
    obtain ⟨e, i⟩ := p
    rcases hasR_cases hl with ⟨a, rfl, ha⟩ | ⟨b, a, rfl, ha⟩ <;> cases hx <;> cases hx'
    · refine ⟨{ m1 with right := t.insert (m1.hb.hr new) ⟨new, none, i⟩ (·.hashWith m1.hb.hr) }, ?_, ?_, hb1, c1⟩
      · simp only [PartialSpec.swapRight, hf, rightOf, ← eqOptRight_isNone]
        rw [← hb1] at e1
        simp only [e1, ← hb1, bind, Except.bind, pure, Except.pure, hg, ht]
        exact ite_ok
      · simp only [PartialSpec.swapRight, hf]
        exact (hr.replace (e := someRight new) (by simp) hd (hr.tailL rfl)
          ((RawTable.insert_perm t _ _ (hashesR ht')).trans (ht'.cons _))).repr.perm (hrest.cons _)
    · obtain ⟨w, hw, hw'⟩ := RawTable.getMut_some (p := hashAndId (m1.hb.hr old) i) (hr.consL rfl) rfl
        (by rw [m1.hb.hr_congr _ _ ha]; exact hashAndId_self _ _ _) (hidsL _ hr.ids)
      refine ⟨{ m1 with right := t.insert (m1.hb.hr new) ⟨new, some (m1.hb.hl b), i⟩ (·.hashWith m1.hb.hr),
                        left := w ⟨b, some (m1.hb.hr new), i⟩ }, ?_, ?_, hb1, c1⟩
      · simp only [PartialSpec.swapRight, hf, rightOf, ← eqOptRight_isNone]
        rw [← hb1] at e1
        simp only [e1, ← hb1, bind, Except.bind, pure, Except.pure, hg, ht, hw]
        exact ite_ok
      · simp only [PartialSpec.swapRight, hf]
        exact (hr.replace (e := someBoth b new) (by simp) hd (hw' _)
          ((RawTable.insert_perm t _ _ (hashesR ht')).trans (ht'.cons _))).repr.perm (hrest.cons _)

end Verif.PartialMap
