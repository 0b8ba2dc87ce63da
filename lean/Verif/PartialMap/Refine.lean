import Verif.PartialMap.Rep
/-! Every operation of `PartialCycleMap` refines its list-level specification. -/
set_option linter.unusedSectionVars false
set_option linter.unusedSimpArgs false
namespace Verif.PartialMap
open PartialSpec OptionalPair
open CycleMap (eq_false_of_ne_true' beq_false_of_left forall_mem_map_of)

variable [RawImpl] [LawfulRaw] {L R : Type} [BEq L] [BEq R] [EquivBEq L] [EquivBEq R]

/-- the tables of `m` hold the entries `c` -/
def Repr (m : PartialMap L R) (c : List (OptionalPair L R)) : Prop :=
  ∃ ps, Rep m ps ∧ (ps.map Rec.e).Perm c

variable {m : PartialMap L R} {c : List (OptionalPair L R)}

theorem Repr.hashesL (h : Repr m c) : ∀ e ∈ m.left.entries, e.2.hashWith m.hb.hl = e.1 := by
  obtain ⟨ps, h1, -⟩ := h
  exact PartialMap.hashesL h1.left

theorem Repr.hashesR (h : Repr m c) : ∀ e ∈ m.right.entries, e.2.hashWith m.hb.hr = e.1 := by
  obtain ⟨ps, h1, -⟩ := h
  exact PartialMap.hashesR h1.right

theorem Rep.repr {ps} (h : Rep m ps) : Repr m (ps.map Rec.e) := ⟨ps, h, .refl _⟩

theorem Repr.perm {d} (h : Repr m c) (hp : c.Perm d) : Repr m d := by
  obtain ⟨ps, h1, h2⟩ := h
  exact ⟨ps, h1, h2.trans hp⟩

theorem _root_.Verif.PartialSpec.OneToOne.perm {d : List (OptionalPair L R)} (h : OneToOne c) (hp : c.Perm d) : OneToOne d :=
  ⟨(hp.pairwise_iff (fun h => h.symm)).1 h.1, fun hm => h.2 (hp.mem_iff.2 hm)⟩

theorem Rep.oneToOne {ps} (h : Rep m ps) : OneToOne (ps.map Rec.e) := by
  refine ⟨?_, ?_⟩
  · simp only [List.pairwise_map]
    exact h.apart.imp fun h => h.2
  · intro hm
    obtain ⟨p, hp, e⟩ := List.mem_map.1 hm
    exact h.nonempty p hp e

theorem Repr.oneToOne (h : Repr m c) : OneToOne c := by
  obtain ⟨ps, h1, h2⟩ := h
  exact OneToOne.perm h1.oneToOne h2

/-- what a map looks like at a left item -/
theorem Repr.casesL (h : Repr m c) (l : L) :
    ((∀ q ∈ c, hasL l q = false) ∧ ∃ ps, Rep m ps ∧ (ps.map Rec.e).Perm c ∧ ∀ p ∈ ps, hasL l p.e = false) ∨
    ∃ p ps, Rep m (p :: ps) ∧ c.Perm (p.e :: ps.map Rec.e) ∧ hasL l p.e = true ∧
      (∀ q ∈ ps, hasL l q.e = false) := by
  obtain ⟨ps, h1, h2⟩ := h
  rcases h1.casesL l with hn | ⟨p, qs, hq, hr, hl, hn⟩
  · refine .inl ⟨?_, ps, h1, h2, hn⟩
    intro q hq
    obtain ⟨p, hp, rfl⟩ := List.mem_map.1 (h2.mem_iff.2 hq)
    exact hn p hp
  · exact .inr ⟨p, qs, hr, h2.symm.trans (hq.map _), hl, hn⟩

theorem Repr.casesR (h : Repr m c) (r : R) :
    ((∀ q ∈ c, hasR r q = false) ∧ ∃ ps, Rep m ps ∧ (ps.map Rec.e).Perm c ∧ ∀ p ∈ ps, hasR r p.e = false) ∨
    ∃ p ps, Rep m (p :: ps) ∧ c.Perm (p.e :: ps.map Rec.e) ∧ hasR r p.e = true ∧
      (∀ q ∈ ps, hasR r q.e = false) := by
  obtain ⟨ps, h1, h2⟩ := h
  rcases h1.casesR r with hn | ⟨p, qs, hq, hr, hl, hn⟩
  · refine .inl ⟨?_, ps, h1, h2, hn⟩
    intro q hq
    obtain ⟨p, hp, rfl⟩ := List.mem_map.1 (h2.mem_iff.2 hq)
    exact hn p hp
  · exact .inr ⟨p, qs, hr, h2.symm.trans (hq.map _), hl, hn⟩

/-- what a map looks like at a left item and a right item -/
theorem Repr.casesLR (h : Repr m c) (l : L) (r : R) :
    ((∀ q ∈ c, hasL l q = false) ∧ ∃ ps, Rep m ps ∧ ∀ p ∈ ps, hasL l p.e = false) ∨
    ((∀ q ∈ c, hasR r q = false) ∧ ∃ ps, Rep m ps ∧ ∀ p ∈ ps, hasR r p.e = false) ∨
    (∃ a b i ps, Rep m (⟨someBoth a b, i⟩ :: ps) ∧ c.Perm (someBoth a b :: ps.map Rec.e) ∧ (l == a) = true ∧
      (r == b) = true ∧ (∀ q ∈ ps, hasL l q.e = false) ∧ (∀ q ∈ ps, hasR r q.e = false)) ∨
    (∃ p q ps, Rep m (p :: q :: ps) ∧ c.Perm (p.e :: q.e :: ps.map Rec.e) ∧ hasL l p.e = true ∧
      hasR r p.e = false ∧ hasR r q.e = true ∧ hasL l q.e = false ∧ (∀ q ∈ ps, hasL l q.e = false) ∧
      (∀ q ∈ ps, hasR r q.e = false)) := by
  rcases h.casesL l with ⟨hn, ps, hr, hp, hn'⟩ | ⟨p, ps, hr, hp, hl, hn⟩
  · exact .inl ⟨hn, ps, hr, hn'⟩
  · cases hrp : hasR r p.e with
    | true =>
      obtain ⟨e, i⟩ := p
      cases e with
      | someBoth a b =>
        exact .inr (.inr (.inl ⟨a, b, i, ps, hr, hp, hl, hrp, hn, fun q hq => hasR_false_of hrp (hr.tailApart q hq).2⟩))
      | _ => simp_all [hasL, hasR]
    | false =>
      by_cases hx : ∃ q ∈ ps, hasR r q.e = true
      · obtain ⟨q, hq, hqr⟩ := hx
        obtain ⟨qs, hqs⟩ := perm_cons_of_mem hq
        have hr' := hr.perm (hqs.cons p)
        refine .inr (.inr (.inr ⟨p, q, qs, hr', hp.trans ((hqs.map _).cons _), hl, hrp, hqr, hn q hq,
          fun x hx => hn x (hqs.mem_iff.2 (List.mem_cons_of_mem _ hx)), ?_⟩))
        have := (List.pairwise_cons.1 (List.pairwise_cons.1 hr'.apart).2).1
        exact fun x hx => hasR_false_of hqr (this x hx).2
      · have hn'' : ∀ q ∈ p :: ps, hasR r q.e = false := by
          intro q hq
          rcases List.mem_cons.1 hq with rfl | hq
          · exact hrp
          · exact eq_false_of_ne_true' fun hc => hx ⟨q, hq, hc⟩
        refine .inr (.inl ⟨?_, _, hr, hn''⟩)
        intro q hq
        have hq2 := hp.mem_iff.1 hq
        rw [← List.map_cons (f := Rec.e)] at hq2
        obtain ⟨p, hp, rfl⟩ := List.mem_map.1 hq2
        exact hn'' p hp

/-! ### Specification side -/

theorem findL_none {l : L} (h : ∀ q ∈ c, hasL l q = false) : findL c l = none := by
  simpa [findL, List.find?_eq_none] using h

theorem findR_none {r : R} (h : ∀ q ∈ c, hasR r q = false) : findR c r = none := by
  simpa [findR, List.find?_eq_none] using h

theorem eraseL_none {l : L} (h : ∀ q ∈ c, hasL l q = false) : eraseL c l = c :=
  filter_eq_self_of (P := hasL l) h

theorem eraseR_none {r : R} (h : ∀ q ∈ c, hasR r q = false) : eraseR c r = c :=
  filter_eq_self_of (P := hasR r) h

theorem mem_eraseL {q : OptionalPair L R} {l : L} : q ∈ eraseL c l ↔ q ∈ c ∧ hasL l q = false := by
  simp [eraseL]

theorem mem_eraseR {q : OptionalPair L R} {r : R} : q ∈ eraseR c r ↔ q ∈ c ∧ hasR r q = false := by
  simp [eraseR]

theorem mem_others {q : OptionalPair L R} {l : L} {r : R} :
    q ∈ others c l r ↔ q ∈ c ∧ hasL l q = false ∧ hasR r q = false := by
  simp [others]

section
variable {e : OptionalPair L R} {d : List (OptionalPair L R)}

theorem findL_some {l : L} (hp : c.Perm (e :: d)) (hl : hasL l e = true)
    (hn : ∀ q ∈ d, hasL l q = false) : findL c l = some e :=
  find?_eq_some_of_perm hp hl hn

theorem findR_some {r : R} (hp : c.Perm (e :: d)) (hl : hasR r e = true)
    (hn : ∀ q ∈ d, hasR r q = false) : findR c r = some e :=
  find?_eq_some_of_perm hp hl hn

theorem eraseL_some {l : L} (hp : c.Perm (e :: d)) (hl : hasL l e = true)
    (hn : ∀ q ∈ d, hasL l q = false) : (eraseL c l).Perm d :=
  filter_perm_tail (P := hasL l) hp hl hn

theorem eraseR_some {r : R} (hp : c.Perm (e :: d)) (hl : hasR r e = true)
    (hn : ∀ q ∈ d, hasR r q = false) : (eraseR c r).Perm d :=
  filter_perm_tail (P := hasR r) hp hl hn
end

theorem forall_map {ps : List (Rec L R)} {P : OptionalPair L R → Bool} (h : ∀ q ∈ ps, P q.e = false) :
    ∀ x ∈ ps.map Rec.e, P x = false := by
  intro x hx
  obtain ⟨q, hq, rfl⟩ := List.mem_map.1 hx
  exact h q hq

theorem hasPair_none_of {l : L} {r : R} (h : ∀ q ∈ c, hasL l q = false) : hasPair c l r = false := by
  simp only [hasPair, List.any_eq_false]; intro x hx; simp [h x hx]

theorem hasPair_none_of' {l : L} {r : R} (h : ∀ q ∈ c, hasR r q = false) : hasPair c l r = false := by
  simp only [hasPair, List.any_eq_false]; intro x hx; simp [h x hx]

theorem hasPair_eq (h : OneToOne c) (l : L) (r : R) : hasPair c l r = (findL c l).any (hasR r) := by
  cases hf : findL c l with
  | none =>
    rw [findL, List.find?_eq_none] at hf
    rw [hasPair_none_of fun q hq => eq_false_of_ne_true' (hf q hq)]; rfl
  | some e =>
    have he := List.mem_of_find?_eq_some hf
    have hl : hasL l e = true := List.find?_some hf
    obtain ⟨d, hd⟩ := perm_cons_of_mem he
    have hn : ∀ q ∈ d, hasL l q = false := fun q hq =>
      hasL_false_of hl ((List.pairwise_cons.1 (h.perm hd).1).1 q hq)
    rw [hasPair, any_eq_of_perm hd, List.any_cons, hl]
    have : d.any (fun e => hasL l e && hasR r e) = false := by
      rw [List.any_eq_false]; intro x hx; simp [hn x hx]
    rw [this]; simp

theorem hasPair_eq' (h : OneToOne c) (l : L) (r : R) : hasPair c l r = (findR c r).any (hasL l) := by
  cases hf : findR c r with
  | none =>
    rw [findR, List.find?_eq_none] at hf
    rw [hasPair_none_of' fun q hq => eq_false_of_ne_true' (hf q hq)]; rfl
  | some e =>
    have he := List.mem_of_find?_eq_some hf
    have hl : hasR r e = true := List.find?_some hf
    obtain ⟨d, hd⟩ := perm_cons_of_mem he
    have hn : ∀ q ∈ d, hasR r q = false := fun q hq =>
      hasR_false_of hl ((List.pairwise_cons.1 (h.perm hd).1).1 q hq)
    rw [hasPair, any_eq_of_perm hd, List.any_cons, hl]
    have : d.any (fun e => hasL l e && hasR r e) = false := by
      rw [List.any_eq_false]; intro x hx; simp [hn x hx]
    rw [this]; simp

theorem _root_.Verif.PartialSpec.OneToOne.filter {P : OptionalPair L R → Bool} (h : OneToOne c) : OneToOne (c.filter P) :=
  ⟨h.1.filter _, fun hm => h.2 (List.mem_filter.1 hm).1⟩

theorem findR_eraseL (h : OneToOne c) (l : L) (r : R) :
    findR (eraseL c l) r = if hasPair c l r then none else findR c r := by
  rw [hasPair_eq' h]
  cases hf : findR c r with
  | none =>
    rw [findR, List.find?_eq_none] at hf
    rw [findR_none fun q hq => eq_false_of_ne_true' (hf q (mem_eraseL.1 hq).1)]; rfl
  | some e =>
    have he := List.mem_of_find?_eq_some hf
    have hl : hasR r e = true := List.find?_some hf
    obtain ⟨d, hd⟩ := perm_cons_of_mem he
    have hn : ∀ q ∈ d, hasR r q = false := fun q hq =>
      hasR_false_of hl ((List.pairwise_cons.1 (h.perm hd).1).1 q hq)
    have hd' : (eraseL c l).Perm (eraseL (e :: d) l) := hd.filter _
    cases hle : hasL l e with
    | true =>
      rw [Option.any_some, hle, if_pos rfl, findR_none]
      intro q hq
      have hq' := hd'.mem_iff.1 hq
      rcases List.mem_cons.1 (mem_eraseL.1 hq').1 with rfl | h'
      · rw [(mem_eraseL.1 hq').2] at hle; cases hle
      · exact hn q h'
    | false =>
      rw [Option.any_some, hle, if_neg (by simp)]
      have hd' : (eraseL c l).Perm (e :: d.filter fun e => !hasL l e) := by
        rw [← List.filter_cons_of_pos (p := fun e => !hasL l e) (by simp [hle])]; exact hd'
      exact findR_some hd' hl fun q hq => hn q (List.mem_filter.1 hq).1

theorem eraseR_eraseL (l : L) (r : R) : eraseR (eraseL c l) r = others c l r := by
  simp [eraseR, eraseL, others, List.filter_filter, Bool.and_comm]

/-! ### Removing a whole entry -/

theorem removeViaLeft_none {ps} (h : Rep m ps) {l : L} (hl : ∀ p ∈ ps, hasL l p.e = false) :
    m.removeViaLeft l = .ok (neither, m) := by
  simp [removeViaLeft, h.remove_left_none hl]

theorem removeViaRight_none {ps} (h : Rep m ps) {r : R} (hr : ∀ p ∈ ps, hasR r p.e = false) :
    m.removeViaRight r = .ok (neither, m) := by
  simp [removeViaRight, h.remove_right_none hr]

theorem removeViaLeft_some {p ps} (h : Rep m (p :: ps)) {l : L} (hl : hasL l p.e = true) :
    ∃ m', m.removeViaLeft l = .ok (p.e, m') ∧ Rep m' ps ∧ m'.hb = m.hb ∧ m'.counter = m.counter := by
  obtain ⟨x, t, hx, h1, h2⟩ := h.remove_left_some hl
  obtain ⟨e, i⟩ := p
  cases e with
  | neither => cases hl
  | someRight => cases hl
  | someLeft a =>
    cases hx
    refine ⟨{ m with left := t }, ?_, h.tail h2 (h.tailR rfl), rfl, rfl⟩
    simp [removeViaLeft, h1, ofPair]
  | someBoth a b =>
    cases hx
    obtain ⟨t', h3, h4⟩ := RawTable.removeEntry_some (p := hashAndId (m.hb.hl l) i) (h.consR rfl) rfl
      (by rw [m.hb.hl_congr _ _ hl]; exact hashAndId_self _ _ _) (hidsR _ h.ids)
    refine ⟨{ m with left := t, right := t' }, ?_, h.tail h2 h4, rfl, rfl⟩
    simp [removeViaLeft, h1, h3, ofPair]

theorem removeViaRight_some {p ps} (h : Rep m (p :: ps)) {r : R} (hr : hasR r p.e = true) :
    ∃ m', m.removeViaRight r = .ok (p.e, m') ∧ Rep m' ps ∧ m'.hb = m.hb ∧ m'.counter = m.counter := by
  obtain ⟨x, t, hx, h1, h2⟩ := h.remove_right_some hr
  obtain ⟨e, i⟩ := p
  cases e with
  | neither => cases hr
  | someLeft => cases hr
  | someRight a =>
    cases hx
    refine ⟨{ m with right := t }, ?_, h.tail (h.tailL rfl) h2, rfl, rfl⟩
    simp [removeViaRight, h1, ofPair]
  | someBoth a b =>
    cases hx
    obtain ⟨t', h3, h4⟩ := RawTable.removeEntry_some (p := hashAndId (m.hb.hr r) i) (h.consL rfl) rfl
      (by rw [m.hb.hr_congr _ _ hr]; exact hashAndId_self _ _ _) (hidsL _ h.ids)
    refine ⟨{ m with left := t', right := t }, ?_, h.tail h4 h2, rfl, rfl⟩
    simp [removeViaRight, h1, h3, ofPair]

theorem removeViaLeft_refines (h : Repr m c) (l : L) :
    ∃ m', m.removeViaLeft l = .ok ((findL c l).getD neither, m') ∧ Repr m' (eraseL c l) ∧ m'.hb = m.hb ∧
      m'.counter = m.counter := by
  rcases h.casesL l with ⟨hn, ps, hr, hp, hn'⟩ | ⟨p, ps, hr, hp, hl, hn⟩
  · rw [findL_none hn, eraseL_none hn]
    exact ⟨m, removeViaLeft_none hr hn', h, rfl, rfl⟩
  · rw [findL_some hp hl (forall_map hn)]
    obtain ⟨m', h1, h2, h3⟩ := removeViaLeft_some hr hl
    exact ⟨m', h1, h2.repr.perm (eraseL_some hp hl (forall_map hn)).symm, h3⟩

theorem removeViaRight_refines (h : Repr m c) (r : R) :
    ∃ m', m.removeViaRight r = .ok ((findR c r).getD neither, m') ∧ Repr m' (eraseR c r) ∧ m'.hb = m.hb ∧
      m'.counter = m.counter := by
  rcases h.casesR r with ⟨hn, ps, hr, hp, hn'⟩ | ⟨p, ps, hr, hp, hl, hn⟩
  · rw [findR_none hn, eraseR_none hn]
    exact ⟨m, removeViaRight_none hr hn', h, rfl, rfl⟩
  · rw [findR_some hp hl (forall_map hn)]
    obtain ⟨m', h1, h2, h3⟩ := removeViaRight_some hr hl
    exact ⟨m', h1, h2.repr.perm (eraseR_some hp hl (forall_map hn)).symm, h3⟩

/-! ### Inserting -/

/-- storing an entry whose items are absent -/
theorem Rep.add {ps} {e : OptionalPair L R} {left' : RawTable (MappingPair L)} {right' : RawTable (MappingPair R)}
    (h : Rep m ps) (he : e ≠ neither) (hd : ∀ p ∈ ps, Disj e p.e)
    (hl : left'.entries.Perm (tabL m.hb (⟨e, m.counter⟩ :: ps)))
    (hr : right'.entries.Perm (tabR m.hb (⟨e, m.counter⟩ :: ps))) :
    Rep { m with counter := m.counter + 1, left := left', right := right' } (⟨e, m.counter⟩ :: ps) where
  left := hl
  right := hr
  apart := List.pairwise_cons.2 ⟨fun q hq => ⟨Nat.ne_of_gt (h.bound q hq), hd q hq⟩, h.apart⟩
  bound := by
    intro q hq
    rcases List.mem_cons.1 hq with rfl | hq
    · exact Nat.lt_succ_self _
    · exact Nat.lt_succ_of_lt (h.bound q hq)
  nonempty := by
    intro q hq
    rcases List.mem_cons.1 hq with rfl | hq
    · exact he
    · exact h.nonempty q hq

theorem Repr.add (h : Repr m c) {e : OptionalPair L R} {left' : RawTable (MappingPair L)}
    {right' : RawTable (MappingPair R)} (he : e ≠ neither) (hd : ∀ q ∈ c, Disj e q)
    (hl : left'.entries.Perm ((toL m.hb ⟨e, m.counter⟩).toList ++ m.left.entries))
    (hr : right'.entries.Perm ((toR m.hb ⟨e, m.counter⟩).toList ++ m.right.entries)) :
    Repr { m with counter := m.counter + 1, left := left', right := right' } (e :: c) := by
  obtain ⟨ps, h1, h2⟩ := h
  refine ⟨⟨e, m.counter⟩ :: ps, h1.add he (fun p hp => hd p.e (h2.mem_iff.1 (List.mem_map_of_mem hp))) ?_ ?_, h2.cons _⟩
  · refine hl.trans ((h1.left.append_left _).trans ?_)
    simp only [tabL, List.filterMap_cons]
    cases toL m.hb ⟨e, m.counter⟩ <;> exact .refl _
  · refine hr.trans ((h1.right.append_left _).trans ?_)
    simp only [tabR, List.filterMap_cons]
    cases toR m.hb ⟨e, m.counter⟩ <;> exact .refl _

theorem disjBoth {l : L} {r : R} {q : OptionalPair L R} (h1 : hasL l q = false) (h2 : hasR r q = false) :
    Disj (someBoth l r) q := ⟨fun _ h => by cases h; exact h1, fun _ h => by cases h; exact h2⟩

theorem disjLeft {l : L} {q : OptionalPair L R} (h1 : hasL l q = false) :
    Disj (someLeft l) q := ⟨fun _ h => by cases h; exact h1, fun _ h => by cases h⟩

theorem disjRight {r : R} {q : OptionalPair L R} (h1 : hasR r q = false) :
    Disj (someRight r) q := ⟨fun _ h => (by cases h), fun _ h => by cases h; exact h1⟩

theorem insert_refines (h : Repr m c) (l : L) (r : R) :
    ∃ m', m.insert l r = .ok ((PartialSpec.insert c l r).1, m') ∧ Repr m' (PartialSpec.insert c l r).2 ∧
      m'.hb = m.hb ∧ m'.counter = m.counter + 1 := by
  obtain ⟨m1, e1, h1, hb1, c1⟩ := removeViaLeft_refines h l
  obtain ⟨m2, e2, h2, hb2, c2⟩ := removeViaRight_refines h1 r
  rw [findR_eraseL h.oneToOne] at e2
  rw [eraseR_eraseL] at h2
  refine ⟨_, ?_, h2.add (e := someBoth l r) (by simp)
    (fun q hq => disjBoth (mem_others.1 hq).2.1 (mem_others.1 hq).2.2)
    (RawTable.insert_perm m2.left _ _ h2.hashesL) (RawTable.insert_perm m2.right _ _ h2.hashesR), hb2.trans hb1, ?_⟩
  · simp only [insert, e1, e2, PartialSpec.insert, bind, Except.bind, pure, Except.pure]
    split <;> rfl
  · simp [c1, c2]

theorem insertLeft_refines (h : Repr m c) (l : L) :
    ∃ m', m.insertLeft l = .ok ((PartialSpec.insertLeft c l).1, m') ∧ Repr m' (PartialSpec.insertLeft c l).2 ∧
      m'.hb = m.hb ∧ m'.counter = m.counter + 1 := by
  obtain ⟨m1, e1, h1, hb1, c1⟩ := removeViaLeft_refines h l
  refine ⟨_, ?_, h1.add (e := someLeft l) (by simp) (fun q hq => disjLeft (mem_eraseL.1 hq).2)
    (RawTable.insert_perm m1.left _ _ h1.hashesL) (.refl _), hb1, ?_⟩
  · simp only [insertLeft, e1, PartialSpec.insertLeft, bind, Except.bind, pure, Except.pure]
  · simp [c1]

theorem insertRight_refines (h : Repr m c) (r : R) :
    ∃ m', m.insertRight r = .ok ((PartialSpec.insertRight c r).1, m') ∧ Repr m' (PartialSpec.insertRight c r).2 ∧
      m'.hb = m.hb ∧ m'.counter = m.counter + 1 := by
  obtain ⟨m1, e1, h1, hb1, c1⟩ := removeViaRight_refines h r
  refine ⟨_, ?_, h1.add (e := someRight r) (by simp) (fun q hq => disjRight (mem_eraseR.1 hq).2)
    (.refl _) (RawTable.insert_perm m1.right _ _ h1.hashesR), hb1, ?_⟩
  · simp only [insertRight, e1, PartialSpec.insertRight, bind, Except.bind, pure, Except.pure]
  · simp [c1]

/-! ### Lookups -/

theorem containsLeft_refines (h : Repr m c) (l : L) : m.containsLeft l = c.any (hasL l) := by
  rcases h.casesL l with ⟨hn, ps, hr, hp, hn'⟩ | ⟨p, ps, hr, hp, hl, hn⟩
  · rw [containsLeft, hr.get_left_none hn']
    symm; simpa using hn
  · obtain ⟨x, _, hx⟩ := hr.get_left_some hl
    rw [containsLeft, hx, any_eq_of_perm hp]
    simp [hl]

theorem containsRight_refines (h : Repr m c) (r : R) : m.containsRight r = c.any (hasR r) := by
  rcases h.casesR r with ⟨hn, ps, hr, hp, hn'⟩ | ⟨p, ps, hr, hp, hl, hn⟩
  · rw [containsRight, hr.get_right_none hn']
    symm; simpa using hn
  · obtain ⟨x, _, hx⟩ := hr.get_right_some hl
    rw [containsRight, hx, any_eq_of_perm hp]
    simp [hl]

theorem any_pair_L {l : L} {e : OptionalPair L R} {d} (hp : c.Perm (e :: d)) (hl : hasL l e = true)
    (hn : ∀ q ∈ d, hasL l q = false) : (c.any fun e => isPair e && hasL l e) = isPair e := by
  rw [any_eq_of_perm hp, List.any_cons, hl]
  have : d.any (fun e => isPair e && hasL l e) = false := by
    rw [List.any_eq_false]; intro x hx; simp [hn x hx]
  simp [this]

theorem any_pair_R {r : R} {e : OptionalPair L R} {d} (hp : c.Perm (e :: d)) (hl : hasR r e = true)
    (hn : ∀ q ∈ d, hasR r q = false) : (c.any fun e => isPair e && hasR r e) = isPair e := by
  rw [any_eq_of_perm hp, List.any_cons, hl]
  have : d.any (fun e => isPair e && hasR r e) = false := by
    rw [List.any_eq_false]; intro x hx; simp [hn x hx]
  simp [this]

theorem isLeftPaired_refines (h : Repr m c) (l : L) :
    m.isLeftPaired l = c.any fun e => isPair e && hasL l e := by
  rcases h.casesL l with ⟨hn, ps, hr, hp, hn'⟩ | ⟨p, ps, hr, hp, hl, hn⟩
  · rw [isLeftPaired, hr.get_left_none hn']
    symm; rw [List.any_eq_false]; intro x hx; simp [hn x hx]
  · obtain ⟨x, hx, hg⟩ := hr.get_left_some hl
    rw [isLeftPaired, hg, any_pair_L hp hl (forall_map hn)]
    obtain ⟨e, i⟩ := p
    cases e <;> cases hx <;> rfl

theorem isRightPaired_refines (h : Repr m c) (r : R) :
    m.isRightPaired r = c.any fun e => isPair e && hasR r e := by
  rcases h.casesR r with ⟨hn, ps, hr, hp, hn'⟩ | ⟨p, ps, hr, hp, hl, hn⟩
  · rw [isRightPaired, hr.get_right_none hn']
    symm; rw [List.any_eq_false]; intro x hx; simp [hn x hx]
  · obtain ⟨x, hx, hg⟩ := hr.get_right_some hl
    rw [isRightPaired, hg, any_pair_R hp hl (forall_map hn)]
    obtain ⟨e, i⟩ := p
    cases e <;> cases hx <;> rfl

theorem getRightBy_none {ps} (h : Rep m ps) {f : L → Bool} (hf : ∀ p ∈ ps, ∀ a, leftOf p.e = some a → f a = false)
    (x : UInt64) : m.getRightBy x f = none := by
  have : m.left.get x (fun y => f y.value) = none := by
    refine RawTable.get_none (h.noneL (P := fun y => f y.value) ?_)
    intro x hx
    obtain ⟨p, hp, e⟩ := mem_tabL hx
    exact hf p hp _ (toL_some e).2.1
  simp [getRightBy, this]

theorem getLeftBy_none {ps} (h : Rep m ps) {f : R → Bool} (hf : ∀ p ∈ ps, ∀ a, rightOf p.e = some a → f a = false)
    (x : UInt64) : m.getLeftBy x f = none := by
  have : m.right.get x (fun y => f y.value) = none := by
    refine RawTable.get_none (h.noneR (P := fun y => f y.value) ?_)
    intro x hx
    obtain ⟨p, hp, e⟩ := mem_tabR hx
    exact hf p hp _ (toR_some e).2.1
  simp [getLeftBy, this]

theorem getRightBy_some {p ps} (h : Rep m (p :: ps)) {x : UInt64} {f : L → Bool} {a : L} (ha : leftOf p.e = some a)
    (hx : x = m.hb.hl a) (hf : f a = true) (hn : ∀ q ∈ ps, ∀ a, leftOf q.e = some a → f a = false) :
    m.getRightBy x f = rightOf p.e := by
  have hn' : ∀ y ∈ tabL m.hb ps, f y.2.value = false := by
    intro x hx
    obtain ⟨p, hp, e⟩ := mem_tabL hx
    exact hn p hp _ (toL_some e).2.1
  obtain ⟨e, i⟩ := p
  cases e with
  | neither => cases ha
  | someRight => cases ha
  | someLeft a =>
    cases ha
    have e1 := RawTable.get_some (p := fun y => f y.value) (h.consL rfl) hx.symm hf hn'
    simp [getRightBy, e1, rightOf]
  | someBoth a b =>
    cases ha
    have e1 := RawTable.get_some (p := fun y => f y.value) (h.consL rfl) hx.symm hf hn'
    have e2 := RawTable.get_some (p := hashAndId x i) (h.consR rfl) rfl
      (by rw [hx]; exact hashAndId_self _ _ _) (hidsR _ h.ids)
    simp [getRightBy, e1, e2, rightOf]

theorem getLeftBy_some {p ps} (h : Rep m (p :: ps)) {x : UInt64} {f : R → Bool} {a : R} (ha : rightOf p.e = some a)
    (hx : x = m.hb.hr a) (hf : f a = true) (hn : ∀ q ∈ ps, ∀ a, rightOf q.e = some a → f a = false) :
    m.getLeftBy x f = leftOf p.e := by
  have hn' : ∀ y ∈ tabR m.hb ps, f y.2.value = false := by
    intro x hx
    obtain ⟨p, hp, e⟩ := mem_tabR hx
    exact hn p hp _ (toR_some e).2.1
  obtain ⟨e, i⟩ := p
  cases e with
  | neither => cases ha
  | someLeft => cases ha
  | someRight a =>
    cases ha
    have e1 := RawTable.get_some (p := fun y => f y.value) (h.consR rfl) hx.symm hf hn'
    simp [getLeftBy, e1, leftOf]
  | someBoth a b =>
    cases ha
    have e1 := RawTable.get_some (p := fun y => f y.value) (h.consR rfl) hx.symm hf hn'
    have e2 := RawTable.get_some (p := hashAndId x i) (h.consL rfl) rfl
      (by rw [hx]; exact hashAndId_self _ _ _) (hidsL _ h.ids)
    simp [getLeftBy, e1, e2, leftOf]

theorem getRight_some {p ps} (h : Rep m (p :: ps)) {l : L} (hl : hasL l p.e = true) :
    m.getRight l = rightOf p.e := by
  obtain ⟨x, _, h1, _, h2, _, h3, _⟩ := h.factsL hl
  refine getRightBy_some h h3 h2 h1 ?_
  intro q hq a ha
  rw [← hasL_eq ha]; exact hasL_false_of hl (h.tailApart q hq).2

theorem getLeft_some {p ps} (h : Rep m (p :: ps)) {r : R} (hr : hasR r p.e = true) :
    m.getLeft r = leftOf p.e := by
  obtain ⟨x, _, h1, _, h2, _, h3, _⟩ := h.factsR hr
  refine getLeftBy_some h h3 h2 h1 ?_
  intro q hq a ha
  rw [← hasR_eq ha]; exact hasR_false_of hr (h.tailApart q hq).2

theorem getRight_refines (h : Repr m c) (l : L) : m.getRight l = (findL c l).bind rightOf := by
  rcases h.casesL l with ⟨hn, ps, hr, hp, hn'⟩ | ⟨p, ps, hr, hp, hl, hn⟩
  · rw [findL_none hn]; exact getRightBy_none hr (fun p hp a ha => by rw [← hasL_eq ha]; exact hn' p hp) _
  · rw [findL_some hp hl (forall_map hn)]; exact getRight_some hr hl

theorem getLeft_refines (h : Repr m c) (r : R) : m.getLeft r = (findR c r).bind leftOf := by
  rcases h.casesR r with ⟨hn, ps, hr, hp, hn'⟩ | ⟨p, ps, hr, hp, hl, hn⟩
  · rw [findR_none hn]; exact getLeftBy_none hr (fun p hp a ha => by rw [← hasR_eq ha]; exact hn' p hp) _
  · rw [findR_some hp hl (forall_map hn)]; exact getLeft_some hr hl

theorem Rep.swap {p q ps} (h : Rep m (p :: q :: ps)) : Rep m (q :: p :: ps) := h.perm (List.Perm.swap _ _ _)

theorem arePaired_refines (h : Repr m c) (l : L) (r : R) : m.arePaired l r = hasPair c l r := by
  rcases h.casesLR l r with ⟨hn, ps, hr, hn'⟩ | ⟨hn, ps, hr, hn'⟩ | ⟨a, b, i, ps, hr, hp, hl, hrr, hnl, hnr⟩ |
    ⟨p, q, ps, hr, hp, hl, hlr, hrr, hrl, hnl, hnr⟩
  · rw [hasPair_none_of hn]
    simp [arePaired, hr.get_left_none hn']
  · rw [hasPair_none_of' hn]
    simp only [arePaired, hr.get_right_none hn']
    split <;> simp_all
  · obtain ⟨x, hx, e1⟩ := hr.get_left_some (l := l) hl
    obtain ⟨y, hy, e2⟩ := hr.get_right_some (r := r) hrr
    cases hx; cases hy
    rw [hasPair, any_eq_of_perm hp]
    simp only [arePaired, e1, e2]
    simp [hasL, hasR, hl, hrr, m.hb.hl_congr _ _ hl, m.hb.hr_congr _ _ hrr]
  · obtain ⟨x, hx, e1⟩ := hr.get_left_some hl
    obtain ⟨y, hy, e2⟩ := hr.swap.get_right_some hrr
    have hid := (hr.tailApart q (by simp)).1
    rw [hasPair_eq h.oneToOne, findL_some hp hl]
    · simp [arePaired, e1, e2, (toL_some hx).1, (toR_some hy).1, hid, hlr]
    · intro z hz
      rcases List.mem_cons.1 hz with rfl | hz
      · exact hrl
      · exact forall_map hnl z hz

theorem remove_refines (h : Repr m c) (l : L) (r : R) :
    ∃ m', m.remove l r = .ok ((PartialSpec.remove c l r).1, m') ∧ Repr m' (PartialSpec.remove c l r).2 ∧
      m'.hb = m.hb ∧ m'.counter = m.counter := by
  unfold remove PartialSpec.remove
  rw [arePaired_refines h]
  cases hpair : hasPair c l r with
  | false => exact ⟨m, rfl, h, rfl, rfl⟩
  | true =>
    rw [hasPair_eq h.oneToOne] at hpair
    obtain ⟨m', e1, h1, h2⟩ := removeViaLeft_refines h l
    cases hf : findL c l with
    | none => rw [hf] at hpair; cases hpair
    | some e =>
      rw [hf] at hpair e1
      have hl : hasL l e = true := List.find?_some hf
      refine ⟨m', ?_, h1, h2⟩
      cases e <;> simp_all [hasL, hasR, toOption, pairOf, bind, Except.bind, pure, Except.pure]

/-! ### Removing one item of an entry -/

/-- replacing the first record -/
theorem Rep.replace {p ps} {e : OptionalPair L R} {left' : RawTable (MappingPair L)} {right' : RawTable (MappingPair R)}
    (h : Rep m (p :: ps)) (he : e ≠ neither) (hd : ∀ q ∈ ps, Disj e q.e)
    (hl : left'.entries.Perm (tabL m.hb (⟨e, p.id⟩ :: ps)))
    (hr : right'.entries.Perm (tabR m.hb (⟨e, p.id⟩ :: ps))) :
    Rep { m with left := left', right := right' } (⟨e, p.id⟩ :: ps) where
  left := hl
  right := hr
  apart := List.pairwise_cons.2 ⟨fun q hq => ⟨(h.tailApart q hq).1, hd q hq⟩, (List.pairwise_cons.1 h.apart).2⟩
  bound := by
    intro q hq
    rcases List.mem_cons.1 hq with rfl | hq
    · exact h.bound p (by simp)
    · exact h.bound q (List.mem_cons_of_mem _ hq)
  nonempty := by
    intro q hq
    rcases List.mem_cons.1 hq with rfl | hq
    · exact he
    · exact h.nonempty q (List.mem_cons_of_mem _ hq)

theorem removeLeft_refines (h : Repr m c) (l : L) :
    ∃ m', m.removeLeft l = .ok ((PartialSpec.removeLeft c l).1, m') ∧ Repr m' (PartialSpec.removeLeft c l).2 ∧
      m'.hb = m.hb ∧ m'.counter = m.counter := by
  unfold PartialSpec.removeLeft
  rcases h.casesL l with ⟨hn, ps, hr, hp, hn'⟩ | ⟨p, ps, hr, hp, hl, hn⟩
  · rw [findL_none hn, eraseL_none hn]
    exact ⟨m, by simp [removeLeft, hr.remove_left_none hn'], h, rfl, rfl⟩
  · obtain ⟨x, t, hx, h1, h2⟩ := hr.remove_left_some hl
    have he := (eraseL_some hp hl (forall_map hn)).symm
    rw [findL_some hp hl (forall_map hn)]
    obtain ⟨e, i⟩ := p
    cases e with
    | neither => cases hl
    | someRight => cases hl
    | someLeft a =>
      cases hx
      exact ⟨{ m with left := t }, by simp [removeLeft, h1, leftOf], (hr.tail h2 (hr.tailR rfl)).repr.perm he, rfl, rfl⟩
    | someBoth a b =>
      cases hx
      obtain ⟨w, h3, h4⟩ := RawTable.getMut_some (p := justId i) (hr.consR rfl) rfl (justId_self _ _ _) (idsR hr.ids)
      have := hr.replace (e := someRight b) (by simp)
        (fun q hq => disjRight ((hr.tailApart q hq).2.2 _ rfl)) h2 (h4 _)
      exact ⟨_, by simp [removeLeft, h1, h3, leftOf], this.repr.perm (he.cons _), rfl, rfl⟩

theorem removeRight_refines (h : Repr m c) (r : R) :
    ∃ m', m.removeRight r = .ok ((PartialSpec.removeRight c r).1, m') ∧ Repr m' (PartialSpec.removeRight c r).2 ∧
      m'.hb = m.hb ∧ m'.counter = m.counter := by
  unfold PartialSpec.removeRight
  rcases h.casesR r with ⟨hn, ps, hr, hp, hn'⟩ | ⟨p, ps, hr, hp, hl, hn⟩
  · rw [findR_none hn, eraseR_none hn]
    exact ⟨m, by simp [removeRight, hr.remove_right_none hn'], h, rfl, rfl⟩
  · obtain ⟨x, t, hx, h1, h2⟩ := hr.remove_right_some hl
    have he := (eraseR_some hp hl (forall_map hn)).symm
    rw [findR_some hp hl (forall_map hn)]
    obtain ⟨e, i⟩ := p
    cases e with
    | neither => cases hl
    | someLeft => cases hl
    | someRight a =>
      cases hx
      exact ⟨{ m with right := t }, by simp [removeRight, h1, rightOf], (hr.tail (hr.tailL rfl) h2).repr.perm he, rfl, rfl⟩
    | someBoth a b =>
      cases hx
      obtain ⟨w, h3, h4⟩ := RawTable.getMut_some (p := justId i) (hr.consL rfl) rfl (justId_self _ _ _) (idsL hr.ids)
      have := hr.replace (e := someLeft a) (by simp)
        (fun q hq => disjLeft ((hr.tailApart q hq).2.1 _ rfl)) (h4 _) h2
      exact ⟨_, by simp [removeRight, h1, h3, rightOf], this.repr.perm (he.cons _), rfl, rfl⟩

end Verif.PartialMap
