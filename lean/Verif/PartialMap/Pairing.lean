import Verif.PartialMap.Refine
import Verif.PartialMap.Machine
/-! `pair`, `pair_forced`, `pair_forced_remove` and `unpair` of `PartialCycleMap` refine their specification. -/
set_option linter.unusedSectionVars false
set_option linter.unusedSimpArgs false
namespace Verif.PartialMap
open PartialSpec OptionalPair
open CycleMap (eq_false_of_ne_true' beq_false_of_left forall_mem_map_of)

variable [RawImpl] [LawfulRaw] {L R : Type} [BEq L] [BEq R] [EquivBEq L] [EquivBEq R]
variable {m : PartialMap L R} {c : List (OptionalPair L R)}

/-- replacing some records by others with the same items -/
theorem Rep.rebuild {old new ps : List (Rec L R)} (h : Rep m (old ++ ps)) {k : Nat} (hk : m.counter ≤ k)
    {left' : RawTable (MappingPair L)} {right' : RawTable (MappingPair R)}
    (hl : left'.entries.Perm (tabL m.hb (new ++ ps))) (hr : right'.entries.Perm (tabR m.hb (new ++ ps)))
    (ha : new.Pairwise Apart) (hne : ∀ p ∈ new, p.e ≠ neither)
    (hid : ∀ p ∈ new, (p.id = m.counter ∧ m.counter < k) ∨ ∃ q ∈ old, q.id = p.id)
    (hL : ∀ p ∈ new, ∀ a, leftOf p.e = some a → ∃ q ∈ old, leftOf q.e = some a)
    (hR : ∀ p ∈ new, ∀ a, rightOf p.e = some a → ∃ q ∈ old, rightOf q.e = some a) :
    Rep { m with counter := k, left := left', right := right' } (new ++ ps) where
  left := hl
  right := hr
  apart := by
    have h0 := List.pairwise_append.1 h.apart
    refine List.pairwise_append.2 ⟨ha, h0.2.1, ?_⟩
    intro p hp x hx
    refine ⟨?_, ?_, ?_⟩
    · rcases hid p hp with ⟨h1, _⟩ | ⟨q, hq, h1⟩
      · have := h.bound x (List.mem_append_right _ hx); omega
      · rw [← h1]; exact (h0.2.2 q hq x hx).1
    · intro a h1
      obtain ⟨q, hq, h2⟩ := hL p hp a h1
      exact (h0.2.2 q hq x hx).2.1 a h2
    · intro a h1
      obtain ⟨q, hq, h2⟩ := hR p hp a h1
      exact (h0.2.2 q hq x hx).2.2 a h2
  bound := by
    intro p hp
    rcases List.mem_append.1 hp with hp | hp
    · rcases hid p hp with ⟨h1, h2⟩ | ⟨q, hq, h1⟩
      · show p.id < k; omega
      · have := h.bound q (List.mem_append_left _ hq); show p.id < k; omega
    · have := h.bound p (List.mem_append_right _ hp); show p.id < k; omega
  nonempty := by
    intro p hp
    rcases List.mem_append.1 hp with hp | hp
    · exact hne p hp
    · exact h.nonempty p (List.mem_append_right _ hp)

section
variable {p q : Rec L R} {ps : List (Rec L R)} {l : L} {r : R}

theorem findL_two (hp : c.Perm (p.e :: q.e :: ps.map Rec.e)) (hl : hasL l p.e = true)
    (hql : hasL l q.e = false) (hn : ∀ q ∈ ps, hasL l q.e = false) : findL c l = some p.e := by
  refine findL_some hp hl ?_
  intro z hz
  rcases List.mem_cons.1 hz with rfl | hz
  · exact hql
  · exact forall_map hn z hz

theorem findR_two (hp : c.Perm (p.e :: q.e :: ps.map Rec.e)) (hr : hasR r q.e = true)
    (hpr : hasR r p.e = false) (hn : ∀ q ∈ ps, hasR r q.e = false) : findR c r = some q.e := by
  refine findR_some (hp.trans (.swap _ _ _)) hr ?_
  intro z hz
  rcases List.mem_cons.1 hz with rfl | hz
  · exact hpr
  · exact forall_map hn z hz

theorem others_two (hp : c.Perm (p.e :: q.e :: ps.map Rec.e)) (hl : hasL l p.e = true) (hr : hasR r q.e = true)
    (hn : ∀ q ∈ ps, hasL l q.e = false) (hn' : ∀ q ∈ ps, hasR r q.e = false) :
    (others c l r).Perm (ps.map Rec.e) := by
  refine (hp.filter _).trans ?_
  rw [List.filter_cons_of_neg (by simp [hl]), List.filter_cons_of_neg (by simp [hr]), List.filter_eq_self.2]
  intro x hx
  simp [forall_map hn x hx, forall_map hn' x hx]

theorem others_one {e : OptionalPair L R} (hp : c.Perm (e :: ps.map Rec.e)) (hl : hasL l e = true)
    (hn : ∀ q ∈ ps, hasL l q.e = false) (hn' : ∀ q ∈ ps, hasR r q.e = false) :
    (others c l r).Perm (ps.map Rec.e) := by
  refine (hp.filter _).trans ?_
  rw [List.filter_cons_of_neg (by simp [hl]), List.filter_eq_self.2]
  intro x hx
  simp [forall_map hn x hx, forall_map hn' x hx]

theorem hasPair_two (hp : c.Perm (p.e :: q.e :: ps.map Rec.e)) (hpr : hasR r p.e = false)
    (hql : hasL l q.e = false) (hn : ∀ q ∈ ps, hasL l q.e = false) : hasPair c l r = false := by
  rw [hasPair, any_eq_of_perm hp, List.any_eq_false]
  intro x hx
  rcases List.mem_cons.1 hx with rfl | hx
  · simp [hpr]
  · rcases List.mem_cons.1 hx with rfl | hx
    · simp [hql]
    · simp [forall_map hn x hx]
end

omit [EquivBEq L] [EquivBEq R] in
theorem hasL_cases {l : L} {e : OptionalPair L R} (h : hasL l e = true) :
    (∃ a, e = someLeft a ∧ (l == a) = true) ∨ ∃ a b, e = someBoth a b ∧ (l == a) = true := by
  cases e with
  | neither => cases h
  | someRight => cases h
  | someLeft a => exact .inl ⟨a, rfl, h⟩
  | someBoth a b => exact .inr ⟨a, b, rfl, h⟩

omit [EquivBEq L] [EquivBEq R] in
theorem hasR_cases {r : R} {e : OptionalPair L R} (h : hasR r e = true) :
    (∃ b, e = someRight b ∧ (r == b) = true) ∨ ∃ a b, e = someBoth a b ∧ (r == b) = true := by
  cases e with
  | neither => cases h
  | someLeft => cases h
  | someRight b => exact .inl ⟨b, rfl, h⟩
  | someBoth a b => exact .inr ⟨a, b, rfl, h⟩

theorem pair_refines (h : Repr m c) (l : L) (r : R) :
    ∃ m', m.pair l r = ((PartialSpec.pair c l r).1, m') ∧ Repr m' (PartialSpec.pair c l r).2 ∧
      m'.hb = m.hb ∧ m'.counter = m.counter := by
  unfold PartialSpec.pair
  rcases h.casesLR l r with ⟨hn, ps, hr, hn'⟩ | ⟨hn, ps, hr, hn'⟩ | ⟨a, b, i, ps, hr, hp, hl, hrr, hnl, hnr⟩ |
    ⟨p, q, ps, hr, hp, hl, hlr, hrr, hrl, hnl, hnr⟩
  · rw [findL_none hn]
    exact ⟨m, by simp [pair, hr.getMut_left_none hn'], h, rfl, rfl⟩
  · rw [findR_none hn]
    refine ⟨m, ?_, ?_, rfl, rfl⟩
    · simp only [pair, hr.getMut_right_none hn']
      split <;> simp_all
    · split <;> first | exact h | simp_all
  · obtain ⟨x, w1, hx, e1, f1⟩ := hr.getMut_left_some (l := l) hl
    obtain ⟨y, w2, hy, e2, f2⟩ := hr.getMut_right_some (r := r) hrr
    cases hx; cases hy
    rw [findL_some hp hl (forall_map hnl), findR_some hp hrr (forall_map hnr)]
    exact ⟨m, by simp [pair, e1, e2], h, rfl, rfl⟩
  · obtain ⟨x, w1, hx, e1, f1⟩ := hr.getMut_left_some hl
    obtain ⟨y, w2, hy, e2, f2⟩ := hr.swap.getMut_right_some hrr
    rw [findL_two hp hl hrl hnl, findR_two hp hrr hlr hnr]
    have ho := (others_two hp hl hrr hnl hnr).symm
    obtain ⟨e, i⟩ := p
    obtain ⟨f, j⟩ := q
    rcases hasL_cases hl with ⟨a, rfl, ha⟩ | ⟨a, a', rfl, ha⟩ <;>
      rcases hasR_cases hrr with ⟨b, rfl, hb⟩ | ⟨b', b, rfl, hb⟩ <;> cases hx <;> cases hy <;> try
        exact ⟨m, by simp [pair, e1, e2], h, rfl, rfl⟩
    have := hr.rebuild (old := [_, _]) (new := [⟨someBoth a b, i⟩]) (ps := ps) (Nat.le_refl _)
      (left' := w1 ⟨a, some (m.hb.hr r), i⟩) (right' := w2 ⟨b, some (m.hb.hl l), i⟩)
      (by rw [m.hb.hr_congr _ _ hb, m.hb.hl_congr _ _ ha] at *; exact f1 _)
      (by rw [m.hb.hr_congr _ _ hb, m.hb.hl_congr _ _ ha] at *; exact f2 _)
      (by simp) (by simp) (by simp) (by simp [leftOf]) (by simp [rightOf])
    exact ⟨_, by simp [pair, e1, e2], this.repr.perm (ho.cons _), rfl, rfl⟩

section
variable {i : Nat} {ps : List (Rec L R)} {hb : BuildHasher L R}

omit [EquivBEq L] [EquivBEq R] in
theorem idsL_cons {x : UInt64 × MappingPair L} (hx : i ≠ x.2.id) (h : ∀ q ∈ ps, i ≠ q.id) :
    ∀ y ∈ x :: tabL hb ps, justId i y.2 = false := by
  intro y hy
  rcases List.mem_cons.1 hy with rfl | hy
  · simp [justId, hx]
  · exact idsL h y hy

omit [EquivBEq L] [EquivBEq R] in
theorem idsR_cons {x : UInt64 × MappingPair R} (hx : i ≠ x.2.id) (h : ∀ q ∈ ps, i ≠ q.id) :
    ∀ y ∈ x :: tabR hb ps, justId i y.2 = false := by
  intro y hy
  rcases List.mem_cons.1 hy with rfl | hy
  · simp [justId, hx]
  · exact idsR h y hy

theorem hids_of_ids {T : Type} {l : List (UInt64 × MappingPair T)} {a : UInt64}
    (h : ∀ y ∈ l, justId i y.2 = false) : ∀ y ∈ l, hashAndId a i y.2 = false := by
  intro y hy
  have := h y hy
  simp_all [justId, hashAndId]
end

theorem pairForced_refines (h : Repr m c) (l : L) (r : R) :
    ∃ m', m.pairForced l r = .ok ((PartialSpec.pairForced c l r).1, m') ∧ Repr m' (PartialSpec.pairForced c l r).2 ∧
      m'.hb = m.hb ∧ m'.counter ≤ m.counter + 1 := by
  unfold PartialSpec.pairForced pairForced
  rw [arePaired_refines h]
  rcases h.casesLR l r with ⟨hn, ps, hr, hn'⟩ | ⟨hn, ps, hr, hn'⟩ | ⟨a, b, i, ps, hr, hp, hl, hrr, hnl, hnr⟩ |
    ⟨p, q, ps, hr, hp, hl, hlr, hrr, hrl, hnl, hnr⟩
  · rw [findL_none hn, hasPair_none_of hn]
    exact ⟨m, by simp [hr.getMut_left_none hn'], h, rfl, Nat.le_succ _⟩
  · rw [findR_none hn, hasPair_none_of' hn]
    refine ⟨m, ?_, ?_, rfl, Nat.le_succ _⟩
    · simp only [hr.getMut_right_none hn']
      split <;> simp_all
    · split <;> first | exact h | simp_all
  · have hpair : hasPair c l r = true := by
      rw [hasPair, any_eq_of_perm hp]; simp [hasL, hasR, hl, hrr]
    rw [hpair, findL_some hp hl (forall_map hnl), findR_some hp hrr (forall_map hnr)]
    exact ⟨m, by simp [leftOf, rightOf], h, rfl, Nat.le_succ _⟩
  · obtain ⟨x, w1, hx, e1, f1⟩ := hr.getMut_left_some hl
    obtain ⟨y, w2, hy, e2, f2⟩ := hr.swap.getMut_right_some hrr
    rw [findL_two hp hl hrl hnl, findR_two hp hrr hlr hnr, hasPair_two hp hlr hrl hnl]
    have ho := (others_two hp hl hrr hnl hnr).symm
    have hidp : ∀ x ∈ ps, p.id ≠ x.id := fun x hx => hr.ids x (List.mem_cons_of_mem _ hx)
    have hidq : ∀ x ∈ ps, q.id ≠ x.id := fun x hx => hr.swap.ids x (List.mem_cons_of_mem _ hx)
    have hpq : p.id ≠ q.id := hr.ids q (by simp)
    have hip : p.id < m.counter := hr.bound p (by simp)
    have hiq : q.id < m.counter := hr.bound q (by simp)
    have hap := (hr.tailApart q (by simp)).2
    have haq := hap.symm
    obtain ⟨e, i⟩ := p
    obtain ⟨f, j⟩ := q
    dsimp only at hidp hidq hpq hip hiq
    rcases hasL_cases hl with ⟨a, rfl, ha⟩ | ⟨a, a', rfl, ha⟩ <;>
      rcases hasR_cases hrr with ⟨b, rfl, hb⟩ | ⟨b', b, rfl, hb⟩ <;> cases hx <;> cases hy <;>
      rw [m.hb.hr_congr _ _ hb] at * <;> rw [m.hb.hl_congr _ _ ha] at *
    · have := hr.rebuild (old := [_, _]) (new := [⟨someBoth a b, i⟩]) (ps := ps) (Nat.le_refl _)
        (f1 ⟨a, some (m.hb.hr b), i⟩) (f2 ⟨b, some (m.hb.hl a), i⟩)
        (by simp) (by simp) (by simp) (by simp [leftOf]) (by simp [rightOf])
      exact ⟨_, by simp [e1, e2, leftOf, rightOf, ofPair], this.repr.perm (ho.cons _), rfl, Nat.le_succ _⟩
    · obtain ⟨w3, e3, f3⟩ := RawTable.getMut_some (p := hashAndId (m.hb.hr b) j) (h := m.hb.hl b')
        ((f1 ⟨a, some (m.hb.hr b), i⟩).trans (.swap _ _ _)) rfl (hashAndId_self _ _ _)
        (hids_of_ids (idsL_cons hpq.symm hidq))
      have e4 := RawTable.get_some (p := justId j) (h := m.hb.hl b') (f3 ⟨b', none, j⟩) rfl (justId_self _ _ _)
        (idsL_cons hpq.symm hidq)
      have := hr.rebuild (old := [_, _]) (new := [⟨someBoth a b, i⟩, ⟨someLeft b', j⟩]) (ps := ps) (Nat.le_refl _)
        ((f3 ⟨b', none, j⟩).trans (.swap _ _ _)) (f2 ⟨b, some (m.hb.hl a), i⟩)
        (by simp_all [Apart, Disj, leftOf, rightOf, hasL, hasR]) (by simp) (by simp) (by simp [leftOf]) (by simp [rightOf])
      exact ⟨_, by simp [e1, e2, e3, e4, leftOf, rightOf, ofPair],
        this.repr.perm ((ho.cons _).cons _), rfl, Nat.le_succ _⟩
    · obtain ⟨w3, e3, f3⟩ := RawTable.getMut_some (p := hashAndId (m.hb.hl a) i) (h := m.hb.hr a')
        ((f2 ⟨b, some (m.hb.hl a), j⟩).trans (.swap _ _ _)) rfl (hashAndId_self _ _ _)
        (hids_of_ids (idsR_cons hpq hidp))
      have e4 := RawTable.get_some (p := justId i) (h := m.hb.hr a') (f3 ⟨a', none, i⟩) rfl (justId_self _ _ _)
        (idsR_cons hpq hidp)
      have := hr.rebuild (old := [_, _]) (new := [⟨someBoth a b, j⟩, ⟨someRight a', i⟩]) (ps := ps) (Nat.le_refl _)
        (f1 ⟨a, some (m.hb.hr b), j⟩) ((f3 ⟨a', none, i⟩).trans (.swap _ _ _))
        (by simp_all [Apart, Disj, leftOf, rightOf, hasL, hasR]; omega) (by simp) (by simp) (by simp [leftOf]) (by simp [rightOf])
      exact ⟨_, by simp [e1, e2, e3, e4, leftOf, rightOf, ofPair],
        this.repr.perm ((ho.cons _).cons _), rfl, Nat.le_succ _⟩
    · obtain ⟨w3, e3, f3⟩ := RawTable.getMut_some (p := hashAndId (m.hb.hr b) j) (h := m.hb.hl b')
        ((f1 ⟨a, some (m.hb.hr b), m.counter⟩).trans (.swap _ _ _)) rfl (hashAndId_self _ _ _)
        (hids_of_ids (idsL_cons (by simp; omega) hidq))
      have e4 := RawTable.get_some (p := justId j) (h := m.hb.hl b') (f3 ⟨b', none, j⟩) rfl (justId_self _ _ _)
        (idsL_cons (by simp; omega) hidq)
      obtain ⟨w5, e5, f5⟩ := RawTable.getMut_some (p := hashAndId (m.hb.hl a) i) (h := m.hb.hr a')
        ((f2 ⟨b, some (m.hb.hl a), m.counter⟩).trans (.swap _ _ _)) rfl (hashAndId_self _ _ _)
        (hids_of_ids (idsR_cons (by simp; omega) hidp))
      have e6 := RawTable.get_some (p := justId i) (h := m.hb.hr a') (f5 ⟨a', none, i⟩) rfl (justId_self _ _ _)
        (idsR_cons (by simp; omega) hidp)
      have := hr.rebuild (old := [_, _]) (new := [⟨someBoth a b, m.counter⟩, ⟨someLeft b', j⟩, ⟨someRight a', i⟩])
        (ps := ps) (Nat.le_succ _)
        ((f3 ⟨b', none, j⟩).trans (.swap _ _ _)) ((f5 ⟨a', none, i⟩).trans (.swap _ _ _))
        (by simp_all [Apart, Disj, leftOf, rightOf, hasL, hasR]; omega) (by simp) (by simp) (by simp [leftOf]) (by simp [rightOf])
      exact ⟨_, by simp [e1, e2, e3, e4, e5, e6, leftOf, rightOf, ofPair],
        this.repr.perm (((ho.cons _).cons _).cons _), rfl, Nat.le_refl _⟩

theorem pairForcedRemove_refines (h : Repr m c) (l : L) (r : R) :
    ∃ m', m.pairForcedRemove l r = .ok ((PartialSpec.pairForcedRemove c l r).1, m') ∧ Repr m' (PartialSpec.pairForcedRemove c l r).2 ∧
      m'.hb = m.hb ∧ m'.counter ≤ m.counter + 1 := by
  unfold PartialSpec.pairForcedRemove pairForcedRemove
  rw [arePaired_refines h]
  rcases h.casesLR l r with ⟨hn, ps, hr, hn'⟩ | ⟨hn, ps, hr, hn'⟩ | ⟨a, b, i, ps, hr, hp, hl, hrr, hnl, hnr⟩ |
    ⟨p, q, ps, hr, hp, hl, hlr, hrr, hrl, hnl, hnr⟩
  · rw [findL_none hn, hasPair_none_of hn]
    exact ⟨m, by simp [hr.getMut_left_none hn'], h, rfl, Nat.le_succ _⟩
  · rw [findR_none hn, hasPair_none_of' hn]
    refine ⟨m, ?_, ?_, rfl, Nat.le_succ _⟩
    · simp only [hr.getMut_right_none hn']
      split <;> simp_all
    · split <;> first | exact h | simp_all
  · have hpair : hasPair c l r = true := by
      rw [hasPair, any_eq_of_perm hp]; simp [hasL, hasR, hl, hrr]
    rw [hpair, findL_some hp hl (forall_map hnl), findR_some hp hrr (forall_map hnr)]
    exact ⟨m, by simp [leftOf, rightOf], h, rfl, Nat.le_succ _⟩
  · obtain ⟨x, w1, hx, e1, f1⟩ := hr.getMut_left_some hl
    obtain ⟨y, w2, hy, e2, f2⟩ := hr.swap.getMut_right_some hrr
    rw [findL_two hp hl hrl hnl, findR_two hp hrr hlr hnr, hasPair_two hp hlr hrl hnl]
    have ho := (others_two hp hl hrr hnl hnr).symm
    have hidp : ∀ x ∈ ps, p.id ≠ x.id := fun x hx => hr.ids x (List.mem_cons_of_mem _ hx)
    have hidq : ∀ x ∈ ps, q.id ≠ x.id := fun x hx => hr.swap.ids x (List.mem_cons_of_mem _ hx)
    have hpq : p.id ≠ q.id := hr.ids q (by simp)
    have hip : p.id < m.counter := hr.bound p (by simp)
    have hiq : q.id < m.counter := hr.bound q (by simp)
    have hap := (hr.tailApart q (by simp)).2
    have haq := hap.symm
    obtain ⟨e, i⟩ := p
    obtain ⟨f, j⟩ := q
    dsimp only at hidp hidq hpq hip hiq
    rcases hasL_cases hl with ⟨a, rfl, ha⟩ | ⟨a, a', rfl, ha⟩ <;>
      rcases hasR_cases hrr with ⟨b, rfl, hb⟩ | ⟨b', b, rfl, hb⟩ <;> cases hx <;> cases hy <;>
      rw [m.hb.hr_congr _ _ hb] at * <;> rw [m.hb.hl_congr _ _ ha] at *
    · have := hr.rebuild (old := [_, _]) (new := [⟨someBoth a b, i⟩]) (ps := ps) (Nat.le_refl _)
        (f1 ⟨a, some (m.hb.hr b), i⟩) (f2 ⟨b, some (m.hb.hl a), i⟩)
        (by simp) (by simp) (by simp) (by simp [leftOf]) (by simp [rightOf])
      exact ⟨_, by simp [e1, e2, leftOf, rightOf, ofPair], this.repr.perm (ho.cons _), rfl, Nat.le_succ _⟩
    · obtain ⟨t3, e3, f3⟩ := RawTable.removeEntry_some (p := hashAndId (m.hb.hr b) j) (h := m.hb.hl b')
        ((f1 ⟨a, some (m.hb.hr b), i⟩).trans (.swap _ _ _)) rfl (hashAndId_self _ _ _)
        (hids_of_ids (idsL_cons hpq.symm hidq))
      have := hr.rebuild (old := [_, _]) (new := [⟨someBoth a b, i⟩]) (ps := ps) (Nat.le_refl _)
        f3 (f2 ⟨b, some (m.hb.hl a), i⟩)
        (by simp) (by simp) (by simp) (by simp [leftOf]) (by simp [rightOf])
      exact ⟨_, by simp [e1, e2, e3, leftOf, rightOf, ofPair],
        this.repr.perm (ho.cons _), rfl, Nat.le_succ _⟩
    · obtain ⟨t3, e3, f3⟩ := RawTable.removeEntry_some (p := justId i) (h := m.hb.hr a')
        ((f2 ⟨b, some (m.hb.hl a), j⟩).trans (.swap _ _ _)) rfl (justId_self _ _ _)
        (idsR_cons hpq hidp)
      have := hr.rebuild (old := [_, _]) (new := [⟨someBoth a b, j⟩]) (ps := ps) (Nat.le_refl _)
        (f1 ⟨a, some (m.hb.hr b), j⟩) f3
        (by simp) (by simp) (by simp) (by simp [leftOf]) (by simp [rightOf])
      exact ⟨_, by simp [e1, e2, e3, leftOf, rightOf, ofPair],
        this.repr.perm (ho.cons _), rfl, Nat.le_succ _⟩
    · obtain ⟨t3, e3, f3⟩ := RawTable.removeEntry_some (p := justId j) (h := m.hb.hl b')
        ((f1 ⟨a, some (m.hb.hr b), m.counter⟩).trans (.swap _ _ _)) rfl (justId_self _ _ _)
        (idsL_cons (by simp; omega) hidq)
      obtain ⟨t5, e5, f5⟩ := RawTable.removeEntry_some (p := justId i) (h := m.hb.hr a')
        ((f2 ⟨b, some (m.hb.hl a), m.counter⟩).trans (.swap _ _ _)) rfl (justId_self _ _ _)
        (idsR_cons (by simp; omega) hidp)
      have := hr.rebuild (old := [_, _]) (new := [⟨someBoth a b, m.counter⟩])
        (ps := ps) (Nat.le_succ _) f3 f5
        (by simp) (by simp) (by simp) (by simp [leftOf]) (by simp [rightOf])
      exact ⟨_, by simp [e1, e2, e3, e5, leftOf, rightOf, ofPair],
        this.repr.perm (ho.cons _), rfl, Nat.le_refl _⟩

theorem unpair_refines (h : Repr m c) (l : L) (r : R) (hs : UnpairSafe m.hb c l r) :
    ∃ m', m.unpair l r = ((PartialSpec.unpair c l r).1, m') ∧ Repr m' (PartialSpec.unpair c l r).2 ∧
      m'.hb = m.hb ∧ m'.counter ≤ m.counter + 1 := by
  unfold PartialSpec.unpair unpair
  rcases h.casesLR l r with ⟨hn, ps, hr, hn'⟩ | ⟨hn, ps, hr, hn'⟩ | ⟨a, b, i, ps, hr, hp, hl, hrr, hnl, hnr⟩ |
    ⟨p, q, ps, hr, hp, hl, hlr, hrr, hrl, hnl, hnr⟩
  · rw [hasPair_none_of hn]
    exact ⟨m, by simp [hr.getMut_left_none hn'], h, rfl, Nat.le_succ _⟩
  · rw [hasPair_none_of' hn]
    refine ⟨m, ?_, h, rfl, Nat.le_succ _⟩
    simp only [hr.getMut_right_none hn']
    split <;> simp_all
  · have hpair : hasPair c l r = true := by
      rw [hasPair, any_eq_of_perm hp]; simp [hasL, hasR, hl, hrr]
    obtain ⟨x, w1, hx, e1, f1⟩ := hr.getMut_left_some (l := l) hl
    obtain ⟨y, w2, hy, e2, f2⟩ := hr.getMut_right_some (r := r) hrr
    cases hx; cases hy
    have ho := (others_one hp hl hnl hnr).symm
    rw [hpair, findL_some hp hl (forall_map hnl), findR_some hp hrr (forall_map hnr)]
    have hi : i < m.counter := hr.bound ⟨someBoth a b, i⟩ (by simp)
    rw [m.hb.hr_congr _ _ hrr] at *
    rw [m.hb.hl_congr _ _ hl] at *
    have := hr.rebuild (old := [_]) (new := [⟨someLeft a, i⟩, ⟨someRight b, m.counter⟩]) (ps := ps) (Nat.le_succ _)
      (f1 ⟨a, none, i⟩) (f2 ⟨b, none, m.counter⟩)
      (by simp [Apart, Disj, leftOf, rightOf, hasL, hasR]; omega) (by simp) (by simp) (by simp [leftOf]) (by simp [rightOf])
    exact ⟨_, by simp [e1, e2, leftOf, rightOf, ofPair], this.repr.perm ((ho.cons _).cons _), rfl, Nat.le_refl _⟩
  · obtain ⟨x, w1, hx, e1, f1⟩ := hr.getMut_left_some hl
    obtain ⟨y, w2, hy, e2, f2⟩ := hr.swap.getMut_right_some hrr
    have hpair := hasPair_two hp hlr hrl hnl
    rw [hpair]
    refine ⟨m, ?_, h, rfl, Nat.le_succ _⟩
    obtain ⟨e, i⟩ := p
    obtain ⟨f, j⟩ := q
    rcases hasL_cases hl with ⟨a, rfl, ha⟩ | ⟨a, a', rfl, ha⟩ <;>
      rcases hasR_cases hrr with ⟨b, rfl, hb⟩ | ⟨b', b, rfl, hb⟩ <;> cases hx <;> cases hy <;>
      simp only [e1, e2]
    · simp
    · simp
    · simp
    · split
      · rename_i hc
        simp at hc
        have := hs a a' b' b (hp.mem_iff.2 (by simp)) (hp.mem_iff.2 (by simp)) ha hb hc.2 hc.1
        rw [hpair] at this; cases this
      · simp

end Verif.PartialMap
