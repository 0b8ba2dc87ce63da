import Verif.PartialMap.WeakBulk
/-! Histories of `PartialCycleMap` with a `==` that is any relation the hash agrees with. -/
set_option linter.unusedSectionVars false
set_option linter.unusedSimpArgs false
namespace Verif.PartialMap
open PartialSpec PartialWeak OptionalPair
open CycleSpec (split)

variable [RawImpl] [LawfulRaw] {L R : Type} [BEq L] [BEq R]
variable {m : PartialMap L R} {p q : Rec L R} {ps qs : List (Rec L R)} {l : L} {r : R}

theorem takeL_cases {c c' : List (OptionalPair L R)} {o} (h : TakeL c l o c') (ho : o ≠ neither) : ¬ NoL c l := by
  rcases h with ⟨rfl, -⟩ | ⟨hl, hp⟩
  · exact absurd rfl ho
  · intro hn
    rw [hn o (hp.mem_iff.2 List.mem_cons_self)] at hl; cases hl

theorem takeR_after {c c₁ c' : List (OptionalPair L R)} {o o'} (h : TakeL c l o c₁) (h' : TakeR c₁ r o' c')
    (ho : o' ≠ neither) : ¬ NoR c r := by
  rcases h' with ⟨rfl, -⟩ | ⟨hr, hp⟩
  · exact absurd rfl ho
  · intro hn
    have hmem : o' ∈ c₁ := hp.mem_iff.2 List.mem_cons_self
    have : o' ∈ c := by
      rcases h with ⟨-, -, hp1⟩ | ⟨-, hp1⟩
      · exact hp1.mem_iff.1 hmem
      · exact hp1.mem_iff.2 (List.mem_cons_of_mem _ hmem)
    rw [hn o' this] at hr; cases hr

theorem swapLeftOrInsert_weak (h : Linked m ps) (old new : L) (r : R) :
    (∃ o m' qs, m.swapLeftOrInsert old new r = .ok (o, m') ∧
      PartialWeak.Step (ents ps) (.swapLeftOrInsert old new r) (.swappedLeft o) (ents qs) ∧ Linked m' qs ∧ m'.hb = m.hb) ∨
    ((∃ e, m.swapLeftOrInsert old new r = .error e) ∧ ¬ Calm (ents ps) (.swapLeftOrInsert old new r)) := by
  rcases h.probeL old with ⟨e, hn⟩ | ⟨p, qs, x, hq, hl, hx, e⟩
  · obtain ⟨o₁, o₂, m', qs, e', s, h', hb⟩ := insert_weak h new r
    by_cases ho : o₁ = neither
    · subst ho
      by_cases ho2 : o₂ = neither
      · subst ho2
        refine .inl ⟨neither, m', qs, ?_, .inr ⟨noL_ents.2 hn, _, s, .inl ⟨rfl, rfl⟩⟩, h', hb⟩
        simp [swapLeftOrInsert, e, e', bind, Except.bind, pure, Except.pure]
      · refine .inl ⟨someRight o₂, m', qs, ?_, .inr ⟨noL_ents.2 hn, _, s, .inr ⟨ho2, rfl⟩⟩, h', hb⟩
        cases o₂ <;> simp_all [swapLeftOrInsert, e, e', bind, Except.bind, pure, Except.pure]
    · refine .inr ⟨⟨.unreachable, ?_⟩, ?_⟩
      · cases o₁ <;> simp_all [swapLeftOrInsert, bind, Except.bind]
      · rintro (hc | hc)
        · exact hc (noL_ents.2 hn)
        · obtain ⟨c₁, c₂, ht, -⟩ := s
          exact takeL_cases ht ho hc
  · obtain ⟨o, m', qs', e', s, h', hb⟩ := swapLeft_weak h old new
    refine .inl ⟨o, m', qs', by simp [swapLeftOrInsert, e, e'], .inl ⟨fun hn => ?_, o, s, rfl⟩, h', hb⟩
    rw [noL_ents.1 hn p (hq.mem_iff.2 List.mem_cons_self)] at hl; cases hl

theorem swapRightOrInsert_weak (h : Linked m ps) (old new : R) (l : L) :
    (∃ o m' qs, m.swapRightOrInsert old new l = .ok (o, m') ∧
      PartialWeak.Step (ents ps) (.swapRightOrInsert old new l) (.swappedRight o) (ents qs) ∧ Linked m' qs ∧ m'.hb = m.hb) ∨
    ((∃ e, m.swapRightOrInsert old new l = .error e) ∧ ¬ Calm (ents ps) (.swapRightOrInsert old new l)) := by
  rcases h.probeR old with ⟨e, hn⟩ | ⟨p, qs, x, hq, hl, hx, e⟩
  · obtain ⟨o₁, o₂, m', qs, e', s, h', hb⟩ := insert_weak h l new
    by_cases ho : o₂ = neither
    · subst ho
      by_cases ho2 : o₁ = neither
      · subst ho2
        refine .inl ⟨neither, m', qs, ?_, .inr ⟨noR_ents.2 hn, _, s, .inl ⟨rfl, rfl⟩⟩, h', hb⟩
        simp [swapRightOrInsert, e, e', bind, Except.bind, pure, Except.pure]
      · refine .inl ⟨someRight o₁, m', qs, ?_, .inr ⟨noR_ents.2 hn, _, s, .inr ⟨ho2, rfl⟩⟩, h', hb⟩
        cases o₁ <;> simp_all [swapRightOrInsert, e, e', bind, Except.bind, pure, Except.pure]
    · refine .inr ⟨⟨.unreachable, ?_⟩, ?_⟩
      · cases o₁ <;> cases o₂ <;> simp_all [swapRightOrInsert, bind, Except.bind]
      · rintro (hc | hc)
        · exact hc (noR_ents.2 hn)
        · obtain ⟨c₁, c₂, ht, ht', -⟩ := s
          exact takeR_after ht ht' ho hc
  · obtain ⟨o, m', qs', e', s, h', hb⟩ := swapRight_weak h old new
    refine .inl ⟨o, m', qs', by simp [swapRightOrInsert, e, e'], .inl ⟨fun hn => ?_, o, s, rfl⟩, h', hb⟩
    rw [noR_ents.1 hn p (hq.mem_iff.2 List.mem_cons_self)] at hl; cases hl

/-- one call: it returns what the specification allows, or it panics and was not certain not to -/
theorem exec_weak (h : Linked m ps) (op : Op L R) (hs : Sane m.hb (ents ps) op) :
    (∃ o m' qs, m.exec op = .ok (o, m') ∧ PartialWeak.Step (ents ps) op o (ents qs) ∧ Linked m' qs ∧ m'.hb = m.hb) ∨
    ((∃ e, m.exec op = .error e) ∧ ¬ Calm (ents ps) op) := by
  cases op with
  | insert l r =>
    obtain ⟨o₁, o₂, m', qs, e, s, h', hb⟩ := insert_weak h l r
    exact .inl ⟨_, m', qs, by simp only [exec, e, bind, Except.bind]; rfl, ⟨o₁, o₂, s, rfl⟩, h', hb⟩
  | insertLeft l =>
    obtain ⟨o, m', qs, e, s, h', hb⟩ := insertLeft_weak h l
    exact .inl ⟨_, m', qs, by simp only [exec, e, bind, Except.bind]; rfl, ⟨o, s, rfl⟩, h', hb⟩
  | insertRight r =>
    obtain ⟨o, m', qs, e, s, h', hb⟩ := insertRight_weak h r
    exact .inl ⟨_, m', qs, by simp only [exec, e, bind, Except.bind]; rfl, ⟨o, s, rfl⟩, h', hb⟩
  | pair l r =>
    obtain ⟨b, m', qs, e, s, h', hb⟩ := pair_weak h l r
    exact .inl ⟨.bool b, m', qs, by simp only [exec, e], ⟨b, s, rfl⟩, h', hb⟩
  | pairForced l r =>
    obtain ⟨o, m', qs, e, s, h', hb⟩ := pairForced_weak h l r
    exact .inl ⟨_, m', qs, by simp only [exec, e, bind, Except.bind]; rfl, ⟨o, s, rfl⟩, h', hb⟩
  | pairForcedRemove l r =>
    obtain ⟨o, m', qs, e, s, h', hb⟩ := pairForcedRemove_weak h l r
    exact .inl ⟨_, m', qs, by simp only [exec, e, bind, Except.bind]; rfl, ⟨o, s, rfl⟩, h', hb⟩
  | unpair l r =>
    obtain ⟨b, m', qs, e, s, h', hb⟩ := unpair_weak h l r hs
    exact .inl ⟨.bool b, m', qs, by simp only [exec, e], ⟨b, s, rfl⟩, h', hb⟩
  | remove l r =>
    obtain ⟨o, m', qs, e, h', hb, s⟩ := remove_weak h l r
    refine .inl ⟨.pair o, m', qs, by simp only [exec, e, bind, Except.bind]; rfl, ?_, h', hb⟩
    rcases s with ⟨x, y, rfl, h1, h2, h3⟩ | ⟨rfl, h1, h2⟩
    · exact .inl ⟨x, y, rfl, h1, h2, h3⟩
    · exact .inr ⟨rfl, h1, h2⟩
  | removeViaLeft l =>
    obtain ⟨o, m', qs, e, s, h', hb, -⟩ := removeViaLeft_weak h l
    exact .inl ⟨_, m', qs, by simp only [exec, e, bind, Except.bind]; rfl, ⟨o, s, rfl⟩, h', hb⟩
  | removeViaRight r =>
    obtain ⟨o, m', qs, e, s, h', hb, -⟩ := removeViaRight_weak h r
    exact .inl ⟨_, m', qs, by simp only [exec, e, bind, Except.bind]; rfl, ⟨o, s, rfl⟩, h', hb⟩
  | removeLeft l =>
    obtain ⟨o, m', qs, e, s, h', hb⟩ := removeLeft_weak h l
    exact .inl ⟨_, m', qs, by simp only [exec, e, bind, Except.bind]; rfl, ⟨o, s, rfl⟩, h', hb⟩
  | removeRight r =>
    obtain ⟨o, m', qs, e, s, h', hb⟩ := removeRight_weak h r
    exact .inl ⟨_, m', qs, by simp only [exec, e, bind, Except.bind]; rfl, ⟨o, s, rfl⟩, h', hb⟩
  | swapLeft old new =>
    obtain ⟨o, m', qs, e, s, h', hb⟩ := swapLeft_weak h old new
    exact .inl ⟨_, m', qs, by simp only [exec, e, bind, Except.bind]; rfl, ⟨o, s, rfl⟩, h', hb⟩
  | swapLeftChecked old x new =>
    rcases arePaired_weak h old x with ⟨e, a, b, i, qs, hq, hl, hr, -⟩ | ⟨e, hu⟩
    · obtain ⟨o, m', qs', e', s, h', hb⟩ := swapLeft_weak h old new
      exact .inl ⟨.swappedLeft o, m', qs', by simp [exec, swapLeftChecked, e, e', bind, Except.bind, pure, Except.pure],
        .inl ⟨paired_ents hq hl hr, o, s, rfl⟩, h', hb⟩
    · exact .inl ⟨.swappedLeft neither, m, ps, by simp [exec, swapLeftChecked, e, bind, Except.bind, pure, Except.pure],
        .inr ⟨hu, rfl, .refl _⟩, h, rfl⟩
  | swapLeftOrInsert old new r =>
    rcases swapLeftOrInsert_weak h old new r with ⟨o, m', qs, e, s, h', hb⟩ | ⟨⟨e, he⟩, hc⟩
    · exact .inl ⟨_, m', qs, by simp only [exec, e, bind, Except.bind]; rfl, s, h', hb⟩
    · exact .inr ⟨⟨e, by simp only [exec, he, bind, Except.bind]⟩, hc⟩
  | swapRight old new =>
    obtain ⟨o, m', qs, e, s, h', hb⟩ := swapRight_weak h old new
    exact .inl ⟨_, m', qs, by simp only [exec, e, bind, Except.bind]; rfl, ⟨o, s, rfl⟩, h', hb⟩
  | swapRightChecked old x new =>
    rcases arePaired_weak h x old with ⟨e, a, b, i, qs, hq, hl, hr, -⟩ | ⟨e, hu⟩
    · obtain ⟨o, m', qs', e', s, h', hb⟩ := swapRight_weak h old new
      exact .inl ⟨.swappedRight o, m', qs', by simp [exec, swapRightChecked, e, e', bind, Except.bind, pure, Except.pure],
        .inl ⟨paired_ents hq hl hr, o, s, rfl⟩, h', hb⟩
    · exact .inl ⟨.swappedRight neither, m, ps, by simp [exec, swapRightChecked, e, bind, Except.bind, pure, Except.pure],
        .inr ⟨hu, rfl, .refl _⟩, h, rfl⟩
  | swapRightOrInsert old new l =>
    rcases swapRightOrInsert_weak h old new l with ⟨o, m', qs, e, s, h', hb⟩ | ⟨⟨e, he⟩, hc⟩
    · exact .inl ⟨_, m', qs, by simp only [exec, e, bind, Except.bind]; rfl, s, h', hb⟩
    · exact .inr ⟨⟨e, by simp only [exec, he, bind, Except.bind]⟩, hc⟩
  | getLeft r =>
    refine .inl ⟨_, m, ps, rfl, ⟨?_, .refl _⟩, h, rfl⟩
    rcases getLeft_weak h r with ⟨e, -, hn⟩ | ⟨p, hp, hr, e, -⟩ <;> rw [e]
    · exact .inl ⟨noR_ents.2 hn, rfl⟩
    · exact .inr ⟨p.e, List.mem_map.2 ⟨p, hp, rfl⟩, hr, rfl⟩
  | getRight l =>
    refine .inl ⟨_, m, ps, rfl, ⟨?_, .refl _⟩, h, rfl⟩
    rcases getRight_weak h l with ⟨e, -, hn⟩ | ⟨p, hp, hl, e, -⟩ <;> rw [e]
    · exact .inl ⟨noL_ents.2 hn, rfl⟩
    · exact .inr ⟨p.e, List.mem_map.2 ⟨p, hp, rfl⟩, hl, rfl⟩
  | containsLeft l => exact .inl ⟨_, m, ps, rfl, ⟨by rw [containsLeft_weak h], .refl _⟩, h, rfl⟩
  | containsRight r => exact .inl ⟨_, m, ps, rfl, ⟨by rw [containsRight_weak h], .refl _⟩, h, rfl⟩
  | isLeftPaired l =>
    refine .inl ⟨_, m, ps, rfl, ⟨?_, .refl _⟩, h, rfl⟩
    rcases isLeftPaired_weak h l with ⟨hn, e⟩ | ⟨x, hx, hl, e⟩ <;> rw [e]
    · exact .inl ⟨hn, rfl⟩
    · exact .inr ⟨x, hx, hl, rfl⟩
  | isRightPaired r =>
    refine .inl ⟨_, m, ps, rfl, ⟨?_, .refl _⟩, h, rfl⟩
    rcases isRightPaired_weak h r with ⟨hn, e⟩ | ⟨x, hx, hl, e⟩ <;> rw [e]
    · exact .inl ⟨hn, rfl⟩
    · exact .inr ⟨x, hx, hl, rfl⟩
  | arePaired l r =>
    refine .inl ⟨_, m, ps, rfl, ⟨?_, .refl _⟩, h, rfl⟩
    rcases arePaired_weak h l r with ⟨e, a, b, i, qs, hq, hl, hr, -⟩ | ⟨e, hu⟩ <;> rw [e]
    · exact .inl ⟨paired_ents hq hl hr, rfl⟩
    · exact .inr ⟨hu, rfl⟩
  | lenLeft => exact .inl ⟨_, m, ps, rfl, ⟨by rw [lenLeft_weak h], .refl _⟩, h, rfl⟩
  | lenRight => exact .inl ⟨_, m, ps, rfl, ⟨by rw [lenRight_weak h], .refl _⟩, h, rfl⟩
  | isEmpty => exact .inl ⟨_, m, ps, rfl, ⟨by rw [isEmpty_weak h], .refl _⟩, h, rfl⟩
  | clear => exact .inl ⟨_, _, [], rfl, ⟨rfl, rfl⟩, clear_weak m, rfl⟩
  | iter => exact .inl ⟨_, m, ps, rfl, ⟨⟨_, iterList_weak h, rfl⟩, .refl _⟩, h, rfl⟩
  | iterPaired =>
    obtain ⟨d, e, hd⟩ := iterPairedList_weak h
    exact .inl ⟨.pairs d, m, ps, by simp only [exec, e, bind, Except.bind]; rfl, ⟨⟨d, hd, rfl⟩, .refl _⟩, h, rfl⟩
  | iterUnpaired => exact .inl ⟨_, m, ps, rfl, ⟨⟨_, iterUnpairedList_weak h, rfl⟩, .refl _⟩, h, rfl⟩
  | iterLeft => exact .inl ⟨_, m, ps, rfl, ⟨⟨_, iterLeft_weak h, rfl⟩, .refl _⟩, h, rfl⟩
  | iterRight => exact .inl ⟨_, m, ps, rfl, ⟨⟨_, iterRight_weak h, rfl⟩, .refl _⟩, h, rfl⟩
  | drain n =>
    obtain ⟨d, x, m', h1, h2, h3, e, h', hb, -⟩ := drainTake_weak h n
    exact .inl ⟨_, m', [], by simp only [exec, e, bind, Except.bind]; rfl, ⟨d, x, h1, h2, h3, rfl, rfl⟩, h', hb⟩
  | drainFilter σ f s n =>
    obtain ⟨d1, us, d2, m', h1, h2, h3, h4, h5, e, hb, -, h6⟩ := drainFilterTake_weak h f s n
    obtain ⟨ks, h', hk⟩ := h6 hs
    exact .inl ⟨_, m', ks, by simp only [exec, e, bind, Except.bind]; rfl, ⟨d1, us, d2, h1, h2, h3, h4, h5, rfl, hk⟩, h', hb⟩
  | retain σ f s =>
    rcases retain_weak h f s with ⟨⟨e, he⟩, x, hx, a, ha, hn⟩ | ⟨s', m', qs, ds, d, e, h', hb, h1, h2, h3, h4⟩
    · refine .inr ⟨⟨e, by simp only [exec, he, bind, Except.bind]⟩, fun hc => ?_⟩
      have := hc x hx a ha
      rw [hn] at this; cases this
    · exact .inl ⟨.unit, m', qs, by simp only [exec, e, bind, Except.bind]; rfl, ⟨rfl, ds, d, h1, h2, h3, h4⟩, h', hb⟩
  | retainPaired σ f s =>
    rcases retainPaired_weak h f s hs with ⟨⟨e, he⟩, x, hx, hp, a, ha, hn⟩ | ⟨s', m', qs, ds, d, e, h', hb, h1, h2, h3, h4⟩
    · refine .inr ⟨⟨e, by simp only [exec, he, bind, Except.bind]⟩, fun hc => ?_⟩
      have := hc x hx hp a ha
      rw [hn] at this; cases this
    · exact .inl ⟨.unit, m', qs, by simp only [exec, e, bind, Except.bind]; rfl, ⟨rfl, ds, d, h1, h2, h3, h4⟩, h', hb⟩
  | retainUnpaired σ f s =>
    rcases retainUnpaired_weak h f s hs with ⟨⟨e, he⟩, x, hx, hp, hn⟩ | ⟨s', m', qs, ds, d, e, h', hb, h1, h2, h3, h4⟩
    · refine .inr ⟨⟨e, by simp only [exec, he, bind, Except.bind]⟩, fun hc => hn ?_⟩
      obtain ⟨ha, hb⟩ := hc x hx hp
      cases x with
      | neither => exact absurd hx h.links.nonempty
      | someLeft a => exact .inl ⟨a, rfl, ha a rfl⟩
      | someRight b => exact .inr ⟨b, rfl, hb b rfl⟩
      | someBoth => cases hp
    · exact .inl ⟨.unit, m', qs, by simp only [exec, e, bind, Except.bind]; rfl, ⟨rfl, ds, d, h1, h2, h3, h4⟩, h', hb⟩
  | extendPairs xs =>
    obtain ⟨m', qs, e, s, h', hb⟩ := extendPairs_weak h xs
    exact .inl ⟨.unit, m', qs, by simp only [exec, e, bind, Except.bind]; rfl, ⟨rfl, s⟩, h', hb⟩
  | extend xs =>
    obtain ⟨m', qs, e, s, h', hb⟩ := extend_weak h xs
    exact .inl ⟨.unit, m', qs, by simp only [exec, e, bind, Except.bind]; rfl, ⟨rfl, s⟩, h', hb⟩
  | reserveLeft n =>
    exact .inl ⟨_, _, ps, rfl, ⟨rfl, .refl _⟩,
      h.of_tables (right' := m.right) (RawTable.reserve_perm _ _ (hashesL h.left)) (.refl _), rfl⟩
  | reserveRight n =>
    exact .inl ⟨_, _, ps, rfl, ⟨rfl, .refl _⟩,
      h.of_tables (left' := m.left) (.refl _) (RawTable.reserve_perm _ _ (hashesR h.right)), rfl⟩
  | tryReserveLeft n a =>
    cases a
    · exact .inl ⟨_, m, ps, rfl, ⟨rfl, .refl _⟩, h, rfl⟩
    · exact .inl ⟨_, _, ps, rfl, ⟨rfl, .refl _⟩,
        h.of_tables (right' := m.right) (RawTable.reserve_perm _ _ (hashesL h.left)) (.refl _), rfl⟩
  | tryReserveRight n a =>
    cases a
    · exact .inl ⟨_, m, ps, rfl, ⟨rfl, .refl _⟩, h, rfl⟩
    · exact .inl ⟨_, _, ps, rfl, ⟨rfl, .refl _⟩,
        h.of_tables (left' := m.left) (.refl _) (RawTable.reserve_perm _ _ (hashesR h.right)), rfl⟩
  | shrinkToLeft n =>
    exact .inl ⟨_, _, ps, rfl, ⟨rfl, .refl _⟩,
      h.of_tables (right' := m.right) (RawTable.shrinkTo_perm _ _ (hashesL h.left)) (.refl _), rfl⟩
  | shrinkToRight n =>
    exact .inl ⟨_, _, ps, rfl, ⟨rfl, .refl _⟩,
      h.of_tables (left' := m.left) (.refl _) (RawTable.shrinkTo_perm _ _ (hashesR h.right)), rfl⟩
  | shrinkToFit =>
    exact .inl ⟨_, _, ps, rfl, ⟨rfl, .refl _⟩,
      h.of_tables (RawTable.shrinkTo_perm _ _ (hashesL h.left)) (RawTable.shrinkTo_perm _ _ (hashesR h.right)), rfl⟩
  | clone cl cr =>
    obtain ⟨qs, h', e⟩ := clone_weak h hs.1 hs.2
    exact .inl ⟨_, _, qs, rfl, ⟨rfl, .of_eq e⟩, h', rfl⟩

/-- a history that is certain not to panic -/
theorem run_weak (h : Linked m ps) {ops : List (Op L R)} (hs : CalmRun m.hb (ents ps) ops) :
    ∃ os m' qs, m.run ops = .ok (os, m') ∧ PartialWeak.Steps (ents ps) ops os (ents qs) ∧ Linked m' qs := by
  induction ops generalizing m ps with
  | nil => exact ⟨[], m, ps, rfl, ⟨rfl, .refl _⟩, h⟩
  | cons op ops ih =>
    obtain ⟨⟨h1, h2⟩, h3⟩ := hs
    rcases exec_weak h op h1 with ⟨o, m1, q1, e1, s1, k1, hb1⟩ | ⟨-, hc⟩
    · obtain ⟨os, m2, q2, e2, s2, k2⟩ := ih k1 (by rw [hb1]; exact h3 _ _ s1)
      exact ⟨o :: os, m2, q2, by simp only [run, e1, e2, bind, Except.bind]; rfl, ⟨o, os, _, rfl, s1, s2⟩, k2⟩
    · exact absurd h2 hc

/-- a history that returned -/
theorem run_weak_ok (h : Linked m ps) {ops : List (Op L R)} (hs : SaneRun m.hb (ents ps) ops) {os m'}
    (e : m.run ops = .ok (os, m')) :
    ∃ qs, PartialWeak.Steps (ents ps) ops os (ents qs) ∧ Linked m' qs := by
  induction ops generalizing m ps os with
  | nil => cases e; exact ⟨ps, ⟨rfl, .refl _⟩, h⟩
  | cons op ops ih =>
    obtain ⟨h1, h3⟩ := hs
    rcases exec_weak h op h1 with ⟨o, m1, q1, e1, s1, k1, hb1⟩ | ⟨⟨x, hx⟩, -⟩
    · simp only [run, e1, bind, Except.bind] at e
      cases e2 : m1.run ops with
      | error x => rw [e2] at e; cases e
      | ok y =>
        rw [e2] at e; cases e
        obtain ⟨q2, s2, k2⟩ := ih k1 (by rw [hb1]; exact h3 _ _ s1) e2
        exact ⟨q2, ⟨o, _, _, rfl, s1, s2⟩, k2⟩
    · simp only [run, hx, bind, Except.bind] at e; cases e

end Verif.PartialMap
