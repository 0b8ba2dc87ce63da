import Verif.PartialMap.Bulk
/-! The model simulates the list machine. -/
set_option linter.unusedSectionVars false
set_option linter.unusedSimpArgs false
namespace Verif.PartialMap
open PartialSpec OptionalPair
open CycleSpec (split)

variable [RawImpl] [LawfulRaw] {L R : Type} [BEq L] [BEq R] [EquivBEq L] [EquivBEq R]
variable {m : PartialMap L R} {c : List (OptionalPair L R)}

theorem findL_isSome (h : Repr m c) (l : L) :
    (m.left.get (m.hb.hl l) (equivalentKey l)).isSome = (findL c l).isSome := by
  have := containsLeft_refines h l
  rw [containsLeft] at this
  rw [this, findL, Bool.eq_iff_iff, List.find?_isSome, List.any_eq_true]

theorem findR_isSome (h : Repr m c) (r : R) :
    (m.right.get (m.hb.hr r) (equivalentKey r)).isSome = (findR c r).isSome := by
  have := containsRight_refines h r
  rw [containsRight] at this
  rw [this, findR, Bool.eq_iff_iff, List.find?_isSome, List.any_eq_true]

theorem swapLeftChecked_refines (h : Repr m c) (old : L) (e : R) (new : L) :
    ∃ m', m.swapLeftChecked old e new =
        .ok (if hasPair c old e then (PartialSpec.swapLeft c old new).1 else neither, m') ∧
      Repr m' (if hasPair c old e then (PartialSpec.swapLeft c old new).2 else c) ∧ m'.hb = m.hb := by
  unfold swapLeftChecked
  rw [arePaired_refines h]
  cases hasPair c old e
  · exact ⟨m, rfl, h, rfl⟩
  · obtain ⟨m', e, h', hb, _⟩ := swapLeft_refines h old new
    exact ⟨m', e, h', hb⟩

theorem swapRightChecked_refines (h : Repr m c) (old : R) (e : L) (new : R) :
    ∃ m', m.swapRightChecked old e new =
        .ok (if hasPair c e old then (PartialSpec.swapRight c old new).1 else neither, m') ∧
      Repr m' (if hasPair c e old then (PartialSpec.swapRight c old new).2 else c) ∧ m'.hb = m.hb := by
  unfold swapRightChecked
  rw [arePaired_refines h]
  cases hasPair c e old
  · exact ⟨m, rfl, h, rfl⟩
  · obtain ⟨m', e, h', hb, _⟩ := swapRight_refines h old new
    exact ⟨m', e, h', hb⟩

theorem findL_ne_neither (h : Repr m c) {l : L} {e} (hf : findL c l = some e) : e ≠ neither := by
  have := List.mem_of_find?_eq_some hf
  rintro rfl
  exact h.oneToOne.2 this

theorem findR_ne_neither (h : Repr m c) {r : R} {e} (hf : findR c r = some e) : e ≠ neither := by
  have := List.mem_of_find?_eq_some hf
  rintro rfl
  exact h.oneToOne.2 this

theorem hasPair_findL {l : L} {r : R} (h : findL c l = none) : hasPair c l r = false := by
  rw [hasPair, Bool.eq_false_iff]
  intro hx
  obtain ⟨e, he, hb⟩ := List.any_eq_true.1 hx
  rw [findL, List.find?_eq_none] at h
  exact h e he (by simp at hb; exact hb.1)

theorem hasPair_findR {l : L} {r : R} (h : findR c r = none) : hasPair c l r = false := by
  rw [hasPair, Bool.eq_false_iff]
  intro hx
  obtain ⟨e, he, hb⟩ := List.any_eq_true.1 hx
  rw [findR, List.find?_eq_none] at h
  exact h e he (by simp at hb; exact hb.2)

theorem swapLeftOrInsert_refines (h : Repr m c) (old new : L) (r : R)
    (hs : (findL c old).isSome = true ∨ findL c new = none) :
    ∃ m', m.swapLeftOrInsert old new r =
        .ok (if (findL c old).isSome then (PartialSpec.swapLeft c old new).1 else ofPair (none, findR c r), m') ∧
      Repr m' (if (findL c old).isSome then (PartialSpec.swapLeft c old new).2 else (PartialSpec.insert c new r).2) ∧
      m'.hb = m.hb := by
  unfold swapLeftOrInsert
  rw [findL_isSome h]
  cases hf : (findL c old).isSome
  · have hn : findL c new = none := by simpa [hf] using hs
    obtain ⟨m', e, h', hb, _⟩ := insert_refines h new r
    refine ⟨m', ?_, h', hb⟩
    simp only [PartialSpec.insert, hn, hasPair_findL hn, Option.getD_none] at e
    cases hr : findR c r with
    | none => rw [hr] at e; simp [e, bind, Except.bind, pure, Except.pure, ofPair]
    | some x =>
      have := findR_ne_neither h hr
      rw [hr] at e
      cases x <;> simp_all [bind, Except.bind, pure, Except.pure, ofPair]
  · obtain ⟨m', e, h', hb, _⟩ := swapLeft_refines h old new
    exact ⟨m', by simp [e], h', hb⟩

/-- where it panics -/
theorem swapLeftOrInsert_panics (h : Repr m c) (old new : L) (r : R)
    (hs : ¬ ((findL c old).isSome = true ∨ findL c new = none)) :
    m.swapLeftOrInsert old new r = .error .unreachable := by
  unfold swapLeftOrInsert
  rw [findL_isSome h]
  rw [not_or] at hs
  cases hf : (findL c old).isSome with
  | true => exact absurd hf hs.1
  | false =>
    obtain ⟨m', e, h', hb, _⟩ := insert_refines h new r
    cases hl : findL c new with
    | none => exact absurd hl hs.2
    | some x =>
      have := findL_ne_neither h hl
      simp only [PartialSpec.insert, hl, Option.getD_some] at e
      cases x <;> simp_all [bind, Except.bind]

theorem swapRightOrInsert_refines (h : Repr m c) (old new : R) (l : L)
    (hs : (findR c old).isSome = true ∨ hasPair c l new = true ∨ findR c new = none) :
    ∃ m', m.swapRightOrInsert old new l =
        .ok (if (findR c old).isSome then (PartialSpec.swapRight c old new).1 else ofPair (none, findL c l), m') ∧
      Repr m' (if (findR c old).isSome then (PartialSpec.swapRight c old new).2 else (PartialSpec.insert c l new).2) ∧
      m'.hb = m.hb := by
  unfold swapRightOrInsert
  rw [findR_isSome h]
  cases hf : (findR c old).isSome
  · obtain ⟨m', e, h', hb, _⟩ := insert_refines h l new
    refine ⟨m', ?_, h', hb⟩
    have hn : (if hasPair c l new = true then neither else (findR c new).getD neither) = neither := by
      rcases hs with hs | hs | hs
      · rw [hf] at hs; cases hs
      · rw [if_pos hs]
      · rw [hs]; split <;> rfl
    simp only [PartialSpec.insert, hn] at e
    cases hr : findL c l with
    | none => rw [hr] at e; simp [e, bind, Except.bind, pure, Except.pure, ofPair]
    | some x =>
      have := findL_ne_neither h hr
      rw [hr] at e
      cases x <;> simp_all [bind, Except.bind, pure, Except.pure, ofPair]
  · obtain ⟨m', e, h', hb, _⟩ := swapRight_refines h old new
    exact ⟨m', by simp [e], h', hb⟩

/-- where it panics -/
theorem swapRightOrInsert_panics (h : Repr m c) (old new : R) (l : L)
    (hs : ¬ ((findR c old).isSome = true ∨ hasPair c l new = true ∨ findR c new = none)) :
    m.swapRightOrInsert old new l = .error .unreachable := by
  unfold swapRightOrInsert
  rw [findR_isSome h]
  rw [not_or, not_or] at hs
  cases hf : (findR c old).isSome with
  | true => exact absurd hf hs.1
  | false =>
    obtain ⟨m', e, h', hb, _⟩ := insert_refines h l new
    cases hl : findR c new with
    | none => exact absurd hl hs.2.2
    | some x =>
      have := findR_ne_neither h hl
      simp only [PartialSpec.insert, hl, Option.getD_some, if_neg hs.2.1] at e
      cases x <;> simp_all [bind, Except.bind]

/-- one call -/
theorem exec_simulates (h : Repr m c) {op : Op L R} (hs : Safe m.hb c op) :
    ∃ o m' c', m.exec op = .ok (o, m') ∧ Step c op o c' ∧ Repr m' c' ∧ m'.hb = m.hb := by
  cases op with
  | insert l r =>
    obtain ⟨m', e, h', hb, _⟩ := insert_refines h l r
    exact ⟨_, m', _, by simp only [exec, e, bind, Except.bind, pure, Except.pure], ⟨rfl, rfl⟩, h', hb⟩
  | insertLeft l =>
    obtain ⟨m', e, h', hb, _⟩ := insertLeft_refines h l
    exact ⟨_, m', _, by simp only [exec, e, bind, Except.bind, pure, Except.pure], ⟨rfl, rfl⟩, h', hb⟩
  | insertRight r =>
    obtain ⟨m', e, h', hb, _⟩ := insertRight_refines h r
    exact ⟨_, m', _, by simp only [exec, e, bind, Except.bind, pure, Except.pure], ⟨rfl, rfl⟩, h', hb⟩
  | pair l r =>
    obtain ⟨m', e, h', hb, _⟩ := pair_refines h l r
    exact ⟨_, m', _, by simp only [exec, e], ⟨rfl, rfl⟩, h', hb⟩
  | pairForced l r =>
    obtain ⟨m', e, h', hb, _⟩ := pairForced_refines h l r
    exact ⟨_, m', _, by simp only [exec, e, bind, Except.bind, pure, Except.pure], ⟨rfl, rfl⟩, h', hb⟩
  | pairForcedRemove l r =>
    obtain ⟨m', e, h', hb, _⟩ := pairForcedRemove_refines h l r
    exact ⟨_, m', _, by simp only [exec, e, bind, Except.bind, pure, Except.pure], ⟨rfl, rfl⟩, h', hb⟩
  | unpair l r =>
    obtain ⟨m', e, h', hb, _⟩ := unpair_refines h l r hs
    exact ⟨_, m', _, by simp only [exec, e], ⟨rfl, rfl⟩, h', hb⟩
  | remove l r =>
    obtain ⟨m', e, h', hb, _⟩ := remove_refines h l r
    exact ⟨_, m', _, by simp only [exec, e, bind, Except.bind, pure, Except.pure], ⟨rfl, rfl⟩, h', hb⟩
  | removeViaLeft l =>
    obtain ⟨m', e, h', hb, _⟩ := removeViaLeft_refines h l
    exact ⟨_, m', _, by simp only [exec, e, bind, Except.bind, pure, Except.pure], ⟨rfl, rfl⟩, h', hb⟩
  | removeViaRight r =>
    obtain ⟨m', e, h', hb, _⟩ := removeViaRight_refines h r
    exact ⟨_, m', _, by simp only [exec, e, bind, Except.bind, pure, Except.pure], ⟨rfl, rfl⟩, h', hb⟩
  | removeLeft l =>
    obtain ⟨m', e, h', hb, _⟩ := removeLeft_refines h l
    exact ⟨_, m', _, by simp only [exec, e, bind, Except.bind, pure, Except.pure], ⟨rfl, rfl⟩, h', hb⟩
  | removeRight r =>
    obtain ⟨m', e, h', hb, _⟩ := removeRight_refines h r
    exact ⟨_, m', _, by simp only [exec, e, bind, Except.bind, pure, Except.pure], ⟨rfl, rfl⟩, h', hb⟩
  | swapLeft old new =>
    obtain ⟨m', e, h', hb, _⟩ := swapLeft_refines h old new
    exact ⟨_, m', _, by simp only [exec, e, bind, Except.bind, pure, Except.pure], ⟨rfl, rfl⟩, h', hb⟩
  | swapLeftChecked old x new =>
    obtain ⟨m', e, h', hb⟩ := swapLeftChecked_refines h old x new
    refine ⟨_, m', _, by simp only [exec, e, bind, Except.bind, pure, Except.pure]; rfl, ?_, h', hb⟩
    simp only [Step]; split <;> exact ⟨rfl, rfl⟩
  | swapLeftOrInsert old new r =>
    obtain ⟨m', e, h', hb⟩ := swapLeftOrInsert_refines h old new r hs
    refine ⟨_, m', _, by simp only [exec, e, bind, Except.bind, pure, Except.pure]; rfl, ?_, h', hb⟩
    simp only [Step]
    split
    · exact ⟨rfl, rfl⟩
    · rename_i hf
      exact ⟨hs.resolve_left hf, rfl, rfl⟩
  | swapRight old new =>
    obtain ⟨m', e, h', hb, _⟩ := swapRight_refines h old new
    exact ⟨_, m', _, by simp only [exec, e, bind, Except.bind, pure, Except.pure], ⟨rfl, rfl⟩, h', hb⟩
  | swapRightChecked old x new =>
    obtain ⟨m', e, h', hb⟩ := swapRightChecked_refines h old x new
    refine ⟨_, m', _, by simp only [exec, e, bind, Except.bind, pure, Except.pure]; rfl, ?_, h', hb⟩
    simp only [Step]; split <;> exact ⟨rfl, rfl⟩
  | swapRightOrInsert old new l =>
    obtain ⟨m', e, h', hb⟩ := swapRightOrInsert_refines h old new l hs
    refine ⟨_, m', _, by simp only [exec, e, bind, Except.bind, pure, Except.pure]; rfl, ?_, h', hb⟩
    simp only [Step]
    split
    · exact ⟨rfl, rfl⟩
    · rename_i hf
      exact ⟨hs.resolve_left hf, rfl, rfl⟩
  | getLeft r => exact ⟨_, m, _, rfl, ⟨by rw [getLeft_refines h], rfl⟩, h, rfl⟩
  | getRight l => exact ⟨_, m, _, rfl, ⟨by rw [getRight_refines h], rfl⟩, h, rfl⟩
  | containsLeft l => exact ⟨_, m, _, rfl, ⟨by rw [containsLeft_refines h], rfl⟩, h, rfl⟩
  | containsRight r => exact ⟨_, m, _, rfl, ⟨by rw [containsRight_refines h], rfl⟩, h, rfl⟩
  | isLeftPaired l => exact ⟨_, m, _, rfl, ⟨by rw [isLeftPaired_refines h], rfl⟩, h, rfl⟩
  | isRightPaired r => exact ⟨_, m, _, rfl, ⟨by rw [isRightPaired_refines h], rfl⟩, h, rfl⟩
  | arePaired l r => exact ⟨_, m, _, rfl, ⟨by rw [arePaired_refines h], rfl⟩, h, rfl⟩
  | lenLeft => exact ⟨_, m, _, rfl, ⟨by rw [lenLeft_refines h], rfl⟩, h, rfl⟩
  | lenRight => exact ⟨_, m, _, rfl, ⟨by rw [lenRight_refines h], rfl⟩, h, rfl⟩
  | isEmpty => exact ⟨_, m, _, rfl, ⟨by rw [isEmpty_refines h], rfl⟩, h, rfl⟩
  | clear => exact ⟨_, _, _, rfl, ⟨rfl, rfl⟩, clear_refines m, rfl⟩
  | iter => exact ⟨_, m, _, rfl, ⟨_, iterList_refines h, rfl, rfl⟩, h, rfl⟩
  | iterPaired =>
    obtain ⟨ps, e, hp⟩ := iterPairedList_refines h
    exact ⟨_, m, _, by simp only [exec, e, bind, Except.bind]; rfl, ⟨ps, hp, rfl, rfl⟩, h, rfl⟩
  | iterUnpaired => exact ⟨_, m, _, rfl, ⟨_, iterUnpairedList_refines h, rfl, rfl⟩, h, rfl⟩
  | iterLeft => exact ⟨_, m, _, rfl, ⟨_, iterLeft_refines h, rfl, rfl⟩, h, rfl⟩
  | iterRight => exact ⟨_, m, _, rfl, ⟨_, iterRight_refines h, rfl, rfl⟩, h, rfl⟩
  | drain n =>
    obtain ⟨d, x, m', h1, h2, h3, e, h', hb, _⟩ := drainTake_refines h n
    exact ⟨_, m', _, by simp only [exec, e, bind, Except.bind, pure, Except.pure], ⟨d, x, h1, h2, h3, rfl, rfl⟩, h', hb⟩
  | drainFilter σ f s n =>
    obtain ⟨d1, us, d2, m', h1, h2, h3, h4, h5, e, hb, _, _, _, _, h'⟩ := drainFilterTake_refines h f s n
    exact ⟨_, m', _, by simp only [exec, e, bind, Except.bind, pure, Except.pure],
      ⟨d1, us, d2, h1, h2, h3, h4, h5, rfl, rfl⟩, h' hs, hb⟩
  | retain σ f s =>
    obtain ⟨d, us, m', h1, h2, h3, e, h', hb, _⟩ := retain_refines h f s
    exact ⟨_, m', _, by simp only [exec, e, bind, Except.bind, pure, Except.pure], ⟨d, us, h1, h2, h3, rfl, rfl⟩, h', hb⟩
  | retainPaired σ f s =>
    obtain ⟨d, m', h1, e, h', hb, _⟩ := retainPaired_refines h f s
    exact ⟨_, m', _, by simp only [exec, e, bind, Except.bind, pure, Except.pure], ⟨d, h1, rfl, rfl⟩, h', hb⟩
  | retainUnpaired σ f s =>
    obtain ⟨d, m', h1, e, h', hb, _⟩ := retainUnpaired_refines h f s
    exact ⟨_, m', _, by simp only [exec, e, bind, Except.bind, pure, Except.pure], ⟨d, h1, rfl, rfl⟩, h', hb⟩
  | extendPairs xs =>
    obtain ⟨m', e, h', hb, _⟩ := extendPairs_refines h xs
    exact ⟨_, m', _, by simp only [exec, e, bind, Except.bind, pure, Except.pure], ⟨rfl, rfl⟩, h', hb⟩
  | extend xs =>
    obtain ⟨m', e, h', hb, _⟩ := extend_refines h xs
    exact ⟨_, m', _, by simp only [exec, e, bind, Except.bind, pure, Except.pure], ⟨rfl, rfl⟩, h', hb⟩
  | reserveLeft n => exact ⟨_, _, _, rfl, ⟨rfl, rfl⟩, reserveLeft_refines h n, rfl⟩
  | reserveRight n => exact ⟨_, _, _, rfl, ⟨rfl, rfl⟩, reserveRight_refines h n, rfl⟩
  | tryReserveLeft n a =>
    exact ⟨_, _, _, rfl, ⟨by rw [(tryReserveLeft_refines h n a).1], rfl⟩, (tryReserveLeft_refines h n a).2, by cases a <;> rfl⟩
  | tryReserveRight n a =>
    exact ⟨_, _, _, rfl, ⟨by rw [(tryReserveRight_refines h n a).1], rfl⟩, (tryReserveRight_refines h n a).2, by cases a <;> rfl⟩
  | shrinkToLeft n => exact ⟨_, _, _, rfl, ⟨rfl, rfl⟩, shrinkToLeft_refines h n, rfl⟩
  | shrinkToRight n => exact ⟨_, _, _, rfl, ⟨rfl, rfl⟩, shrinkToRight_refines h n, rfl⟩
  | shrinkToFit => exact ⟨_, _, _, rfl, ⟨rfl, rfl⟩, shrinkToFit_refines h, rfl⟩
  | clone cl cr => exact ⟨_, _, _, rfl, ⟨rfl, rfl⟩, clone_refines h hs.1 hs.2, rfl⟩

theorem run_simulates {hb : BuildHasher L R} (hm : m.hb = hb) (h : Repr m c) {ops : List (Op L R)} (hs : SafeRun hb c ops) :
    ∃ os m' c', m.run ops = .ok (os, m') ∧ Steps c ops os c' ∧ Repr m' c' ∧ m'.hb = hb := by
  induction ops generalizing m c with
  | nil => exact ⟨[], m, c, rfl, ⟨rfl, rfl⟩, h, hm⟩
  | cons op ops ih =>
    obtain ⟨o, m1, c1, e1, s1, h1, hb1⟩ := exec_simulates h (by rw [hm]; exact hs.1)
    obtain ⟨os, m2, c2, e2, s2, h2, hb2⟩ := ih (hb1.trans hm) h1 (hs.2 o c1 s1)
    exact ⟨o :: os, m2, c2, by simp only [run, e1, e2, bind, Except.bind, pure, Except.pure],
      ⟨o, os, c1, rfl, s1, s2⟩, h2, hb2⟩

/-! ### One-to-one lists of entries -/

theorem _root_.Verif.PartialSpec.OneToOne.perm' {c d : List (OptionalPair L R)} (h : OneToOne c) (hp : c.Perm d) : OneToOne d :=
  ⟨hp.pairwise h.1 (fun {_ _} hab => hab.symm), fun hn => h.2 (hp.mem_iff.2 hn)⟩

theorem mem_findL (h : OneToOne c) {e} (he : e ∈ c) {l : L} (hl : hasL l e = true) : findL c l = some e := by
  obtain ⟨d, hd⟩ := perm_cons_of_mem he
  exact find?_eq_some_of_perm hd hl fun q hq => hasL_false_of hl ((List.pairwise_cons.1 (h.perm' hd).1).1 q hq)

theorem mem_findR (h : OneToOne c) {e} (he : e ∈ c) {r : R} (hr : hasR r e = true) : findR c r = some e := by
  obtain ⟨d, hd⟩ := perm_cons_of_mem he
  exact find?_eq_some_of_perm hd hr fun q hq => hasR_false_of hr ((List.pairwise_cons.1 (h.perm' hd).1).1 q hq)

theorem unpairSafe_of_api (h : Repr m c) {l : L} {r : R}
    (hx : ∀ b a, m.getRight l = some b → m.getLeft r = some a → m.hb.hr r = m.hb.hr b → m.hb.hl l = m.hb.hl a →
      m.arePaired l r = true) : UnpairSafe m.hb c l r := by
  intro a b a' b' h1 h2 h3 h4 h5 h6
  rw [← arePaired_refines h]
  refine hx b a' ?_ ?_ h5 h6
  · rw [getRight_refines h, mem_findL h.oneToOne h1 (by simpa [hasL] using h3)]; rfl
  · rw [getLeft_refines h, mem_findR h.oneToOne h2 (by simpa [hasR] using h4)]; rfl

theorem drainFilterSafe_of_api {σ : Type} (h : Repr m c) {f : σ → OptionalPair L R → Bool × σ}
    (hx : ∀ ps, m.iterPairedList = .ok ps → ∀ p ∈ ps, ∀ s, (f s (someRight p.2)).1 = false) :
    ∀ s l r, someBoth l r ∈ c → (f s (someRight r)).1 = false := by
  intro s l r hm
  obtain ⟨ps, e, hp⟩ := iterPairedList_refines h
  exact hx ps e (l, r) (hp.mem_iff.2 (List.mem_filterMap.2 ⟨_, hm, rfl⟩)) s

theorem Reachable.repr (h : Reachable m) : ∃ c, Repr m c := by
  induction h with
  | new hb => exact ⟨[], withHasher_repr hb⟩
  | withCapacity n hb => exact ⟨[], withCapacity_repr n hb⟩
  | @step m op o m' _ hu hd hcl e ih =>
    obtain ⟨c, hc⟩ := ih
    by_cases hs : Safe m.hb c op
    · obtain ⟨o', m'', c', e', _, h', _⟩ := exec_simulates hc hs
      rw [e] at e'; cases e'
      exact ⟨c', h'⟩
    · exfalso
      cases op <;> simp only [Safe, not_true_eq_false, not_false_eq_true] at hs
      · exact hs (unpairSafe_of_api hc (hu _ _ rfl))
      · rw [exec, swapLeftOrInsert_panics hc _ _ _ hs] at e; cases e
      · rw [exec, swapRightOrInsert_panics hc _ _ _ hs] at e; cases e
      · exact hs (drainFilterSafe_of_api hc (hd _ _ _ _ rfl))
      · exact hs (hcl _ _ rfl)

/-- pairs and lone items make up the contents -/
theorem pairs_lones_perm (c : List (OptionalPair L R)) :
    ((c.filterMap pairOf).map (fun p => someBoth p.1 p.2) ++ c.filter fun e => !isPair e).Perm c := by
  have e : (c.filterMap pairOf).map (fun p => (someBoth p.1 p.2 : OptionalPair L R)) = c.filter isPair := by
    induction c with
    | nil => rfl
    | cons e c ih =>
      cases e <;> first | exact ih | exact congrArg (_ :: ·) ih
  rw [e]
  exact List.filter_append_perm isPair c

/-- the contents of a reachable map are what it shows -/
theorem Reachable.repr_of_shows (h : Reachable m) (hs : Shows m c) : Repr m c := by
  obtain ⟨d, hd⟩ := h.repr
  obtain ⟨ps, e, hp⟩ := hs.iterPaired
  obtain ⟨qs, e', hq⟩ := iterPairedList_refines hd
  rw [e] at e'; cases e'
  have h1 : (d.filterMap pairOf).Perm (c.filterMap pairOf) := hq.symm.trans hp
  have h2 : (d.filter fun e => !isPair e).Perm (c.filter fun e => !isPair e) :=
    (iterUnpairedList_refines hd).symm.trans hs.iterUnpaired
  exact hd.perm ((pairs_lones_perm d).symm.trans (((h1.map _).append h2).trans (pairs_lones_perm c)))

end Verif.PartialMap
