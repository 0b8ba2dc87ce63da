import Verif.Ledger
import Verif.PartialMap.Drops
import Verif.PartialMap.Simulation
/-
Where the items go: what each call takes, hands out and drops.
-/
set_option linter.unusedSectionVars false
set_option linter.unusedSimpArgs false
namespace Verif.PartialMap
open PartialSpec OptionalPair
open CycleSpec (split)
open CycleMap (split_perm)

variable {L R : Type} [BEq L] [BEq R]

/-- the items of these entries -/
def items (c : List (OptionalPair L R)) : List (L ⊕ R) := c.flatMap pieces

/-- the items that a call takes by value, from the signatures in partial_cycle_map.rs (`insert` 162, `insert_left` 222, `insert_right` 269, `swap_left`
842, `swap_left_checked` 909, `swap_left_or_insert` 940, `swap_right` 997, `swap_right_checked` 1064, `swap_right_or_insert` 1095, `extend` 1932,
1946) -/
def takes : Op L R → List (L ⊕ R)
  | .insert l r => [.inl l, .inr r]
  | .insertLeft l => [.inl l]
  | .insertRight r => [.inr r]
  | .swapLeft _ new => [.inl new]
  | .swapLeftChecked _ _ new => [.inl new]
  | .swapLeftOrInsert _ new r => [.inl new, .inr r]
  | .swapRight _ new => [.inr new]
  | .swapRightChecked _ _ new => [.inr new]
  | .swapRightOrInsert _ new l => [.inl l, .inr new]
  | .extendPairs xs => items (xs.map fun p => someBoth p.1 p.2)
  | .extend xs => items xs
  | _ => []

/-- the items in a result -/
def content : Out L R → List (L ⊕ R)
  | .left o => o.toList.map .inl
  | .right o => o.toList.map .inr
  | .pair o => items (o.toList.map fun p => someBoth p.1 p.2)
  | .entry o => pieces o
  | .twoEntries o => pieces o.1 ++ pieces o.2
  | .swappedLeft (someLeft l) => [.inl l]
  | .swappedLeft (someRight p) => pieces p
  | .swappedLeft (someBoth l p) => .inl l :: pieces p
  | .swappedRight (someLeft r) => [.inr r]
  | .swappedRight (someRight p) => pieces p
  | .swappedRight (someBoth r p) => .inr r :: pieces p
  | .lefts ls => ls.map .inl
  | .rights rs => rs.map .inr
  | .pairs ps => items (ps.map fun p => someBoth p.1 p.2)
  | .entries es => items es
  | _ => []

/-- the items that a call hands out by value; the results of these calls are references (`pair_forced` 360, `get_left`, `get_right`, the borrowing
iterators) -/
def hands : Op L R → Out L R → List (L ⊕ R)
  | .pairForced .., _ => []
  | .getLeft _, _ => []
  | .getRight _, _ => []
  | .iter, _ => []
  | .iterPaired, _ => []
  | .iterUnpaired, _ => []
  | .iterLeft, _ => []
  | .iterRight, _ => []
  | _, o => content o

/-- the items that a call drops, with contents `c`.  `clear` drops everything; the `retain`s, the `extend`s and an iterator of
`drain` or `drain_filter` that is dropped may drop any items; a swap whose `old` is not there drops `new` and the entry of `new`
(C47), a checked swap that does not happen drops `new`; `swap_left_or_insert` and `swap_right_or_insert` drop the item they do not insert. -/
def Drops (c : List (OptionalPair L R)) : Op L R → List (L ⊕ R) → Prop
  | .swapLeft old new, g => g = if (findL c old).isSome then [] else .inl new :: items (findL c new).toList
  | .swapLeftChecked old e new, g => g = if hasPair c old e then [] else [.inl new]
  | .swapLeftOrInsert old _ r, g => g = if (findL c old).isSome then [.inr r] else []
  | .swapRight old new, g => g = if (findR c old).isSome then [] else .inr new :: items (findR c new).toList
  | .swapRightChecked old e new, g => g = if hasPair c e old then [] else [.inr new]
  | .swapRightOrInsert old _ l, g => g = if (findR c old).isSome then [.inl l] else []
  | .clear, g => g = items c
  | .drain _, _ => True
  | .drainFilter .., _ => True
  | .retain .., _ => True
  | .retainPaired .., _ => True
  | .retainUnpaired .., _ => True
  | .extendPairs _, _ => True
  | .extend _, _ => True
  | _, g => g = []

/-- the items dropped in a history -/
def DropsAll (c : List (OptionalPair L R)) : List (Op L R) → List (Out L R) → List (OptionalPair L R) → List (L ⊕ R) → Prop
  | [], os, c', g => os = [] ∧ c' = c ∧ g = []
  | op :: ops, os, c', g => ∃ o os' c₁ g₁ g₂, os = o :: os' ∧ Step c op o c₁ ∧ Drops c op g₁ ∧ DropsAll c₁ ops os' c' g₂ ∧ g = g₁ ++ g₂

variable [RawImpl] [LawfulRaw] [EquivBEq L] [EquivBEq R] {c c' : List (OptionalPair L R)} {m : PartialMap L R}

theorem find_eraseL_perm (h : OneToOne c) (l : L) : ((findL c l).toList ++ eraseL c l).Perm c := by
  have := step_conserves h (someLeft l)
  simp only [step, present, List.filter_cons, List.filter_nil, if_true, List.singleton_append] at this
  exact (List.perm_middle.symm.trans this).cons_inv

theorem find_eraseR_perm (h : OneToOne c) (r : R) : ((findR c r).toList ++ eraseR c r).Perm c := by
  have := step_conserves h (someRight r)
  simp only [step, present, List.filter_cons, List.filter_nil, if_true, List.singleton_append] at this
  exact (List.perm_middle.symm.trans this).cons_inv

theorem others_perm (h : OneToOne c) (l : L) (r : R) :
    ((findL c l).toList ++ (if hasPair c l r then [] else (findR c r).toList) ++ others c l r).Perm c := by
  have := step_conserves h (someBoth l r)
  simp only [step, present, List.filter_cons, List.filter_nil, if_true, List.singleton_append] at this
  exact (List.perm_middle.symm.trans this).cons_inv

theorem items_append (c d : List (OptionalPair L R)) : items (c ++ d) = items c ++ items d := List.flatMap_append
theorem items_cons (e : OptionalPair L R) (d : List (OptionalPair L R)) : items (e :: d) = pieces e ++ items d := List.flatMap_cons
theorem items_nil : items ([] : List (OptionalPair L R)) = [] := rfl
theorem items_perm {c d : List (OptionalPair L R)} (h : c.Perm d) : (items c).Perm (items d) := h.flatMap_right _

theorem hasL_both {a b : L} {e : OptionalPair L R} (h1 : hasL a e = true) (h2 : hasL b e = true) : (b == a) = true := by
  cases e <;> simp only [hasL] at h1 h2 <;> first | cases h1; done | exact PartialEquivBEq.trans h2 (PartialEquivBEq.symm h1)

theorem hasR_both {a b : R} {e : OptionalPair L R} (h1 : hasR a e = true) (h2 : hasR b e = true) : (b == a) = true := by
  cases e <;> simp only [hasR] at h1 h2 <;> first | cases h1; done | exact PartialEquivBEq.trans h2 (PartialEquivBEq.symm h1)

/-- the entries of two left items, and the others -/
theorem two_left (h : OneToOne c) (a b : L) :
    ((findL c a).toList ++ (if b == a then none else findL c b).toList ++ c.filter fun e => !hasL a e && !hasL b e).Perm c := by
  have h1 := find_eraseL_perm h a
  have h2 : ((findL (eraseL c a) b).toList ++ eraseL (eraseL c a) b).Perm (eraseL c a) := find_eraseL_perm h.filter b
  have e : eraseL (eraseL c a) b = c.filter fun e => !hasL a e && !hasL b e := by
    rw [eraseL, eraseL, List.filter_filter]; congr 1; funext p; exact Bool.and_comm _ _
  rw [e] at h2
  have e2 : findL (eraseL c a) b = if b == a then none else findL c b := by
    rw [findL, eraseL, findL, List.find?_filter]
    split
    · rename_i hba
      rw [List.find?_eq_none]
      intro p _
      rw [hasL_congr hba]; cases hasL a p <;> simp
    · rename_i hba
      congr 1; funext p
      cases h2 : hasL b p with
      | false => simp
      | true =>
        cases h1 : hasL a p with
        | false => simp
        | true => exact absurd (hasL_both h1 h2) hba
  rw [e2] at h2
  rw [List.append_assoc]
  exact (h2.append_left _).trans h1

theorem two_right (h : OneToOne c) (a b : R) :
    ((findR c a).toList ++ (if b == a then none else findR c b).toList ++ c.filter fun e => !hasR a e && !hasR b e).Perm c := by
  have h1 := find_eraseR_perm h a
  have h2 : ((findR (eraseR c a) b).toList ++ eraseR (eraseR c a) b).Perm (eraseR c a) := find_eraseR_perm h.filter b
  have e : eraseR (eraseR c a) b = c.filter fun e => !hasR a e && !hasR b e := by
    rw [eraseR, eraseR, List.filter_filter]; congr 1; funext p; exact Bool.and_comm _ _
  rw [e] at h2
  have e2 : findR (eraseR c a) b = if b == a then none else findR c b := by
    rw [findR, eraseR, findR, List.find?_filter]
    split
    · rename_i hba
      rw [List.find?_eq_none]
      intro p _
      rw [hasR_congr hba]; cases hasR a p <;> simp
    · rename_i hba
      congr 1; funext p
      cases h2 : hasR b p with
      | false => simp
      | true =>
        cases h1 : hasR a p with
        | false => simp
        | true => exact absurd (hasR_both h1 h2) hba
  rw [e2] at h2
  rw [List.append_assoc]
  exact (h2.append_left _).trans h1

theorem swapLeft_ledger (h : OneToOne c) (old new : L) :
    (.inl new :: items c).Perm (items (PartialSpec.swapLeft c old new).2 ++ content (.swappedLeft (PartialSpec.swapLeft c old new).1) ++
      if (findL c old).isSome then [] else .inl new :: items (findL c new).toList) := by
  have h2 := items_perm (two_left h old new)
  rw [PartialSpec.swapLeft]
  split
  · rename_i e hf
    have hl : hasL old e = true := List.find?_some hf
    rw [hf] at h2 ⊢
    simp only [items_append, Option.isSome_some, if_true, List.append_nil] at h2 ⊢
    generalize (if new == old then none else findL c new) = q at *
    generalize (c.filter fun p => !hasL old p && !hasL new p) = z at *
    refine perm_of_measure fun k k1 k0 kc ka kp => ?_
    have := kp _ _ h2
    cases e with
    | neither => cases hl
    | someRight => cases hl
    | someLeft a =>
      cases q <;> simp [items, pieces, ofPair, leftOf, setLeft, content, ka, kc, k0] at * <;> omega
    | someBoth a b =>
      cases q <;> simp [items, pieces, ofPair, leftOf, setLeft, content, ka, kc, k0] at * <;> omega
  · rename_i hf
    rw [hf]
    have := items_perm (find_eraseL_perm h new)
    refine perm_of_measure fun k k1 k0 kc ka kp => ?_
    have := kp _ _ this
    simp [items_append, content, ka, kc, k0] at *
    omega

theorem swapRight_ledger (h : OneToOne c) (old new : R) :
    (.inr new :: items c).Perm (items (PartialSpec.swapRight c old new).2 ++ content (.swappedRight (PartialSpec.swapRight c old new).1) ++
      if (findR c old).isSome then [] else .inr new :: items (findR c new).toList) := by
  have h2 := items_perm (two_right h old new)
  rw [PartialSpec.swapRight]
  split
  · rename_i e hf
    have hl : hasR old e = true := List.find?_some hf
    rw [hf] at h2 ⊢
    simp only [items_append, Option.isSome_some, if_true, List.append_nil] at h2 ⊢
    generalize (if new == old then none else findR c new) = q at *
    generalize (c.filter fun p => !hasR old p && !hasR new p) = z at *
    refine perm_of_measure fun k k1 k0 kc ka kp => ?_
    have := kp _ _ h2
    cases e with
    | neither => cases hl
    | someLeft => cases hl
    | someRight a =>
      cases q <;> simp [items, pieces, ofPair, rightOf, setRight, content, ka, kc, k0] at * <;> omega
    | someBoth a b =>
      cases q <;> simp [items, pieces, ofPair, rightOf, setRight, content, ka, kc, k0] at * <;> omega
  · rename_i hf
    rw [hf]
    have := items_perm (find_eraseR_perm h new)
    refine perm_of_measure fun k k1 k0 kc ka kp => ?_
    have := kp _ _ this
    simp [items_append, content, ka, kc, k0] at *
    omega

theorem insertEntry_oneToOne (h : OneToOne c) (x : OptionalPair L R) : OneToOne (insertEntry c x) := by
  cases x with
  | neither => exact h
  | someLeft l =>
    refine ⟨List.pairwise_cons.2 ⟨fun p hp => ⟨fun a ha => ?_, fun a ha => by cases ha⟩, h.1.sublist List.filter_sublist⟩, fun hm => ?_⟩
    · cases ha; simpa using (List.mem_filter.1 hp).2
    · rcases List.mem_cons.1 hm with he | he
      · cases he
      · exact h.2 (List.mem_filter.1 he).1
  | someRight l =>
    refine ⟨List.pairwise_cons.2 ⟨fun p hp => ⟨fun a ha => (by cases ha), fun a ha => ?_⟩, h.1.sublist List.filter_sublist⟩, fun hm => ?_⟩
    · cases ha; simpa using (List.mem_filter.1 hp).2
    · rcases List.mem_cons.1 hm with he | he
      · cases he
      · exact h.2 (List.mem_filter.1 he).1
  | someBoth l r =>
    refine ⟨List.pairwise_cons.2 ⟨fun p hp => ⟨fun a ha => ?_, fun a ha => ?_⟩, h.1.sublist List.filter_sublist⟩, fun hm => ?_⟩
    · cases ha; have := (List.mem_filter.1 hp).2; simp at this; exact this.1
    · cases ha; have := (List.mem_filter.1 hp).2; simp at this; exact this.2
    · rcases List.mem_cons.1 hm with he | he
      · cases he
      · exact h.2 (List.mem_filter.1 he).1

theorem items_present (xs : List (OptionalPair L R)) : items (present xs) = items xs := by
  induction xs with
  | nil => rfl
  | cons x xs ih => cases x <;> simp_all [present, items, pieces]

theorem insertAll_ledger (h : OneToOne c) (xs : List (OptionalPair L R)) : ∃ g, (items g ++ items (insertAll c xs)).Perm (items xs ++ items c) := by
  induction xs generalizing c with
  | nil => exact ⟨[], .refl _⟩
  | cons x xs ih =>
    have h1 := items_perm (step_conserves h x)
    rw [step_insertEntry] at h1
    obtain ⟨g, hg⟩ := ih (c := insertEntry c x) (insertEntry_oneToOne h x)
    refine ⟨(step c x).1 ++ g, ?_⟩
    show (items ((step c x).1 ++ g) ++ items (insertAll (insertEntry c x) xs)).Perm _
    refine perm_of_measure fun k k1 k0 kc ka kp => ?_
    have := kp _ _ h1
    have := kp _ _ hg
    have := congrArg k (items_present [x])
    simp only [items_append, items_cons, items_nil, ka, k0] at *
    omega

theorem pieces_left (l : L) : pieces (someLeft l : OptionalPair L R) = [.inl l] := rfl
theorem pieces_right (r : R) : pieces (someRight r : OptionalPair L R) = [.inr r] := rfl
theorem pieces_both (l : L) (r : R) : pieces (someBoth l r : OptionalPair L R) = [.inl l, .inr r] := rfl

theorem pieces_getD (o : Option (OptionalPair L R)) : pieces (o.getD neither) = items o.toList := by
  cases o <;> simp [pieces, items]

/-- partners are found by either of them -/
theorem findL_pair (h : OneToOne c) {l : L} {r : R} (hp : hasPair c l r = true) :
    ∃ a b, findL c l = some (someBoth a b) ∧ findR c r = some (someBoth a b) := by
  have h1 := hasPair_eq h l r
  have h2 := hasPair_eq' h l r
  rw [hp] at h1 h2
  have g := others_perm h l r
  cases hf : findL c l with
  | none => rw [hf] at h1; cases h1
  | some e =>
    cases hr : findR c r with
    | none => rw [hr] at h2; cases h2
    | some e' =>
      rw [hf] at h1; rw [hr] at h2
      have m1 := List.mem_of_find?_eq_some hf
      have m2 := List.mem_of_find?_eq_some hr
      have l1 : hasL l e = true := List.find?_some hf
      have l2 : hasL l e' = true := h2.symm
      have r1 : hasR r e = true := h1.symm
      have he : e' = e := by
        obtain ⟨d, hd⟩ := perm_cons_of_mem m1
        rcases List.mem_cons.1 (hd.mem_iff.1 m2) with he | he
        · exact he
        · have hk := (hd.filter (hasL l)).length_eq
          have f1 := find_eraseL_perm h l
          have f2 := (f1.filter (hasL l)).length_eq
          have f3 : (eraseL c l).filter (hasL l) = [] := by
            rw [eraseL, List.filter_filter]; simp
          rw [List.filter_append, f3, hf] at f2
          simp [List.filter_cons, l1] at f2 hk
          have : e' ∈ d.filter (hasL l) := List.mem_filter.2 ⟨he, l2⟩
          have := List.length_pos_of_mem this
          omega
      subst he
      cases e' with
      | neither => cases l1
      | someLeft => cases r1
      | someRight => cases l1
      | someBoth a b => exact ⟨a, b, rfl, rfl⟩

/-- nothing gets lost in a step -/
theorem step_ledger (h : OneToOne c) {op : Op L R} {o : Out L R} {hb : BuildHasher L R} (hs : Safe hb c op) (hstep : Step c op o c')
    (hc : ∀ cl cr, op ≠ .clone cl cr) : ∃ g, Drops c op g ∧ (takes op ++ items c).Perm (items c' ++ hands op o ++ g) := by
  have same : (items c).Perm (items c ++ [] ++ []) := by rw [List.append_nil, List.append_nil]
  have cut : ∀ {d : List (OptionalPair L R)} {P : OptionalPair L R → Bool}, d.Perm (c.filter P) → (d ++ c.filter fun e => !P e).Perm c :=
    fun hd => (hd.append_right _).trans (List.filter_append_perm _ _)
  cases op with
  | insert l r =>
    obtain ⟨rfl, rfl⟩ := hstep
    refine ⟨[], rfl, ?_⟩
    have h1 := items_perm (others_perm h l r)
    have e1 : hands (.insert l r) (.twoEntries (PartialSpec.insert c l r).1) = items ((findL c l).toList ++
        if hasPair c l r then [] else (findR c r).toList) := by
      simp only [hands, content, PartialSpec.insert, pieces_getD, items_append]
      congr 1
      split
      · rfl
      · exact pieces_getD _
    rw [e1]
    refine perm_of_measure fun k k1 k0 kc ka kp => ?_
    have := kp _ _ h1
    simp only [PartialSpec.insert, takes, items_append, items_cons, pieces, ka, kc, k0] at *
    omega
  | insertLeft l =>
    obtain ⟨rfl, rfl⟩ := hstep
    refine ⟨[], rfl, ?_⟩
    have h1 := items_perm (find_eraseL_perm h l)
    refine perm_of_measure fun k k1 k0 kc ka kp => ?_
    have := kp _ _ h1
    simp only [PartialSpec.insertLeft, hands, content, pieces_getD, takes, items_append, items_cons, pieces_left, ka, kc, k0] at *
    omega
  | insertRight r =>
    obtain ⟨rfl, rfl⟩ := hstep
    refine ⟨[], rfl, ?_⟩
    have h1 := items_perm (find_eraseR_perm h r)
    refine perm_of_measure fun k k1 k0 kc ka kp => ?_
    have := kp _ _ h1
    simp only [PartialSpec.insertRight, hands, content, pieces_getD, takes, items_append, items_cons, pieces_right, ka, kc, k0] at *
    omega
  | pair l r =>
    obtain ⟨rfl, rfl⟩ := hstep
    refine ⟨[], rfl, ?_⟩
    have h1 := items_perm (others_perm h l r)
    have h2 := hasPair_eq h l r
    rw [PartialSpec.pair]
    split
    · rename_i a b hl hr
      rw [hl] at h2
      rw [hl, hr, h2] at h1
      refine perm_of_measure fun k k1 k0 kc ka kp => ?_
      have := kp _ _ h1
      simp [hands, content, takes, items_append, items_cons, items_nil, pieces, ka, kc, k0, hasR] at *
      omega
    · exact same
  | pairForced l r =>
    obtain ⟨rfl, rfl⟩ := hstep
    refine ⟨[], rfl, ?_⟩
    have h1 := items_perm (others_perm h l r)
    simp only [PartialSpec.pairForced]
    cases hl : findL c l with
    | none => exact same
    | some e =>
      cases hr : findR c r with
      | none => simp only [Option.bind_none]; split <;> first | exact same | (rename_i hh; cases hh)
      | some e' =>
        split
        · rename_i a b ha hb'
          split
          · exact same
          · rename_i hp
            rw [hl, hr, if_neg hp] at h1
            refine perm_of_measure fun k k1 k0 kc ka kp => ?_
            have := kp _ _ h1
            cases e <;> cases ha <;> cases e' <;> cases hb' <;>
              simp [hands, content, takes, items_append, items_cons, items_nil, lones, leftOf, rightOf, pieces, ka, kc, k0] at * <;> omega
        · exact same
  | pairForcedRemove l r =>
    obtain ⟨rfl, rfl⟩ := hstep
    refine ⟨[], rfl, ?_⟩
    have h1 := items_perm (others_perm h l r)
    simp only [PartialSpec.pairForcedRemove]
    cases hl : findL c l with
    | none => exact same
    | some e =>
      cases hr : findR c r with
      | none => simp only [Option.bind_none]; split <;> first | exact same | (rename_i hh; cases hh)
      | some e' =>
        split
        · rename_i a b ha hb'
          split
          · exact same
          · rename_i hp
            rw [hl, hr, if_neg hp] at h1
            refine perm_of_measure fun k k1 k0 kc ka kp => ?_
            have := kp _ _ h1
            cases e <;> cases ha <;> cases e' <;> cases hb' <;>
              simp [hands, content, takes, items_append, items_cons, items_nil, ofPair, leftOf, rightOf, pieces, ka, kc, k0] at * <;> omega
        · exact same
  | unpair l r =>
    obtain ⟨rfl, rfl⟩ := hstep
    refine ⟨[], rfl, ?_⟩
    have h1 := items_perm (others_perm h l r)
    rw [PartialSpec.unpair]
    split
    · rename_i hp
      obtain ⟨a, b, hl, hr⟩ := findL_pair h hp
      rw [hl, hr, if_pos hp] at h1
      rw [hl, hr]
      refine perm_of_measure fun k k1 k0 kc ka kp => ?_
      have := kp _ _ h1
      simp [hands, content, takes, items_append, items_cons, items_nil, lones, leftOf, rightOf, pieces, ka, kc, k0] at *
      omega
    · exact same
  | remove l r =>
    obtain ⟨rfl, rfl⟩ := hstep
    refine ⟨[], rfl, ?_⟩
    have h1 := items_perm (find_eraseL_perm h l)
    rw [PartialSpec.remove]
    split
    · rename_i hp
      obtain ⟨a, b, hl, hr⟩ := findL_pair h hp
      rw [hl] at h1 ⊢
      refine perm_of_measure fun k k1 k0 kc ka kp => ?_
      have := kp _ _ h1
      simp [hands, content, takes, items_append, items_cons, items_nil, pairOf, pieces, ka, kc, k0] at *
      omega
    · exact same
  | removeViaLeft l =>
    obtain ⟨rfl, rfl⟩ := hstep
    refine ⟨[], rfl, ?_⟩
    have h1 := items_perm (find_eraseL_perm h l)
    refine perm_of_measure fun k k1 k0 kc ka kp => ?_
    have := kp _ _ h1
    simp only [hands, content, pieces_getD, takes, items_append, ka, kc, k0] at *
    omega
  | removeViaRight r =>
    obtain ⟨rfl, rfl⟩ := hstep
    refine ⟨[], rfl, ?_⟩
    have h1 := items_perm (find_eraseR_perm h r)
    refine perm_of_measure fun k k1 k0 kc ka kp => ?_
    have := kp _ _ h1
    simp only [hands, content, pieces_getD, takes, items_append, ka, kc, k0] at *
    omega
  | removeLeft l =>
    obtain ⟨rfl, rfl⟩ := hstep
    refine ⟨[], rfl, ?_⟩
    have h1 := items_perm (find_eraseL_perm h l)
    refine perm_of_measure fun k k1 k0 kc ka kp => ?_
    have := kp _ _ h1
    simp only [PartialSpec.removeLeft]
    cases hl : findL c l with
    | none => rw [hl] at this; simp [hands, content, takes, items_append, items_cons, items_nil, lones, ka, kc, k0] at *; omega
    | some e =>
      have : hasL l e = true := List.find?_some hl
      rw [hl] at h1
      have := kp _ _ h1
      cases e <;> simp [hands, content, takes, items_append, items_cons, items_nil, lones, leftOf, rightOf, pieces, ka, kc, k0, hasL] at * <;> omega
  | removeRight r =>
    obtain ⟨rfl, rfl⟩ := hstep
    refine ⟨[], rfl, ?_⟩
    have h1 := items_perm (find_eraseR_perm h r)
    refine perm_of_measure fun k k1 k0 kc ka kp => ?_
    have := kp _ _ h1
    simp only [PartialSpec.removeRight]
    cases hl : findR c r with
    | none => rw [hl] at this; simp [hands, content, takes, items_append, items_cons, items_nil, lones, ka, kc, k0] at *; omega
    | some e =>
      have : hasR r e = true := List.find?_some hl
      rw [hl] at h1
      have := kp _ _ h1
      cases e <;> simp [hands, content, takes, items_append, items_cons, items_nil, lones, leftOf, rightOf, pieces, ka, kc, k0, hasR] at * <;> omega
  | swapLeft old new =>
    obtain ⟨rfl, rfl⟩ := hstep
    exact ⟨_, rfl, swapLeft_ledger h old new⟩
  | swapLeftChecked old e new =>
    rw [Step] at hstep
    split at hstep
    · rename_i hp
      obtain ⟨rfl, rfl⟩ := hstep
      refine ⟨_, rfl, ?_⟩
      have := swapLeft_ledger h old new
      rw [if_pos hp]
      obtain ⟨a, b, hl, hr⟩ := findL_pair h hp
      rw [if_pos (by rw [hl]; rfl)] at this
      exact this
    · rename_i hp
      obtain ⟨rfl, rfl⟩ := hstep
      refine ⟨_, rfl, ?_⟩
      rw [if_neg hp]
      simp only [takes, hands, content, List.append_nil]
      exact List.perm_append_comm
  | swapLeftOrInsert old new r =>
    rw [Step] at hstep
    split at hstep
    · rename_i hp
      obtain ⟨rfl, rfl⟩ := hstep
      refine ⟨_, rfl, ?_⟩
      have h1 := swapLeft_ledger h old new
      rw [if_pos hp] at h1 ⊢
      refine perm_of_measure fun k k1 k0 kc ka kp => ?_
      have := kp _ _ h1
      simp only [takes, hands, ka, kc, k0] at *
      omega
    · rename_i hp
      obtain ⟨hn, rfl, rfl⟩ := hstep
      refine ⟨_, rfl, ?_⟩
      rw [if_neg hp]
      have h1 := items_perm (others_perm h new r)
      rw [hn, hasPair_findL hn] at h1
      refine perm_of_measure fun k k1 k0 kc ka kp => ?_
      have := kp _ _ h1
      simp only [PartialSpec.insert] at *
      generalize findR c r = q at *
      cases q <;> simp [takes, hands, content, ofPair, pieces_both, items_append, items_cons, items_nil, ka, kc, k0] at * <;> omega
  | swapRight old new =>
    obtain ⟨rfl, rfl⟩ := hstep
    exact ⟨_, rfl, swapRight_ledger h old new⟩
  | swapRightChecked old e new =>
    rw [Step] at hstep
    split at hstep
    · rename_i hp
      obtain ⟨rfl, rfl⟩ := hstep
      refine ⟨_, rfl, ?_⟩
      have := swapRight_ledger h old new
      rw [if_pos hp]
      obtain ⟨a, b, hl, hr⟩ := findL_pair h hp
      rw [if_pos (by rw [hr]; rfl)] at this
      exact this
    · rename_i hp
      obtain ⟨rfl, rfl⟩ := hstep
      refine ⟨_, rfl, ?_⟩
      rw [if_neg hp]
      simp only [takes, hands, content, List.append_nil]
      exact List.perm_append_comm
  | swapRightOrInsert old new l =>
    rw [Step] at hstep
    split at hstep
    · rename_i hp
      obtain ⟨rfl, rfl⟩ := hstep
      refine ⟨_, rfl, ?_⟩
      have h1 := swapRight_ledger h old new
      rw [if_pos hp] at h1 ⊢
      refine perm_of_measure fun k k1 k0 kc ka kp => ?_
      have := kp _ _ h1
      simp only [takes, hands, ka, kc, k0] at *
      omega
    · rename_i hp
      obtain ⟨hn, rfl, rfl⟩ := hstep
      refine ⟨_, rfl, ?_⟩
      rw [if_neg hp]
      have h1 := items_perm (others_perm h l new)
      have h2 : (if hasPair c l new then [] else (findR c new).toList) = [] := by
        rcases hn with hn | hn
        · rw [if_pos hn]
        · rw [hn]; split <;> rfl
      rw [h2] at h1
      refine perm_of_measure fun k k1 k0 kc ka kp => ?_
      have := kp _ _ h1
      simp only [PartialSpec.insert] at *
      generalize findL c l = q at *
      cases q <;> simp [takes, hands, content, ofPair, pieces_both, items_append, items_cons, items_nil, ka, kc, k0] at * <;> omega
  | getLeft | getRight | containsLeft | containsRight | isLeftPaired | isRightPaired | arePaired | lenLeft | lenRight | isEmpty | reserveLeft |
      reserveRight | tryReserveLeft | tryReserveRight | shrinkToLeft | shrinkToRight | shrinkToFit =>
    obtain ⟨rfl, rfl⟩ := hstep
    exact ⟨[], rfl, same⟩
  | clear =>
    obtain ⟨rfl, rfl⟩ := hstep
    exact ⟨_, rfl, .refl _⟩
  | iter | iterPaired | iterUnpaired | iterLeft | iterRight =>
    obtain ⟨d, -, rfl, rfl⟩ := hstep
    exact ⟨[], rfl, same⟩
  | drain n =>
    obtain ⟨d, x, hd, -, hx, rfl, rfl⟩ := hstep
    obtain ⟨w, hw⟩ : ∃ w, (d ++ x.toList ++ w).Perm c := by
      have h1 := cut hd
      cases x with
      | none => exact ⟨_, by simpa using h1⟩
      | some e =>
        have hm : e ∈ c.filter fun e => !(leftOf e).isSome := List.mem_filter.2 ⟨(hx e rfl).1, by rw [(hx e rfl).2]; rfl⟩
        obtain ⟨w, hw⟩ := perm_cons_of_mem hm
        refine ⟨w, ?_⟩
        rw [List.append_assoc]
        exact (hw.symm.append_left d).trans h1
    refine ⟨items ((d ++ x.toList).drop n ++ w), trivial, ?_⟩
    have h1 := items_perm hw
    rw [← List.take_append_drop n (d ++ x.toList)] at h1
    refine perm_of_measure fun k k1 k0 kc ka kp => ?_
    have := kp _ _ h1
    simp only [takes, hands, content, items_append, items_nil, ka, kc, k0] at *
    omega
  | drainFilter σ f s n =>
    obtain ⟨d1, us, d2, g1, g2, g3, g4, g5, rfl, rfl⟩ := hstep
    have p1 := split_perm f d1 s
    have hk : ∀ e ∈ (split f d1 s).2.1 ++ us, e ∈ c := by
      intro e he
      refine g1.mem_iff.1 ?_
      rcases List.mem_append.1 he with he | he
      · exact List.mem_append_left _ (p1.mem_iff.2 (List.mem_append_right _ he))
      · exact List.mem_append_right _ he
    generalize (split f d1 s).2.2 = s1 at *
    generalize (split f d1 s).1 = a1 at *
    generalize (split f d1 s).2.1 = k1 at *
    have p2 := split_perm (fun s e => f s (asRight e)) d2 s1
    have ha : (split (fun s e => f s (asRight e)) d2 s1).1.map asRight = (split (fun s e => f s (asRight e)) d2 s1).1 := by
      refine List.map_congr_left (g := id) (fun e he => ?_) |>.trans (List.map_id _)
      obtain ⟨s', hs'⟩ := split_accepted he
      have hin := hk e (g4.mem_iff.1 (List.mem_append_left _ (p2.mem_iff.2 (List.mem_append_left _ he))))
      cases e with
      | someBoth a b => have := hs s' a b hin; rw [show asRight (someBoth a b : OptionalPair L R) = someRight b from rfl, this] at hs'; cases hs'
      | _ => rfl
    rw [ha]
    generalize (split (fun s e => f s (asRight e)) d2 s1).1 = a2 at *
    generalize (split (fun s e => f s (asRight e)) d2 s1).2.1 = k2 at *
    refine ⟨items ((a1 ++ a2).drop n), trivial, ?_⟩
    have hd := congrArg items (List.take_append_drop n (a1 ++ a2))
    refine perm_of_measure fun k k1' k0 kc ka kp => ?_
    have := kp _ _ (items_perm g1)
    have := kp _ _ (items_perm p1)
    have := kp _ _ (items_perm g4)
    have := kp _ _ (items_perm p2)
    have := congrArg k hd
    simp only [takes, hands, content, items_append, items_nil, ka, kc, k0] at *
    omega
  | retain σ f s =>
    obtain ⟨d, us, g1, -, -, rfl, rfl⟩ := hstep
    refine ⟨items (split f d s).1, trivial, ?_⟩
    have p1 := split_perm f d s
    refine perm_of_measure fun k k1' k0 kc ka kp => ?_
    have := kp _ _ (items_perm g1)
    have := kp _ _ (items_perm p1)
    simp only [takes, hands, content, items_append, items_nil, ka, kc, k0] at *
    omega
  | retainPaired σ f s =>
    obtain ⟨d, g1, rfl, rfl⟩ := hstep
    refine ⟨items ((split (fun s p => f s p.1 p.2) d s).1.map fun p => someBoth p.1 p.2), trivial, ?_⟩
    have p1 := (split_perm (fun s p => f s p.1 p.2) d s).map fun p => (someBoth p.1 p.2 : OptionalPair L R)
    have e1 : ∀ c : List (OptionalPair L R), (c.filterMap pairOf).map (fun p => someBoth p.1 p.2) = c.filter isPair := by
      intro c
      induction c with
      | nil => rfl
      | cons e c ih => cases e <;> simp [List.filterMap_cons, pairOf, List.filter_cons, isPair, ih]
    have g2 := g1.map fun p => (someBoth p.1 p.2 : OptionalPair L R)
    rw [e1] at g2
    have g3 := cut g2
    rw [List.map_append] at p1
    refine perm_of_measure fun k k1' k0 kc ka kp => ?_
    have := kp _ _ (items_perm g3)
    have := kp _ _ (items_perm p1)
    simp only [takes, hands, content, items_append, items_nil, ka, kc, k0] at *
    omega
  | retainUnpaired σ f s =>
    obtain ⟨d, g1, rfl, rfl⟩ := hstep
    refine ⟨items (split f d s).1, trivial, ?_⟩
    have p1 := split_perm f d s
    have g3 : (d ++ c.filter isPair).Perm c := by simpa using cut g1
    refine perm_of_measure fun k k1' k0 kc ka kp => ?_
    have := kp _ _ (items_perm g3)
    have := kp _ _ (items_perm p1)
    simp only [takes, hands, content, items_append, items_nil, ka, kc, k0] at *
    omega
  | extendPairs xs =>
    obtain ⟨rfl, rfl⟩ := hstep
    obtain ⟨g, hg⟩ := insertAll_ledger h (xs.map fun p => someBoth p.1 p.2)
    refine ⟨items g, trivial, ?_⟩
    refine perm_of_measure fun k k1' k0 kc ka kp => ?_
    have := kp _ _ hg
    simp only [takes, hands, content, items_append, items_nil, ka, kc, k0] at *
    omega
  | extend xs =>
    obtain ⟨rfl, rfl⟩ := hstep
    obtain ⟨g, hg⟩ := insertAll_ledger h xs
    refine ⟨items g, trivial, ?_⟩
    refine perm_of_measure fun k k1' k0 kc ka kp => ?_
    have := kp _ _ hg
    simp only [takes, hands, content, items_append, items_nil, ka, kc, k0] at *
    omega
  | clone cl cr => exact absurd rfl (hc cl cr)

/-- nothing gets lost in a history -/
theorem run_ledger {hb : BuildHasher L R} (hm : m.hb = hb) (h : Repr m c) {ops : List (Op L R)} (hs : SafeRun hb c ops)
    (hc : ∀ op ∈ ops, ∀ cl cr, op ≠ .clone cl cr) :
    ∃ os m' c' g, m.run ops = .ok (os, m') ∧ DropsAll c ops os c' g ∧ Repr m' c' ∧
      (ops.flatMap takes ++ items c).Perm (items c' ++ (ops.zip os).flatMap (fun x => hands x.1 x.2) ++ g) := by
  subst hm
  generalize hb0 : m.hb = hb at hs
  induction ops generalizing m c with
  | nil => exact ⟨[], m, c, [], rfl, ⟨rfl, rfl, rfl⟩, h, by simp⟩
  | cons op ops ih =>
    obtain ⟨o, m1, c1, e1, s1, h1, hb1⟩ := exec_simulates h (hb0.symm ▸ hs.1)
    obtain ⟨g1, d1, p1⟩ := step_ledger h.oneToOne hs.1 s1 (hc op List.mem_cons_self)
    obtain ⟨os, m', c', g, e2, d2, h2, p2⟩ := ih h1 (fun x hx => hc x (List.mem_cons_of_mem _ hx)) (hb1.trans hb0) (hs.2 o c1 s1)
    refine ⟨o :: os, m', c', g1 ++ g, ?_, ⟨o, os, c1, g1, g, rfl, s1, d1, d2, rfl⟩, h2, ?_⟩
    · simp only [run, e1, e2, bind, Except.bind]; rfl
    · rw [List.flatMap_cons, List.zip_cons_cons, List.flatMap_cons]
      exact ledger_append p1 p2

end Verif.PartialMap
