import Verif.Ledger
import Verif.CycleMap.Drops
import Verif.CycleMap.Simulation
/-
Where the items go: what each call takes, hands out and drops.
-/
set_option linter.unusedSectionVars false
set_option linter.unusedSimpArgs false
namespace Verif.CycleMap
open CycleSpec OptionalPair

variable {L R : Type} [BEq L] [BEq R]

/-- the items of these pairs -/
def items (c : List (L × R)) : List (L ⊕ R) := c.flatMap pieces

/-- the items that a call takes by value, from the signatures in cycle_map.rs (`insert` 155, `swap_left` 350, `swap_left_checked` 414,
`swap_left_or_insert` 442, `swap_right` 500, `swap_right_checked` 565, `swap_right_or_insert` 595, `extend` 1165) -/
def takes : Op L R → List (L ⊕ R)
  | .insert l r => [.inl l, .inr r]
  | .swapLeft _ new => [.inl new]
  | .swapLeftChecked _ _ new => [.inl new]
  | .swapLeftOrInsert _ new r => [.inl new, .inr r]
  | .swapRight _ new => [.inr new]
  | .swapRightChecked _ _ new => [.inr new]
  | .swapRightOrInsert _ new l => [.inl l, .inr new]
  | .extend xs => items xs
  | _ => []

/-- the items that a call hands out by value (the other results are references) -/
def hands : Op L R → Out L R → List (L ⊕ R)
  | .iter, _ => []
  | _, .pair o => items o.toList
  | _, .inserted o => items (given o)
  | _, .swappedLeft (someLeft l) => [.inl l]
  | _, .swappedLeft (someRight p) => items [p]
  | _, .swappedLeft (someBoth l p) => .inl l :: items [p]
  | _, .swappedRight (someLeft r) => [.inr r]
  | _, .swappedRight (someRight p) => items [p]
  | _, .swappedRight (someBoth r p) => .inr r :: items [p]
  | _, .pairs ps => items ps
  | _, _ => []

/-- the items that a call drops, with contents `c`.  `clear` drops everything; `retain`, `extend` and an iterator of
`drain_filter` that is dropped may drop any items; a swap whose `old` is not there drops `new` and the pair of `new`
(C13, C15), a checked swap that does not happen drops `new`; `swap_left_or_insert` drops the item it does not insert, or the right item of the pair
that `new` displaces (C17). -/
def Drops (c : List (L × R)) : Op L R → List (L ⊕ R) → Prop
  | .swapLeft old new, g => g = if (findL c old).isSome then [] else .inl new :: items (findL c new).toList
  | .swapLeftChecked old e new, g => g = if hasPair c old e then [] else [.inl new]
  | .swapLeftOrInsert old new r, g => g = if (findL c old).isSome then [.inr r] else (findL c new).toList.map fun p => .inr p.2
  | .swapRight old new, g => g = if (findR c old).isSome then [] else .inr new :: items (findR c new).toList
  | .swapRightChecked old e new, g => g = if hasPair c e old then [] else [.inr new]
  | .swapRightOrInsert old _ l, g => g = if (findR c old).isSome then [.inl l] else []
  | .clear, g => g = items c
  | .drainFilter .., _ => True
  | .retain .., _ => True
  | .extend _, _ => True
  | _, g => g = []

/-- the items dropped in a history -/
def DropsAll (c : List (L × R)) : List (Op L R) → List (Out L R) → List (L × R) → List (L ⊕ R) → Prop
  | [], os, c', g => os = [] ∧ c' = c ∧ g = []
  | op :: ops, os, c', g => ∃ o os' c₁ g₁ g₂, os = o :: os' ∧ Step c op o c₁ ∧ Drops c op g₁ ∧ DropsAll c₁ ops os' c' g₂ ∧ g = g₁ ++ g₂

variable [RawImpl] [LawfulRaw] [EquivBEq L] [EquivBEq R] {c c' : List (L × R)} {m : CycleMap L R}

theorem find_eraseL_perm (h : OneToOne c) (l : L) : ((findL c l).toList ++ eraseL c l).Perm c := find_filter_perm (h.imp fun hpq hh => by
  have := PartialEquivBEq.trans (PartialEquivBEq.symm hh.1) hh.2; rw [hpq.1] at this; cases this)

theorem find_eraseR_perm (h : OneToOne c) (r : R) : ((findR c r).toList ++ eraseR c r).Perm c := find_filter_perm (h.imp fun hpq hh => by
  have := PartialEquivBEq.trans (PartialEquivBEq.symm hh.1) hh.2; rw [hpq.2] at this; cases this)

theorem items_append (c d : List (L × R)) : items (c ++ d) = items c ++ items d := List.flatMap_append
theorem items_perm {c d : List (L × R)} (h : c.Perm d) : (items c).Perm (items d) := h.flatMap_right _

/-- the pairs of two left items, and the others -/
theorem two_left (h : OneToOne c) (a b : L) :
    ((findL c a).toList ++ (if b == a then none else findL c b).toList ++ c.filter fun p => !(a == p.1) && !(b == p.1)).Perm c := by
  have h1 := find_eraseL_perm h a
  have h2 := find_eraseL_perm (h.sublist List.filter_sublist : OneToOne (eraseL c a)) b
  have e : eraseL (eraseL c a) b = c.filter fun p => !(a == p.1) && !(b == p.1) := by
    rw [eraseL, eraseL, List.filter_filter]; congr 1; funext p; exact Bool.and_comm _ _
  rw [e] at h2
  have e2 : findL (eraseL c a) b = if b == a then none else findL c b := by
    rw [findL, eraseL, findL, List.find?_filter]
    split
    · rename_i hba
      rw [List.find?_eq_none]
      intro p _
      have : (a == p.1) = (b == p.1) := by
        cases h1 : a == p.1 with
        | true => rw [PartialEquivBEq.trans hba h1]
        | false =>
          cases h2 : b == p.1 with
          | false => rfl
          | true => rw [PartialEquivBEq.trans (PartialEquivBEq.symm hba) h2] at h1; cases h1
      rw [this]; cases b == p.1 <;> simp
    · rename_i hba
      congr 1; funext p
      cases h2 : b == p.1 with
      | false => simp
      | true =>
        cases h1 : a == p.1 with
        | false => simp
        | true => exact absurd (PartialEquivBEq.trans h2 (PartialEquivBEq.symm h1)) hba
  rw [e2] at h2
  rw [List.append_assoc]
  exact (h2.append_left _).trans h1

theorem two_right (h : OneToOne c) (a b : R) :
    ((findR c a).toList ++ (if b == a then none else findR c b).toList ++ c.filter fun p => !(a == p.2) && !(b == p.2)).Perm c := by
  have h1 := find_eraseR_perm h a
  have h2 := find_eraseR_perm (h.sublist List.filter_sublist : OneToOne (eraseR c a)) b
  have e : eraseR (eraseR c a) b = c.filter fun p => !(a == p.2) && !(b == p.2) := by
    rw [eraseR, eraseR, List.filter_filter]; congr 1; funext p; exact Bool.and_comm _ _
  rw [e] at h2
  have e2 : findR (eraseR c a) b = if b == a then none else findR c b := by
    rw [findR, eraseR, findR, List.find?_filter]
    split
    · rename_i hba
      rw [List.find?_eq_none]
      intro p _
      have : (a == p.2) = (b == p.2) := by
        cases h1 : a == p.2 with
        | true => rw [PartialEquivBEq.trans hba h1]
        | false =>
          cases h2 : b == p.2 with
          | false => rfl
          | true => rw [PartialEquivBEq.trans (PartialEquivBEq.symm hba) h2] at h1; cases h1
      rw [this]; cases b == p.2 <;> simp
    · rename_i hba
      congr 1; funext p
      cases h2 : b == p.2 with
      | false => simp
      | true =>
        cases h1 : a == p.2 with
        | false => simp
        | true => exact absurd (PartialEquivBEq.trans h2 (PartialEquivBEq.symm h1)) hba
  rw [e2] at h2
  rw [List.append_assoc]
  exact (h2.append_left _).trans h1

theorem swapLeft_ledger (h : OneToOne c) (old new : L) (ex : Op L R) (hx : ∀ o, hands ex (.swappedLeft o) = hands (.swapLeft old new) (.swappedLeft o)) :
    (takes (.swapLeft old new : Op L R) ++ items c).Perm (items (CycleSpec.swapLeft c old new).2 ++ hands ex (.swappedLeft (CycleSpec.swapLeft c old new).1) ++
      if (findL c old).isSome then [] else .inl new :: items (findL c new).toList) := by
  rw [hx]
  have h2 := items_perm (two_left h old new)
  rw [CycleSpec.swapLeft]
  split
  · rename_i a b hf
    rw [hf] at h2 ⊢
    simp only [items_append, Option.isSome_some, if_true, List.append_nil, takes] at h2 ⊢
    refine (h2.symm.append_left _).trans ?_
    generalize (if new == old then none else findL c new) = q
    generalize (c.filter fun p => !(old == p.1) && !(new == p.1)) = z
    cases q with
    | none =>
      simp only [ofPair, hands, items, List.flatMap_cons, List.flatMap_nil, Option.toList, pieces, List.append_nil, List.nil_append, List.cons_append]
      refine .cons _ ?_
      exact (List.perm_append_comm (l₁ := [Sum.inl a]) (l₂ := .inr b :: z.flatMap pieces))
    | some q =>
      simp only [ofPair, hands, items, List.flatMap_cons, List.flatMap_nil, Option.toList, pieces, List.append_nil, List.nil_append, List.cons_append]
      refine .cons _ ?_
      refine (List.Perm.swap _ _ _).trans (.cons _ ?_)
      exact (List.perm_append_comm (l₁ := [Sum.inl a, Sum.inl q.1, Sum.inr q.2]) (l₂ := z.flatMap pieces))
  · rename_i hf
    rw [hf]
    have := items_perm (find_eraseL_perm h new)
    rw [items_append] at this
    simp only [hands, takes, List.append_nil, Option.isSome_none, Bool.false_eq_true, if_false, List.singleton_append]
    refine (this.symm.cons _).trans ?_
    refine .trans ?_ List.perm_append_comm
    exact .refl _

theorem swapRight_ledger (h : OneToOne c) (old new : R) (ex : Op L R) (hx : ∀ o, hands ex (.swappedRight o) = hands (.swapRight old new) (.swappedRight o)) :
    (takes (.swapRight old new : Op L R) ++ items c).Perm (items (CycleSpec.swapRight c old new).2 ++ hands ex (.swappedRight (CycleSpec.swapRight c old new).1) ++
      if (findR c old).isSome then [] else .inr new :: items (findR c new).toList) := by
  rw [hx]
  have h2 := items_perm (two_right h old new)
  rw [CycleSpec.swapRight]
  split
  · rename_i a b hf
    rw [hf] at h2 ⊢
    simp only [items_append, Option.isSome_some, if_true, List.append_nil, takes] at h2 ⊢
    refine (h2.symm.append_left _).trans ?_
    generalize (if new == old then none else findR c new) = q
    generalize (c.filter fun p => !(old == p.2) && !(new == p.2)) = z
    cases q with
    | none =>
      simp only [ofPair, hands, items, List.flatMap_cons, List.flatMap_nil, Option.toList, pieces, List.append_nil, List.nil_append, List.cons_append]
      refine (List.Perm.swap _ _ _).trans (.cons _ (.cons _ ?_))
      exact (List.perm_append_comm (l₁ := [Sum.inr b]) (l₂ := z.flatMap pieces))
    | some q =>
      simp only [ofPair, hands, items, List.flatMap_cons, List.flatMap_nil, Option.toList, pieces, List.append_nil, List.nil_append, List.cons_append]
      refine (List.Perm.swap _ _ _).trans (.cons _ (.cons _ ?_))
      exact (List.perm_append_comm (l₁ := [Sum.inr b, Sum.inl q.1, Sum.inr q.2]) (l₂ := z.flatMap pieces))
  · rename_i hf
    rw [hf]
    have := items_perm (find_eraseR_perm h new)
    rw [items_append] at this
    simp only [hands, takes, List.append_nil, Option.isSome_none, Bool.false_eq_true, if_false, List.singleton_append]
    refine (this.symm.cons _).trans ?_
    refine .trans ?_ List.perm_append_comm
    exact .refl _

theorem insert_oneToOne (h : OneToOne c) (l : L) (r : R) : OneToOne (CycleSpec.insert c l r).2 := by
  refine List.pairwise_cons.2 ⟨fun p hp => ?_, h.sublist List.filter_sublist⟩
  have := (List.mem_filter.1 hp).2
  simpa using this

theorem insertAll_ledger (h : OneToOne c) (xs : List (L × R)) : ∃ g, (g ++ insertAll c xs).Perm (xs ++ c) := by
  induction xs generalizing c with
  | nil => exact ⟨[], .refl _⟩
  | cons x xs ih =>
    have h1 := insert_conserves h x.1 x.2
    obtain ⟨g, hg⟩ := ih (c := (CycleSpec.insert c x.1 x.2).2) (insert_oneToOne h x.1 x.2)
    refine ⟨given (CycleSpec.insert c x.1 x.2).1 ++ g, ?_⟩
    rw [List.append_assoc]
    refine (List.Perm.append_left _ hg).trans ?_
    rw [← List.append_assoc]
    refine (List.perm_append_comm.append_right _).trans ?_
    rw [List.append_assoc]
    exact (h1.append_left xs).trans List.perm_middle

/-- nothing gets lost in a step -/
theorem step_ledger (h : OneToOne c) {op : Op L R} {o : Out L R} (hs : Safe c op) (hstep : Step c op o c')
    (hc : ∀ cl cr, op ≠ .clone cl cr) : ∃ g, Drops c op g ∧ (takes op ++ items c).Perm (items c' ++ hands op o ++ g) := by
  have same : (items c).Perm (items c ++ [] ++ []) := by rw [List.append_nil, List.append_nil]
  have found : ∀ (q : Option (L × R)) (d : List (L × R)), (q.toList ++ d).Perm c → (items c).Perm (items d ++ items q.toList ++ []) := by
    intro q d hp
    rw [List.append_nil]
    refine (items_perm hp).symm.trans ?_
    rw [items_append]; exact List.perm_append_comm
  have parts : ∀ {σ : Type} (f : σ → L × R → Bool × σ) (d : List (L × R)) (s : σ), d.Perm c →
      (items c).Perm (items (CycleSpec.split f d s).1 ++ items (CycleSpec.split f d s).2.1) := by
    intro σ f d s hd
    rw [← items_append]
    exact (items_perm hd).symm.trans (items_perm (split_perm f d s))
  cases op with
  | insert l r =>
    obtain ⟨rfl, rfl⟩ := hstep
    refine ⟨[], rfl, ?_⟩
    have h1 := items_perm (insert_conserves h l r)
    rw [items_append] at h1
    rw [List.append_nil]
    exact h1.symm.trans List.perm_append_comm
  | remove l r =>
    obtain ⟨rfl, rfl⟩ := hstep
    refine ⟨[], rfl, ?_⟩
    split
    · exact found _ _ (find_eraseL_perm h l)
    · exact same
  | removeViaLeft l =>
    obtain ⟨rfl, rfl⟩ := hstep
    exact ⟨[], rfl, found _ _ (find_eraseL_perm h l)⟩
  | removeViaRight r =>
    obtain ⟨rfl, rfl⟩ := hstep
    exact ⟨[], rfl, found _ _ (find_eraseR_perm h r)⟩
  | swapLeft old new =>
    obtain ⟨rfl, rfl⟩ := hstep
    exact ⟨_, rfl, swapLeft_ledger h old new _ fun _ => rfl⟩
  | swapLeftChecked old e new =>
    rw [Step] at hstep
    split at hstep
    · rename_i hp
      obtain ⟨rfl, rfl⟩ := hstep
      refine ⟨_, rfl, ?_⟩
      have := swapLeft_ledger h old new (.swapLeftChecked old e new) (by intro o; cases o <;> rfl)
      rw [if_pos hp]
      have hf : (findL c old).isSome = true := by
        simp only [hasPair, List.any_eq_true] at hp
        obtain ⟨p, hp, he⟩ := hp
        rw [findL, List.find?_isSome]
        exact ⟨p, hp, (Bool.and_eq_true _ _ ▸ he).1⟩
      rw [if_pos hf] at this
      exact this
    · rename_i hp
      obtain ⟨rfl, rfl⟩ := hstep
      refine ⟨_, rfl, ?_⟩
      rw [if_neg hp]
      simp only [takes, hands, List.append_nil]
      exact List.perm_append_comm
  | swapLeftOrInsert old new r =>
    rw [Step] at hstep
    split at hstep
    · rename_i hp
      obtain ⟨rfl, rfl⟩ := hstep
      refine ⟨_, rfl, ?_⟩
      have := swapLeft_ledger h old new (.swapLeftOrInsert old new r) (by intro o; cases o <;> rfl)
      rw [if_pos hp] at this ⊢
      rw [List.append_nil] at this
      refine .trans ?_ (this.append_right _)
      exact List.Perm.trans (.cons _ (List.perm_append_comm (l₁ := [Sum.inr r]))) (.refl _)
    · rename_i hp
      obtain ⟨rfl, rfl⟩ := hstep
      refine ⟨_, rfl, ?_⟩
      rw [if_neg hp]
      have h1 := items_perm (insert_conserves h new r)
      rw [items_append] at h1
      refine h1.symm.trans (List.perm_append_comm.trans ?_)
      rw [List.append_assoc]
      refine .append_left _ ?_
      simp only [CycleSpec.insert]
      cases findL c new <;> cases (if hasPair c new r then none else findR c r) <;>
        simp [ofPair, mapLeft, hands, given, items, pieces]
      exact List.perm_append_comm (l₁ := [_]) (l₂ := [_, _])
  | swapRight old new =>
    obtain ⟨rfl, rfl⟩ := hstep
    exact ⟨_, rfl, swapRight_ledger h old new _ fun _ => rfl⟩
  | swapRightChecked old e new =>
    rw [Step] at hstep
    split at hstep
    · rename_i hp
      obtain ⟨rfl, rfl⟩ := hstep
      refine ⟨_, rfl, ?_⟩
      have := swapRight_ledger h old new (.swapRightChecked old e new) (by intro o; cases o <;> rfl)
      rw [if_pos hp]
      have hf : (findR c old).isSome = true := by
        simp only [hasPair, List.any_eq_true] at hp
        obtain ⟨p, hp, he⟩ := hp
        rw [findR, List.find?_isSome]
        exact ⟨p, hp, (Bool.and_eq_true _ _ ▸ he).2⟩
      rw [if_pos hf] at this
      exact this
    · rename_i hp
      obtain ⟨rfl, rfl⟩ := hstep
      refine ⟨_, rfl, ?_⟩
      rw [if_neg hp]
      simp only [takes, hands, List.append_nil]
      exact List.perm_append_comm
  | swapRightOrInsert old new l =>
    rw [Step] at hstep
    split at hstep
    · rename_i hp
      obtain ⟨rfl, rfl⟩ := hstep
      refine ⟨_, rfl, ?_⟩
      have := swapRight_ledger h old new (.swapRightOrInsert old new l) (by intro o; cases o <;> rfl)
      rw [if_pos hp] at this ⊢
      rw [List.append_nil] at this
      refine .trans ?_ (this.append_right _)
      exact List.perm_append_comm (l₁ := [Sum.inl l])
    · rename_i hp
      obtain ⟨hl, rfl, rfl⟩ := hstep
      refine ⟨_, rfl, ?_⟩
      rw [if_neg hp, List.append_nil]
      have h1 := items_perm (insert_conserves h l new)
      rw [items_append] at h1
      refine h1.symm.trans (List.perm_append_comm.trans ?_)
      refine .append_left _ ?_
      have hnp : hasPair c l new = false := by
        cases hh : hasPair c l new with
        | false => rfl
        | true =>
          simp only [hasPair, List.any_eq_true] at hh
          obtain ⟨p, hp, he⟩ := hh
          have := List.find?_eq_none.1 hl p hp
          exact absurd (Bool.and_eq_true _ _ ▸ he).1 this
      simp only [CycleSpec.insert, hl, hnp]
      cases findR c new <;> simp [ofPair, hands, given, items, pieces]
  | getLeft | getRight | containsLeft | containsRight | arePaired | len | isEmpty | reserve | tryReserve | shrinkTo | shrinkToFit =>
    obtain ⟨rfl, rfl⟩ := hstep
    exact ⟨[], rfl, same⟩
  | clear =>
    obtain ⟨rfl, rfl⟩ := hstep
    exact ⟨_, rfl, .refl _⟩
  | iter | iterLeft | iterRight =>
    obtain ⟨d, -, rfl, rfl⟩ := hstep
    exact ⟨[], rfl, same⟩
  | drain n =>
    obtain ⟨-, d, hd, rfl, rfl⟩ := hstep
    refine ⟨[], rfl, ?_⟩
    rw [List.append_nil]
    exact (items_perm hd).symm
  | drainFilter σ f s n =>
    obtain ⟨d, hd, rfl, rfl⟩ := hstep
    have hp := parts (fun s p => f s p.1 p.2) d s hd
    refine ⟨items ((CycleSpec.split (fun s p => f s p.1 p.2) d s).1.drop n), trivial, ?_⟩
    refine hp.trans (List.perm_append_comm.trans ?_)
    rw [List.append_assoc]
    refine .append_left _ ?_
    simp only [hands]; rw [← items_append, List.take_append_drop]
  | drainFilterAll σ f s =>
    obtain ⟨d, hd, rfl, rfl⟩ := hstep
    refine ⟨[], rfl, ?_⟩
    rw [List.append_nil]
    exact (parts (fun s p => f s p.1 p.2) d s hd).trans List.perm_append_comm
  | retain σ f s =>
    obtain ⟨d, hd, rfl, rfl⟩ := hstep
    refine ⟨items (CycleSpec.split (fun s p => f s p.1 p.2) d s).2.1, trivial, ?_⟩
    simp only [hands, List.append_nil]
    exact parts (fun s p => f s p.1 p.2) d s hd
  | extend xs =>
    obtain ⟨rfl, rfl⟩ := hstep
    obtain ⟨g, hg⟩ := insertAll_ledger h xs
    refine ⟨items g, trivial, ?_⟩
    have := items_perm hg
    rw [items_append, items_append] at this
    simp only [hands, List.append_nil]
    exact this.symm.trans List.perm_append_comm
  | clone cl cr => exact absurd rfl (hc cl cr)


/-- nothing gets lost in a history -/
theorem run_ledger (h : Repr m c) {ops : List (Op L R)} (hs : SafeRun c ops) (hc : ∀ op ∈ ops, ∀ cl cr, op ≠ .clone cl cr) :
    ∃ os m' c' g, m.run ops = .ok (os, m') ∧ DropsAll c ops os c' g ∧ Repr m' c' ∧
      (ops.flatMap takes ++ items c).Perm (items c' ++ (ops.zip os).flatMap (fun x => hands x.1 x.2) ++ g) := by
  induction ops generalizing m c with
  | nil => exact ⟨[], m, c, [], rfl, ⟨rfl, rfl, rfl⟩, h, by simp⟩
  | cons op ops ih =>
    obtain ⟨o, m1, c1, e1, s1, h1⟩ := exec_simulates h hs.1
    obtain ⟨g1, d1, p1⟩ := step_ledger h.oneToOne hs.1 s1 (hc op List.mem_cons_self)
    obtain ⟨os, m', c', g, e2, d2, h2, p2⟩ := ih h1 (hs.2 o c1 s1) fun x hx => hc x (List.mem_cons_of_mem _ hx)
    refine ⟨o :: os, m', c', g1 ++ g, ?_, ⟨o, os, c1, g1, g, rfl, s1, d1, d2, rfl⟩, h2, ?_⟩
    · simp only [run, e1, e2, bind, Except.bind]; rfl
    · rw [List.flatMap_cons, List.zip_cons_cons, List.flatMap_cons]
      exact ledger_append p1 p2

end Verif.CycleMap
