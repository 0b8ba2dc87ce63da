import Verif.Props.CycleTraits
import Verif.Props.PartialTraits
import Verif.Props.GroupTraits
/-!
Property C141: the order of a sequence whose elements do not clash does not matter, and a map can be rebuilt, with another
hasher, from what it iterates over.
-/
set_option linter.unusedSectionVars false

namespace Verif.CycleMap
open CycleSpec Demo
variable [RawImpl] [LawfulRaw] {L R : Type} [BEq L] [BEq R] [EquivBEq L] [EquivBEq R]
variable {m : CycleMap L R} {c : List (L × R)}

theorem oneToOne_symm {p q : L × R} (h : (p.1 == q.1) = false ∧ (p.2 == q.2) = false) :
    (q.1 == p.1) = false ∧ (q.2 == p.2) = false := ⟨by rw [BEq.comm]; exact h.1, by rw [BEq.comm]; exact h.2⟩

theorem survivors_oneToOne {xs : List (L × R)} (h : OneToOne xs) : survivors xs = xs := by
  induction xs with
  | nil => rfl
  | cons x xs ih =>
    have ⟨h1, h2⟩ := List.pairwise_cons.1 h
    rw [survivors, if_neg, ih h2]
    rw [Bool.not_eq_true, List.any_eq_false]
    intro z hz
    have := oneToOne_symm (h1 z hz)
    simp [conflicts, this.1, this.2]

/-- C141: extending with pairs of which no two share an item leaves, in whatever order they come, these pairs and the old pairs
that share no item with them. -/
theorem C141_cycle_order (h : Reachable m) (hc : Shows m c) {xs : List (L × R)} (hx : OneToOne xs) (ys : List (L × R))
    (hp : ys.Perm xs) :
    ∃ m', m.extend ys = .ok m' ∧
      Shows m' (xs ++ c.filter fun p => xs.all fun q => !(q.1 == p.1) && !(q.2 == p.2)) := by
  obtain ⟨m', e, h', _⟩ := extend_refines (h.repr_of_shows hc) ys
  refine ⟨m', e, (h'.perm ((insertAll_perm ys c).trans ?_)).shows⟩
  rw [survivors_oneToOne ((hp.pairwise_iff oneToOne_symm).2 hx)]
  refine hp.append (List.Perm.of_eq (List.filter_congr fun p _ => ?_))
  rw [Bool.eq_iff_iff]
  simp [conflicts, hp.mem_iff]

/-- C141: what `iter` yields, in any order, collected with any hasher, is the same map again. -/
theorem C141_cycle_rebuild (h : Reachable m) (hc : Shows m c) (hb : BuildHasher L R) {ps ys : List (L × R)}
    (hi : m.iterList = .ok ps) (hp : ys.Perm ps) :
    ∃ m', fromIter hb ys = .ok m' ∧ Shows m' c ∧ m.eq m' = .ok true := by
  obtain ⟨ps', hi', hps⟩ := hc.iter
  rw [hi] at hi'; cases hi'
  obtain ⟨m', e, h', _⟩ := extend_refines (withHasher_repr hb) ys
  have hr : Repr m' c := by
    refine h'.perm ((insertAll_perm ys []).trans ?_)
    rw [survivors_oneToOne (((hp.trans hps).pairwise_iff oneToOne_symm).2 hc.oneToOne)]
    simpa using hp.trans hps
  refine ⟨m', e, hr.shows, ?_⟩
  rw [eq_refines (h.repr_of_shows hc) hr]
  have : (c.all fun q => hasPair c q.1 q.2) = true := (sub_iff).2 (Sub.refl _)
  rw [this]; simp

example : ∃ m', demo.extend [(5, 50), (1, 40)] = .ok m' ∧ Shows m' [(1, 40), (5, 50), (3, 30), (2, 20)] :=
  C141_cycle_order demo_reachable demo_shows (xs := [(1, 40), (5, 50)]) (by simp [OneToOne]) [(5, 50), (1, 40)] (.swap _ _ _)

/-- the demo map, rebuilt backwards with a hash function that spreads -/
example : ∃ ps m', demo.iterList = .ok ps ∧ fromIter spreadHash ps.reverse = .ok m' ∧ Shows m' [(3, 30), (2, 20), (1, 10)] := by
  obtain ⟨ps, e, -⟩ := demo_shows.iter
  obtain ⟨m', e', s, -⟩ := C141_cycle_rebuild demo_reachable demo_shows spreadHash e (List.reverse_perm ps)
  exact ⟨ps, m', e, e', s⟩

end Verif.CycleMap

namespace Verif.PartialMap
open PartialSpec OptionalPair Demo
variable [RawImpl] [LawfulRaw] {L R : Type} [BEq L] [BEq R] [EquivBEq L] [EquivBEq R]
variable {m : PartialMap L R} {c : List (OptionalPair L R)}

theorem disj_symm {x y : OptionalPair L R} (h : Disj x y) : Disj y x := by
  constructor
  · intro l hl
    cases x <;> cases y <;> simp only [leftOf, Option.some.injEq, reduceCtorEq] at hl <;> simp only [hasL]
    all_goals
      subst hl
      rw [BEq.comm]
      have := h.1 _ rfl
      simpa [hasL] using this
  · intro l hl
    cases x <;> cases y <;> simp only [rightOf, Option.some.injEq, reduceCtorEq] at hl <;> simp only [hasR]
    all_goals
      subst hl
      rw [BEq.comm]
      have := h.2 _ rfl
      simpa [hasR] using this

theorem survivors_oneToOne {xs : List (OptionalPair L R)} (h : OneToOne xs) : survivors xs = xs := by
  induction xs with
  | nil => rfl
  | cons x xs ih =>
    have ⟨h1, h2⟩ := List.pairwise_cons.1 h.1
    have hn := h.2
    simp only [List.mem_cons, not_or] at hn
    rw [survivors, if_neg, ih ⟨h2, hn.2⟩]
    · cases x <;> simp [real]
      exact hn.1 rfl
    · rw [Bool.not_eq_true, List.any_eq_false]
      intro z hz
      rw [Bool.not_eq_true, clash_iff]
      exact disj_symm (h1 z hz)

theorem oneToOne_perm {xs ys : List (OptionalPair L R)} (hp : ys.Perm xs) (h : OneToOne xs) : OneToOne ys :=
  ⟨(hp.pairwise_iff disj_symm).2 h.1, fun hn => h.2 (hp.mem_iff.1 hn)⟩

open Classical in
/-- C141: extending with entries of which no two share an item leaves, in whatever order they come, these entries and the old
entries that share no item with them. -/
theorem C141_partial_order (h : Reachable m) (hc : Shows m c) {xs : List (OptionalPair L R)} (hx : OneToOne xs)
    (ys : List (OptionalPair L R)) (hp : ys.Perm xs) :
    ∃ m', m.extend ys = .ok m' ∧ Shows m' (xs ++ c.filter fun e => decide (∀ x ∈ xs, Disj x e)) := by
  obtain ⟨m', e, h', _⟩ := extend_refines (h.repr_of_shows hc) ys
  refine ⟨m', e, (h'.perm ((insertAll_perm ys c).trans ?_)).shows⟩
  rw [survivors_oneToOne (oneToOne_perm hp hx)]
  refine hp.append (List.Perm.of_eq (List.filter_congr fun p _ => ?_))
  rw [Bool.eq_iff_iff]
  simp [hp.mem_iff, clash_iff]

/-- C141: what `iter_paired` and `iter_unpaired` yield, in any order, collected with any hasher, is the same map again.  (`iter`
alone will not do: it leaves out the lone right items, C50.) -/
theorem C141_partial_rebuild (hc : Shows m c) (hb : BuildHasher L R) {ps : List (L × R)}
    {ys : List (OptionalPair L R)} (hi : m.iterPairedList = .ok ps)
    (hp : ys.Perm (ps.map (fun p => someBoth p.1 p.2) ++ m.iterUnpairedList)) :
    ∃ m', fromIter hb ys = .ok m' ∧ Shows m' c := by
  obtain ⟨ps', hi', hps⟩ := hc.iterPaired
  rw [hi] at hi'; cases hi'
  have hy : ys.Perm c := by
    refine hp.trans (((hps.map _).append hc.iterUnpaired).trans ?_)
    have : (c.filterMap pairOf).map (fun p => someBoth p.1 p.2) = c.filter fun e => isPair e := by
      clear hp hc hps hi
      induction c with
      | nil => rfl
      | cons e c ih => cases e <;> simp [pairOf, isPair, List.filterMap_cons, ih]
    rw [this]
    exact List.filter_append_perm _ _
  obtain ⟨m', e, h', _⟩ := extend_refines (withHasher_repr hb) ys
  refine ⟨m', e, (h'.perm ((insertAll_perm ys []).trans ?_)).shows⟩
  rw [survivors_oneToOne (oneToOne_perm hy hc.oneToOne)]
  simpa using hy

example : ∃ m', demo.extend [someRight 10, someLeft 2] = .ok m' ∧
    Shows m' [someLeft 2, someRight 10, someRight 30, someLeft 3] := by
  obtain ⟨m', e, s⟩ := C141_partial_order demo_reachable demo_shows (xs := [someLeft 2, someRight 10])
    (by simp [OneToOne, Disj, leftOf, rightOf, hasL, hasR]) [someRight 10, someLeft 2] (.swap _ _ _)
  exact ⟨m', e, by simpa [Disj, leftOf, rightOf, hasL, hasR, List.filter_cons] using s⟩

example : ∃ ps m', demo.iterPairedList = .ok ps ∧
    fromIter spreadHash (demo.iterUnpairedList ++ ps.map fun p => someBoth p.1 p.2) = .ok m' ∧
    Shows m' [someRight 30, someLeft 3, someBoth 2 20, someBoth 1 10] := by
  obtain ⟨ps, e, -⟩ := demo_shows.iterPaired
  obtain ⟨m', e', s⟩ := C141_partial_rebuild demo_shows spreadHash e List.perm_append_comm
  exact ⟨ps, m', e, e', s⟩

end Verif.PartialMap

namespace Verif.GroupMap
open GroupSpec Demo
variable [RawImpl] [LawfulRaw] {L R : Type} [BEq L] [BEq R] [EquivBEq L] [EquivBEq R]
variable {m : GroupMap L R} {c d : Contents L R}

/-- the pair an element of a sequence is -/
def asPair : Option L × R → Option (L × R)
  | (some l, r) => some (l, r)
  | (none, _) => none

/-- two elements of a sequence that do not get into each other's way -/
def Apart (x y : Option L × R) : Prop :=
  (∀ a b, x.1 = some a → y.1 = some b → (a == b) = false) ∧ (x.1 = none ∨ y.1 = none → x.2 ≠ y.2)

theorem Apart.symm {x y : Option L × R} (h : Apart x y) : Apart y x :=
  ⟨fun a b ha hb => by rw [BEq.comm]; exact h.1 b a hb ha, fun ho e => h.2 ho.symm e.symm⟩

theorem entries_apart (h : c.Sound) : (entries c).Pairwise Apart := by
  rw [entries, List.pairwise_append]
  refine ⟨?_, ?_, ?_⟩
  · rw [List.pairwise_map]
    exact h.lefts.imp fun {p q} hpq => ⟨fun a b ha hb => by cases ha; cases hb; exact hpq, by simp⟩
  · rw [List.pairwise_map]
    refine (h.rights.sublist List.filter_sublist).imp fun {a b} hab => ⟨by simp, fun _ e => ?_⟩
    simp only at e
    rw [e] at hab; simp at hab
  · intro x hx y hy
    obtain ⟨p, hp, rfl⟩ := List.mem_map.1 hx
    obtain ⟨r, hr, rfl⟩ := List.mem_map.1 hy
    refine ⟨by simp, fun _ e => ?_⟩
    simp only at e
    have := (List.mem_filter.1 hr).2
    simp only [hasGroup, Bool.not_eq_true', List.any_eq_false] at this
    exact this p hp (by rw [e]; simp)

/-- what inserting a sequence of elements that are apart does, over right items of which no two are equal -/
theorem insertAll_apart {rs : List R} (hrs : ∀ a ∈ rs, ∀ b ∈ rs, (a == b) = true → a = b) (xs : List (Option L × R))
    (d : Contents L R) (hx : xs.Pairwise Apart) (hr : ∀ x ∈ xs, x.2 ∈ rs) (hd : ∀ b ∈ d.rights, b ∈ rs)
    (ho : ∀ p ∈ d.pairs, p.2 ∈ d.rights) (hn : d.rights.Nodup) (hl : ∀ p ∈ d.pairs, ∀ x ∈ xs, ∀ a, x.1 = some a → (a == p.1) = false)
    (hf : ∀ b ∈ d.rights, ∀ x ∈ xs, x.1 = none → x.2 ≠ b) :
    NewPairs d xs ∧ (insertAll d xs).pairs.Perm (xs.filterMap asPair ++ d.pairs) ∧ (insertAll d xs).rights.Nodup ∧
      ∀ b, b ∈ (insertAll d xs).rights ↔ b ∈ d.rights ∨ ∃ x ∈ xs, x.2 = b := by
  induction xs generalizing d with
  | nil => exact ⟨trivial, by simp [insertAll], hn, by simp [insertAll]⟩
  | cons x xs ih =>
    have ⟨hx1, hx2⟩ := List.pairwise_cons.1 hx
    obtain ⟨_ | l, r⟩ := x
    · -- a lone right item
      have hrr : r ∈ rs := hr _ List.mem_cons_self
      have hnr : ∀ b ∈ d.rights, (r == b) = false := by
        intro b hb
        rw [Bool.eq_false_iff]
        intro he
        exact hf b hb _ List.mem_cons_self rfl (hrs _ hrr _ (hd b hb) he)
      have e1 : (GroupSpec.insertRight d r).2 = ⟨r :: d.rights, d.pairs⟩ := by
        simp only [GroupSpec.insertRight, eraseR]
        rw [List.filter_eq_self.2 (fun b hb => by rw [hnr b hb]; rfl),
          List.filter_eq_self.2 (fun p hp => by rw [hnr _ (ho p hp)]; rfl)]
      obtain ⟨h1, h2, h3, h4⟩ := ih ⟨r :: d.rights, d.pairs⟩ hx2 (fun x hm => hr x (List.mem_cons_of_mem _ hm))
        (fun b hb => (List.mem_cons.1 hb).elim (fun e => e ▸ hrr) (hd b))
        (fun p hp => List.mem_cons_of_mem _ (ho p hp))
        (List.nodup_cons.2 ⟨fun hm => (by have := hnr r hm; simp at this), hn⟩)
        (fun p hp x hm a ha => hl p hp x (List.mem_cons_of_mem _ hm) a ha)
        (fun b hb x hm hxn => by
          rcases List.mem_cons.1 hb with rfl | hb
          · exact fun e => (hx1 x hm).2 (.inl rfl) e.symm
          · exact hf b hb x (List.mem_cons_of_mem _ hm) hxn)
      refine ⟨by rw [NewPairs, e1]; exact h1, by rw [insertAll, e1]; exact h2, by rw [insertAll, e1]; exact h3, fun b => ?_⟩
      rw [insertAll, e1, h4 b]
      simp only [List.mem_cons, exists_eq_or_imp]
      constructor
      · rintro ((rfl | h) | h)
        · exact .inr (.inl rfl)
        · exact .inl h
        · exact .inr (.inr h)
      · rintro (h | rfl | h)
        · exact .inl (.inr h)
        · exact .inl (.inl rfl)
        · exact .inr h
    · -- a pair
      have hrr : r ∈ rs := hr _ List.mem_cons_self
      have hnl : ∀ p ∈ d.pairs, (l == p.1) = false := fun p hp => hl p hp _ List.mem_cons_self l rfl
      have hpair : hasPair d l r = false := by
        simp only [hasPair, List.any_eq_false]
        intro p hp; simp [hnl p hp]
      have hfl : findL d l = none := List.find?_eq_none.2 fun p hp => by simp [hnl p hp]
      have hel : (eraseL d l).pairs = d.pairs := List.filter_eq_self.2 fun p hp => by rw [hnl p hp]; rfl
      have key : ∃ d', GroupSpec.insert d l r = d' ∧ d'.pairs = (l, r) :: d.pairs ∧ d'.rights.Nodup ∧
          ∀ b, b ∈ d'.rights ↔ b ∈ d.rights ∨ r = b := by
        refine ⟨_, rfl, ?_⟩
        simp only [GroupSpec.insert, hfl, hel]
        cases hfr : findR d r with
        | none =>
          have hno := List.find?_eq_none.1 hfr
          refine ⟨rfl, List.nodup_cons.2 ⟨fun hm => hno r hm (by simp), hn⟩, fun b => ?_⟩
          simp only [List.mem_cons]
          constructor
          · rintro (rfl | h)
            · exact .inr rfl
            · exact .inl h
          · rintro (h | rfl)
            · exact .inr h
            · exact .inl rfl
        | some y =>
          have hy := List.find?_some (p := fun q : R => r == q) hfr
          have hm : y ∈ d.rights := List.mem_of_find?_eq_some hfr
          have : r = y := hrs _ hrr _ (hd y hm) hy
          subst this
          refine ⟨rfl, hn, fun b => ⟨.inl, ?_⟩⟩
          rintro (h | rfl)
          · exact h
          · exact hm
      obtain ⟨d', e1, k1, k2, k3⟩ := key
      obtain ⟨h1, h2, h3, h4⟩ := ih d' hx2 (fun x hm => hr x (List.mem_cons_of_mem _ hm))
        (fun b hb => ((k3 b).1 hb).elim (hd b) (fun e => e ▸ hrr))
        (fun p hp => by
          rw [k1] at hp
          rcases List.mem_cons.1 hp with rfl | hp
          · exact (k3 _).2 (.inr rfl)
          · exact (k3 _).2 (.inl (ho p hp)))
        k2
        (fun p hp x hm a ha => by
          rw [k1] at hp
          rcases List.mem_cons.1 hp with rfl | hp
          · exact (hx1 x hm).symm.1 a l ha rfl
          · exact hl p hp x (List.mem_cons_of_mem _ hm) a ha)
        (fun b hb x hm hxn => by
          rcases (k3 b).1 hb with hb | rfl
          · exact hf b hb x (List.mem_cons_of_mem _ hm) hxn
          · exact fun e => (hx1 x hm).2 (.inr hxn) e.symm)
      refine ⟨by rw [NewPairs, e1]; exact ⟨hpair, h1⟩, ?_, by rw [insertAll, e1]; exact h3, fun b => ?_⟩
      · rw [insertAll, e1]
        refine h2.trans ?_
        rw [k1, List.filterMap_cons]
        exact List.perm_middle
      · rw [insertAll, e1, h4 b, k3 b]
        simp only [List.mem_cons, exists_eq_or_imp, or_assoc]

/-- C141: what `iter` yields, in any order, collected with any hasher, is the same map again: the same right items with the same
left items. -/
theorem C141_group_rebuild (hc : Shows m c) (hb : BuildHasher L R) {xs ys : List (Option L × R)}
    (hi : m.iterList = .ok xs) (hp : ys.Perm xs) :
    ∃ m', fromIterOpt hb ys = .ok m' ∧ Reachable m' ∧ Shows m' c := by
  obtain ⟨xs', hi', hxs⟩ := hc.iter
  rw [hi] at hi'; cases hi'
  have hy := hp.trans hxs
  have hrs : ∀ a ∈ c.rights, ∀ b ∈ c.rights, (a == b) = true → a = b := by
    intro a ha b hb he
    refine Classical.byContradiction fun hne => ?_
    obtain ⟨t, ht⟩ := perm_cons_of_mem ha
    rcases List.mem_cons.1 (ht.mem_iff.1 hb) with rfl | hm
    · exact hne rfl
    · have := (List.pairwise_cons.1 ((ht.pairwise_iff fun h => by rw [BEq.comm]; exact h).1 hc.sound.rights)).1 b hm
      rw [he] at this; cases this
  have hmem : ∀ x ∈ ys, x.2 ∈ c.rights := by
    intro x hx
    have := hy.mem_iff.1 hx
    rw [entries, List.mem_append, List.mem_map, List.mem_map] at this
    rcases this with ⟨p, hp, rfl⟩ | ⟨r, hr, rfl⟩
    · exact hc.sound.owned p hp
    · exact (List.mem_filter.1 hr).1
  obtain ⟨h1, h2, h3, h4⟩ := insertAll_apart hrs ys GroupSpec.empty
    ((hy.pairwise_iff Apart.symm).2 (entries_apart hc.sound)) hmem (by simp [GroupSpec.empty]) (by simp [GroupSpec.empty])
    (by simp [GroupSpec.empty]) (by simp [GroupSpec.empty]) (by simp [GroupSpec.empty])
  obtain ⟨m', e, h', -⟩ := extendOpt_refines (withHasher_repr hb) ys h1
  refine ⟨m', e, (Reachable.new hb).extendOpt (withHasher_repr hb) ys h1 e, (h'.same ⟨?_, ?_⟩).shows⟩
  · have hnd : c.rights.Nodup := hc.sound.rights.imp fun {a b} h e => by rw [e] at h; simp at h
    rw [List.perm_ext_iff_of_nodup h3 hnd]
    intro b
    rw [h4 b]
    constructor
    · rintro (h | ⟨x, hx, rfl⟩)
      · simp [GroupSpec.empty] at h
      · exact hmem x hx
    · intro hb
      refine .inr ?_
      by_cases hg : hasGroup c b = true
      · obtain ⟨p, hp, hbp⟩ := List.any_eq_true.1 hg
        have := hrs _ hb _ (hc.sound.owned p hp) hbp
        exact ⟨(some p.1, p.2), hy.mem_iff.2 (List.mem_append.2 (.inl (List.mem_map.2 ⟨p, hp, rfl⟩))), this.symm⟩
      · exact ⟨(none, b), hy.mem_iff.2 (List.mem_append.2 (.inr (List.mem_map.2
          ⟨b, List.mem_filter.2 ⟨hb, by simpa using hg⟩, rfl⟩))), rfl⟩
  · refine h2.trans ?_
    simp only [GroupSpec.empty, List.append_nil]
    refine (hy.filterMap _).trans (List.Perm.of_eq ?_)
    rw [entries, List.filterMap_append]
    have a1 : ((lone c).map fun r => ((none : Option L), r)).filterMap asPair = [] := by
      rw [List.filterMap_map]; simp [Function.comp_def, asPair]
    have a2 : (c.pairs.map fun p => (some p.1, p.2)).filterMap asPair = c.pairs := by
      rw [List.filterMap_map]; simp [Function.comp_def, asPair]
    rw [a1, a2, List.append_nil]

/-- the demo map, rebuilt backwards with a hash function that spreads -/
example : ∃ xs m', demo.iterList = .ok xs ∧ fromIterOpt spreadHash xs.reverse = .ok m' ∧ Shows m' demoC := by
  obtain ⟨xs, e, -⟩ := demo_shows.iter
  obtain ⟨m', e', -, s⟩ := C141_group_rebuild demo_shows spreadHash e (List.reverse_perm xs)
  exact ⟨xs, m', e, e', s⟩

end Verif.GroupMap
