import Verif.PartialMap.SpecLemmas
import Verif.CycleMap.Mirror
/-!
Left and right exchanged: what the list machine of `PartialCycleMap` makes of a mirrored call on mirrored contents.
-/
set_option linter.unusedSectionVars false
namespace Verif.PartialMap
open PartialSpec OptionalPair
variable {L R : Type} [BEq L] [BEq R]

/-- The call with left and right exchanged. -/
def Op.mirror : Op L R → Op R L
  | .insert l r => .insert r l
  | .insertLeft l => .insertRight l
  | .insertRight r => .insertLeft r
  | .pair l r => .pair r l
  | .pairForced l r => .pairForced r l
  | .pairForcedRemove l r => .pairForcedRemove r l
  | .unpair l r => .unpair r l
  | .remove l r => .remove r l
  | .removeViaLeft l => .removeViaRight l
  | .removeViaRight r => .removeViaLeft r
  | .removeLeft l => .removeRight l
  | .removeRight r => .removeLeft r
  | .swapLeft old new => .swapRight old new
  | .swapLeftChecked old e new => .swapRightChecked old e new
  | .swapLeftOrInsert old new r => .swapRightOrInsert old new r
  | .swapRight old new => .swapLeft old new
  | .swapRightChecked old e new => .swapLeftChecked old e new
  | .swapRightOrInsert old new l => .swapLeftOrInsert old new l
  | .getLeft r => .getRight r
  | .getRight l => .getLeft l
  | .containsLeft l => .containsRight l
  | .containsRight r => .containsLeft r
  | .isLeftPaired l => .isRightPaired l
  | .isRightPaired r => .isLeftPaired r
  | .arePaired l r => .arePaired r l
  | .lenLeft => .lenRight
  | .lenRight => .lenLeft
  | .isEmpty => .isEmpty
  | .clear => .clear
  | .iter => .iter
  | .iterPaired => .iterPaired
  | .iterUnpaired => .iterUnpaired
  | .iterLeft => .iterRight
  | .iterRight => .iterLeft
  | .drain n => .drain n
  | .drainFilter σ f s n => .drainFilter σ (fun s e => f s e.mirror) s n
  | .retain σ f s => .retain σ (fun s e => f s e.mirror) s
  | .retainPaired σ f s => .retainPaired σ (fun s r l => f s l r) s
  | .retainUnpaired σ f s => .retainUnpaired σ (fun s e => f s e.mirror) s
  | .extendPairs xs => .extendPairs (xs.map Prod.swap)
  | .extend xs => .extend (xs.map OptionalPair.mirror)
  | .reserveLeft n => .reserveRight n
  | .reserveRight n => .reserveLeft n
  | .tryReserveLeft n a => .tryReserveRight n a
  | .tryReserveRight n a => .tryReserveLeft n a
  | .shrinkToLeft n => .shrinkToRight n
  | .shrinkToRight n => .shrinkToLeft n
  | .shrinkToFit => .shrinkToFit
  | .clone cl cr => .clone cr cl

/-- The result with left and right exchanged. -/
def Out.mirror : Out L R → Out R L
  | .unit => .unit
  | .bool b => .bool b
  | .nat n => .nat n
  | .left o => .right o
  | .right o => .left o
  | .pair o => .pair (o.map Prod.swap)
  | .entry o => .entry o.mirror
  | .twoEntries o => .twoEntries (o.2.mirror, o.1.mirror)
  | .swappedLeft o => .swappedRight (o.mapRight OptionalPair.mirror)
  | .swappedRight o => .swappedLeft (o.mapRight OptionalPair.mirror)
  | .lefts ls => .rights ls
  | .rights rs => .lefts rs
  | .pairs ps => .pairs (ps.map Prod.swap)
  | .entries es => .entries (es.map OptionalPair.mirror)

/-- The calls that treat left and right alike with contents `c`.  Left out: `insert` of a pair that is there, which returns
it as the entry of the left item; `iter`, which passes over lone right items but not over lone left items (C50), unless
there are no lone items; and `retain`, which does the same (C55), unless it would let the lone items be. -/
def Even (c : List (OptionalPair L R)) : Op L R → Prop
  | .insert l r => hasPair c l r = false
  | .iter => ∀ e ∈ c, isPair e = true
  | .retain _ f _ => ∀ e ∈ c, isPair e = false → ∀ s, (f s e).1 = false
  | _ => True

/-- A history of such calls, however the visiting orders turn out, each of them safe from the other side as well
(for a mirrored map with hash builder `hb`). -/
def EvenRun (hb : BuildHasher R L) (c : List (OptionalPair L R)) : List (Op L R) → Prop
  | [] => True
  | op :: ops => Even c op ∧ Safe hb (c.map OptionalPair.mirror) op.mirror ∧ ∀ o c', Step c op o c' → EvenRun hb c' ops

end Verif.PartialMap

namespace Verif.PartialSpec
open PartialMap OptionalPair
open CycleSpec (split split_pure)
variable {L R : Type}

@[simp] theorem mirror_mirror (e : OptionalPair L R) : e.mirror.mirror = e := by cases e <;> rfl
@[simp] theorem leftOf_mirror (e : OptionalPair L R) : leftOf e.mirror = rightOf e := by cases e <;> rfl
@[simp] theorem rightOf_mirror (e : OptionalPair L R) : rightOf e.mirror = leftOf e := by cases e <;> rfl
@[simp] theorem isPair_mirror (e : OptionalPair L R) : isPair e.mirror = isPair e := by cases e <;> rfl
@[simp] theorem pairOf_mirror (e : OptionalPair L R) : pairOf e.mirror = (pairOf e).map Prod.swap := by cases e <;> rfl

theorem ofPair_mirror {A B : Type} (a : Option A) (b : Option B) : (ofPair (a, b)).mirror = ofPair (b, a) := by
  cases a <;> cases b <;> rfl

theorem ofPair_mapRight {A B C : Type} (a : Option A) (b : Option B) (f : B → C) :
    (ofPair (a, b)).mapRight f = ofPair (a, b.map f) := by
  cases a <;> cases b <;> rfl

theorem getD_mirror (o : Option (OptionalPair L R)) : (o.map mirror).getD neither = (o.getD neither).mirror := by
  cases o <;> rfl

variable [BEq L] [BEq R] {c : List (OptionalPair L R)}

@[simp] theorem hasL_mirror (r : R) (e : OptionalPair L R) : hasL r e.mirror = hasR r e := by cases e <;> rfl
@[simp] theorem hasR_mirror (l : L) (e : OptionalPair L R) : hasR l e.mirror = hasL l e := by cases e <;> rfl

theorem findL_mirror (c : List (OptionalPair L R)) (r : R) : findL (c.map mirror) r = (findR c r).map mirror := by
  simp only [findL, findR, List.find?_map, Function.comp_def, hasL_mirror]

theorem findR_mirror (c : List (OptionalPair L R)) (l : L) : findR (c.map mirror) l = (findL c l).map mirror := by
  simp only [findL, findR, List.find?_map, Function.comp_def, hasR_mirror]

theorem hasPair_mirror (c : List (OptionalPair L R)) (l : L) (r : R) : hasPair (c.map mirror) r l = hasPair c l r := by
  simp only [hasPair, List.any_map, Function.comp_def, hasL_mirror, hasR_mirror, Bool.and_comm]

theorem eraseL_mirror (c : List (OptionalPair L R)) (r : R) : eraseL (c.map mirror) r = (eraseR c r).map mirror := by
  simp only [eraseL, eraseR, List.filter_map, Function.comp_def, hasL_mirror]

theorem eraseR_mirror (c : List (OptionalPair L R)) (l : L) : eraseR (c.map mirror) l = (eraseL c l).map mirror := by
  simp only [eraseL, eraseR, List.filter_map, Function.comp_def, hasR_mirror]

theorem others_mirror (c : List (OptionalPair L R)) (l : L) (r : R) : others (c.map mirror) r l = (others c l r).map mirror := by
  simp only [others, List.filter_map, Function.comp_def, hasL_mirror, hasR_mirror, Bool.and_comm]

theorem lones_mirror (a : Option L) (b : Option R) : (lones b a).Perm ((lones a b).map mirror) := by
  cases a <;> cases b <;> simp [lones, mirror]
  exact .swap _ _ _

theorem leftOf_map (o : Option (OptionalPair L R)) : (o.map mirror).bind leftOf = o.bind rightOf := by
  cases o <;> simp

theorem rightOf_map (o : Option (OptionalPair L R)) : (o.map mirror).bind rightOf = o.bind leftOf := by
  cases o <;> simp

theorem insert_mirror (c : List (OptionalPair L R)) (l : L) (r : R) :
    (insert (c.map mirror) r l).2 = (insert c l r).2.map mirror := by
  simp only [insert, others_mirror, List.map_cons]; rfl

theorem insertLeft_mirror (c : List (OptionalPair L R)) (r : R) :
    insertLeft (c.map mirror) r = ((insertRight c r).1.mirror, (insertRight c r).2.map mirror) := by
  simp only [insertLeft, insertRight, findL_mirror, eraseL_mirror, getD_mirror, List.map_cons]; rfl

theorem insertRight_mirror (c : List (OptionalPair L R)) (l : L) :
    insertRight (c.map mirror) l = ((insertLeft c l).1.mirror, (insertLeft c l).2.map mirror) := by
  simp only [insertLeft, insertRight, findR_mirror, eraseR_mirror, getD_mirror, List.map_cons]; rfl

theorem pair_mirror (c : List (OptionalPair L R)) (l : L) (r : R) :
    pair (c.map mirror) r l = ((pair c l r).1, (pair c l r).2.map mirror) := by
  simp only [pair, findL_mirror, findR_mirror, others_mirror]
  cases findL c l with
  | none => cases findR c r with | none => rfl | some b => cases b <;> rfl
  | some a => cases findR c r with | none => cases a <;> rfl | some b => cases a <;> cases b <;> rfl

theorem pairForced_mirror (c : List (OptionalPair L R)) (l : L) (r : R) :
    (pairForced (c.map mirror) r l).1 = (pairForced c l r).1.mirror ∧
    (pairForced (c.map mirror) r l).2.Perm ((pairForced c l r).2.map mirror) := by
  simp only [pairForced, findL_mirror, findR_mirror, others_mirror, hasPair_mirror, leftOf_map, rightOf_map]
  cases (findL c l).bind leftOf with
  | none => cases (findR c r).bind rightOf <;> exact ⟨rfl, .refl _⟩
  | some a =>
    cases (findR c r).bind rightOf with
    | none => exact ⟨rfl, .refl _⟩
    | some b =>
      cases hasPair c l r with
      | true => exact ⟨rfl, .refl _⟩
      | false =>
        refine ⟨(ofPair_mirror _ _).symm, ?_⟩
        simp only [Bool.false_eq_true, if_false, List.map_cons, List.map_append]
        exact .cons _ ((lones_mirror _ _).append_right _)

theorem pairForcedRemove_mirror (c : List (OptionalPair L R)) (l : L) (r : R) :
    pairForcedRemove (c.map mirror) r l = ((pairForcedRemove c l r).1.mirror, (pairForcedRemove c l r).2.map mirror) := by
  simp only [pairForcedRemove, findL_mirror, findR_mirror, others_mirror, hasPair_mirror, leftOf_map, rightOf_map]
  cases (findL c l).bind leftOf with
  | none => cases (findR c r).bind rightOf <;> rfl
  | some a =>
    cases (findR c r).bind rightOf with
    | none => rfl
    | some b =>
      cases hasPair c l r with
      | true => rfl
      | false => simp only [Bool.false_eq_true, if_false, ofPair_mirror]; rfl

theorem unpair_mirror (c : List (OptionalPair L R)) (l : L) (r : R) :
    (unpair (c.map mirror) r l).1 = (unpair c l r).1 ∧
    (unpair (c.map mirror) r l).2.Perm ((unpair c l r).2.map mirror) := by
  simp only [unpair, findL_mirror, findR_mirror, others_mirror, hasPair_mirror, leftOf_map, rightOf_map]
  cases hasPair c l r with
  | true =>
    refine ⟨rfl, ?_⟩
    simp only [if_true, List.map_append]
    exact (lones_mirror _ _).append_right _
  | false => exact ⟨rfl, .refl _⟩

theorem removeLeft_mirror (c : List (OptionalPair L R)) (r : R) :
    (removeLeft (c.map mirror) r).1 = (removeRight c r).1 ∧
    (removeLeft (c.map mirror) r).2.Perm ((removeRight c r).2.map mirror) := by
  simp only [removeLeft, removeRight, findL_mirror, eraseL_mirror, leftOf_map, rightOf_map, List.map_append]
  exact ⟨trivial, (lones_mirror _ _).append_right _⟩

theorem removeRight_mirror (c : List (OptionalPair L R)) (l : L) :
    (removeRight (c.map mirror) l).1 = (removeLeft c l).1 ∧
    (removeRight (c.map mirror) l).2.Perm ((removeLeft c l).2.map mirror) := by
  simp only [removeLeft, removeRight, findR_mirror, eraseR_mirror, leftOf_map, rightOf_map, List.map_append]
  exact ⟨trivial, (lones_mirror _ _).append_right _⟩

theorem setLeft_mirror (r : R) (e : OptionalPair L R) : setLeft r e.mirror = (setRight r e).mirror := by cases e <;> rfl
theorem setRight_mirror (l : L) (e : OptionalPair L R) : setRight l e.mirror = (setLeft l e).mirror := by cases e <;> rfl

theorem swapLeft_mirror (c : List (OptionalPair L R)) (a b : R) :
    (swapLeft (c.map mirror) a b).1 = (swapRight c a b).1.mapRight mirror ∧
    (swapLeft (c.map mirror) a b).2 = (swapRight c a b).2.map mirror := by
  simp only [swapLeft, swapRight, findL_mirror]
  cases findR c a with
  | none => exact ⟨rfl, eraseL_mirror c b⟩
  | some p =>
    refine ⟨?_, ?_⟩
    · simp only [Option.map_some, ofPair_mapRight, leftOf_mirror]
      cases b == a <;> rfl
    · simp only [Option.map_some, List.filter_map, List.map_cons, setLeft_mirror, Function.comp_def, hasL_mirror]

theorem swapRight_mirror (c : List (OptionalPair L R)) (a b : L) :
    (swapRight (c.map mirror) a b).1 = (swapLeft c a b).1.mapRight mirror ∧
    (swapRight (c.map mirror) a b).2 = (swapLeft c a b).2.map mirror := by
  simp only [swapLeft, swapRight, findR_mirror]
  cases findL c a with
  | none => exact ⟨rfl, eraseR_mirror c b⟩
  | some p =>
    refine ⟨?_, ?_⟩
    · simp only [Option.map_some, ofPair_mapRight, rightOf_mirror]
      cases b == a <;> rfl
    · simp only [Option.map_some, List.filter_map, List.map_cons, setRight_mirror, Function.comp_def, hasR_mirror]

theorem insertEntry_mirror (c : List (OptionalPair L R)) (e : OptionalPair L R) :
    insertEntry (c.map mirror) e.mirror = (insertEntry c e).map mirror := by
  cases e with
  | neither => rfl
  | someLeft l => exact congrArg Prod.snd (insertRight_mirror c l)
  | someRight r => exact congrArg Prod.snd (insertLeft_mirror c r)
  | someBoth l r => exact insert_mirror c l r

theorem insertAll_mirror (c xs : List (OptionalPair L R)) :
    insertAll (c.map mirror) (xs.map mirror) = (insertAll c xs).map mirror := by
  induction xs generalizing c with
  | nil => rfl
  | cons x xs ih =>
    simp only [insertAll, List.map_cons, List.foldl_cons] at ih ⊢
    rw [← ih, insertEntry_mirror]

theorem filterMap_mirror {A : Type} (c : List (OptionalPair L R)) (f : OptionalPair R L → Option A) :
    (c.map mirror).filterMap f = c.filterMap fun e => f e.mirror := by
  rw [List.filterMap_map]; rfl

variable [EquivBEq L] [EquivBEq R]

/-- a pair is found from both sides -/
theorem findL_eq_findR (h : OneToOne c) {l : L} {r : R} (hp : hasPair c l r = true) :
    findL c l = findR c r ∧ eraseL c l = eraseR c r := by
  let _ := tidyRaw
  have := tidyRaw_lawful
  simp only [hasPair, List.any_eq_true, Bool.and_eq_true] at hp
  obtain ⟨p, hp, h1, h2⟩ := hp
  refine ⟨(mem_findL h hp h1).trans (mem_findR h hp h2).symm, ?_⟩
  apply List.filter_congr
  intro q hq
  congr 1
  rw [Bool.eq_iff_iff]
  exact ⟨fun e => h.uniqueL hp hq h1 e ▸ h2, fun e => h.uniqueR hp hq h2 e ▸ h1⟩

/-- what `drain_filter` with a pure closure leaves, in the cases in which it works -/
theorem drainFilter_pure {σ : Type} {f : σ → OptionalPair L R → Bool × σ} {s : σ} {g : OptionalPair L R → Bool}
    (hg : ∀ s e, (f s e).1 = g e) (hs : ∀ l r, someBoth l r ∈ c → g (someRight r) = false) {o : Out L R}
    {c' : List (OptionalPair L R)} (h : Step c (.drainFilter σ f s 0) o c') :
    o = .entries [] ∧ c'.Perm (c.filter fun e => !g e) := by
  obtain ⟨d1, us, d2, h1, h2, h3, h4, h5, rfl, rfl⟩ := h
  refine ⟨rfl, ?_⟩
  rw [(split_pure hg d1 s).2] at h4 ⊢
  rw [(split_pure (f := fun s e => f s (asRight e)) (g := fun e => g (asRight e)) (fun s e => hg s _) d2 _).2]
  have hd2 : ∀ e ∈ d2, g (asRight e) = g e := by
    intro e he
    have hm := h4.mem_iff.1 (List.mem_append_left _ he)
    cases e with
    | someBoth l r =>
      rcases List.mem_append.1 hm with hm | hm
      · obtain ⟨hm, hge⟩ := List.mem_filter.1 hm
        have := hs l r (h1.mem_iff.1 (List.mem_append_left _ hm))
        simp only [asRight, this]
        simpa using hge.symm
      · exact absurd (h3 _ hm) (by simp [leftOf])
    | _ => rfl
  rw [List.filter_congr (q := fun e => !g e) (fun e he => by rw [hd2 e he])]
  have h6 : ((d1.filter fun e => !g e).filter fun e => (rightOf e).isNone).filter (fun e => !g e) =
      (d1.filter fun e => !g e).filter fun e => (rightOf e).isNone :=
    List.filter_eq_self.2 fun e he => (List.mem_filter.1 (List.mem_filter.1 he).1).2
  rw [← h6, ← List.filter_append]
  refine (h4.filter _).trans ?_
  rw [List.filter_append, List.filter_filter]
  simp only [Bool.and_self]
  rw [← List.filter_append]
  exact h1.filter _

/-- what `retain` with a pure closure leaves -/
theorem retain_pure {σ : Type} {f : σ → OptionalPair L R → Bool × σ} {s : σ} {g : OptionalPair L R → Bool}
    (hg : ∀ s e, (f s e).1 = g e) {o : Out L R} {c' : List (OptionalPair L R)} (h : Step c (.retain σ f s) o c') :
    o = .unit ∧ c'.Perm (c.filter fun e => !((leftOf e).isSome && g e)) := by
  obtain ⟨d, us, h1, h2, h3, rfl, rfl⟩ := h
  refine ⟨rfl, ?_⟩
  rw [(split_pure hg d s).2]
  refine List.Perm.trans ?_ (h1.filter _)
  rw [List.filter_append]
  refine .append ?_ ?_
  · rw [List.filter_congr (q := fun e => !((leftOf e).isSome && g e)) (fun e he => by rw [h2 e he, Bool.true_and])]
  · rw [List.filter_eq_self.2 fun e he => by simp [h3 e he]]

/-- The list machine on mirrored contents: mirrored results, mirrored contents. -/
theorem step_mirror (h1 : OneToOne c) {op : Op L R} (he : Even c op) (ho : OrderFree op) {hb : BuildHasher L R}
    {hb' : BuildHasher R L} (hs : Safe hb c op) (hs' : Safe hb' (c.map mirror) op.mirror) {o : Out L R} {o' : Out R L}
    {c₁ : List (OptionalPair L R)} {c₂ : List (OptionalPair R L)} (h : Step c op o c₁)
    (h' : Step (c.map mirror) op.mirror o' c₂) : SameOut o.mirror o' ∧ c₂.Perm (c₁.map mirror) := by
  cases op
  case drainFilter σ f s n =>
    obtain ⟨⟨g, hg⟩, rfl⟩ := ho
    obtain ⟨rfl, p⟩ := drainFilter_pure hg (fun l r hm => hg s _ ▸ hs s l r hm) h
    obtain ⟨rfl, p'⟩ := drainFilter_pure (g := fun e => g e.mirror) (fun s e => hg s _) (fun r l hm => by
      have := hs' s r l hm
      simpa only [hg] using this) h'
    refine ⟨.refl _, p'.trans ?_⟩
    rw [List.filter_map]
    simp only [Function.comp_def, mirror_mirror]
    exact (p.map _).symm
  case retain σ f s =>
    obtain ⟨g, hg⟩ := ho
    obtain ⟨rfl, p⟩ := retain_pure hg h
    obtain ⟨rfl, p'⟩ := retain_pure (g := fun e => g e.mirror) (fun s e => hg s _) h'
    refine ⟨rfl, p'.trans ?_⟩
    rw [List.filter_map]
    simp only [Function.comp_def, mirror_mirror, leftOf_mirror]
    refine List.Perm.trans ?_ (p.map _).symm
    rw [List.filter_congr]
    intro e hm
    have := he e hm
    cases e
    case someLeft l => have := this rfl s; rw [hg] at this; simp [this]
    case someRight l => have := this rfl s; rw [hg] at this; simp [this]
    all_goals rfl
  case insert l r =>
    obtain ⟨rfl, rfl⟩ := h; obtain ⟨rfl, rfl⟩ := h'
    refine ⟨?_, by rw [insert_mirror]⟩
    simp only [Even] at he
    simp only [Out.mirror, SameOut, insert, hasPair_mirror, he, findL_mirror, findR_mirror, getD_mirror]
    rfl
  case insertLeft l =>
    obtain ⟨rfl, rfl⟩ := h; obtain ⟨rfl, rfl⟩ := h'
    rw [insertRight_mirror]; exact ⟨rfl, .refl _⟩
  case insertRight l =>
    obtain ⟨rfl, rfl⟩ := h; obtain ⟨rfl, rfl⟩ := h'
    rw [insertLeft_mirror]; exact ⟨rfl, .refl _⟩
  case pair l r =>
    obtain ⟨rfl, rfl⟩ := h; obtain ⟨rfl, rfl⟩ := h'
    rw [pair_mirror]; exact ⟨rfl, .refl _⟩
  case pairForced l r =>
    obtain ⟨rfl, rfl⟩ := h; obtain ⟨rfl, rfl⟩ := h'
    exact ⟨by rw [(pairForced_mirror c l r).1]; exact SameOut.refl _, (pairForced_mirror c l r).2⟩
  case pairForcedRemove l r =>
    obtain ⟨rfl, rfl⟩ := h; obtain ⟨rfl, rfl⟩ := h'
    rw [pairForcedRemove_mirror]; exact ⟨rfl, .refl _⟩
  case unpair l r =>
    obtain ⟨rfl, rfl⟩ := h; obtain ⟨rfl, rfl⟩ := h'
    exact ⟨by rw [(unpair_mirror c l r).1]; exact SameOut.refl _, (unpair_mirror c l r).2⟩
  case remove l r =>
    obtain ⟨rfl, rfl⟩ := h; obtain ⟨rfl, rfl⟩ := h'
    simp only [remove, hasPair_mirror, findL_mirror, eraseL_mirror]
    cases hp : hasPair c l r with
    | true =>
      rw [← (findL_eq_findR h1 hp).1, ← (findL_eq_findR h1 hp).2]
      refine ⟨?_, .refl _⟩
      cases findL c l <;> simp [Out.mirror, SameOut]
    | false => exact ⟨rfl, .refl _⟩
  case removeViaLeft | removeViaRight =>
    obtain ⟨rfl, rfl⟩ := h; obtain ⟨rfl, rfl⟩ := h'
    simp only [findL_mirror, findR_mirror, eraseL_mirror, eraseR_mirror, getD_mirror]
    exact ⟨rfl, .refl _⟩
  case removeLeft l =>
    obtain ⟨rfl, rfl⟩ := h; obtain ⟨rfl, rfl⟩ := h'
    exact ⟨by rw [(removeRight_mirror c l).1]; exact SameOut.refl _, (removeRight_mirror c l).2⟩
  case removeRight l =>
    obtain ⟨rfl, rfl⟩ := h; obtain ⟨rfl, rfl⟩ := h'
    exact ⟨by rw [(removeLeft_mirror c l).1]; exact SameOut.refl _, (removeLeft_mirror c l).2⟩
  case swapLeft a b =>
    obtain ⟨rfl, rfl⟩ := h; obtain ⟨rfl, rfl⟩ := h'
    exact ⟨by rw [(swapRight_mirror c a b).1]; exact SameOut.refl _, by rw [(swapRight_mirror c a b).2]⟩
  case swapRight a b =>
    obtain ⟨rfl, rfl⟩ := h; obtain ⟨rfl, rfl⟩ := h'
    exact ⟨by rw [(swapLeft_mirror c a b).1]; exact SameOut.refl _, by rw [(swapLeft_mirror c a b).2]⟩
  case swapLeftChecked a e b =>
    simp only [Step, Op.mirror, hasPair_mirror] at h h'
    split at h
    · rename_i hp
      rw [if_pos hp] at h'
      obtain ⟨rfl, rfl⟩ := h; obtain ⟨rfl, rfl⟩ := h'
      exact ⟨by rw [(swapRight_mirror c a b).1]; exact SameOut.refl _, by rw [(swapRight_mirror c a b).2]⟩
    · rename_i hp
      rw [if_neg hp] at h'
      obtain ⟨rfl, rfl⟩ := h; obtain ⟨rfl, rfl⟩ := h'
      exact ⟨rfl, .refl _⟩
  case swapRightChecked a e b =>
    simp only [Step, Op.mirror, hasPair_mirror] at h h'
    split at h
    · rename_i hp
      rw [if_pos hp] at h'
      obtain ⟨rfl, rfl⟩ := h; obtain ⟨rfl, rfl⟩ := h'
      exact ⟨by rw [(swapLeft_mirror c a b).1]; exact SameOut.refl _, by rw [(swapLeft_mirror c a b).2]⟩
    · rename_i hp
      rw [if_neg hp] at h'
      obtain ⟨rfl, rfl⟩ := h; obtain ⟨rfl, rfl⟩ := h'
      exact ⟨rfl, .refl _⟩
  case swapLeftOrInsert a b r =>
    simp only [Step, Op.mirror, findR_mirror, findL_mirror, Option.isSome_map] at h h'
    split at h
    · rename_i hp
      rw [if_pos hp] at h'
      obtain ⟨rfl, rfl⟩ := h; obtain ⟨rfl, rfl⟩ := h'
      exact ⟨by rw [(swapRight_mirror c a b).1]; exact SameOut.refl _, by rw [(swapRight_mirror c a b).2]⟩
    · rename_i hp
      rw [if_neg hp] at h'
      obtain ⟨_, rfl, rfl⟩ := h; obtain ⟨_, rfl, rfl⟩ := h'
      exact ⟨by simp only [Out.mirror, ofPair_mapRight]; exact SameOut.refl _, by rw [insert_mirror]⟩
  case swapRightOrInsert a b l =>
    simp only [Step, Op.mirror, findR_mirror, findL_mirror, Option.isSome_map] at h h'
    split at h
    · rename_i hp
      rw [if_pos hp] at h'
      obtain ⟨rfl, rfl⟩ := h; obtain ⟨rfl, rfl⟩ := h'
      exact ⟨by rw [(swapLeft_mirror c a b).1]; exact SameOut.refl _, by rw [(swapLeft_mirror c a b).2]⟩
    · rename_i hp
      rw [if_neg hp] at h'
      obtain ⟨_, rfl, rfl⟩ := h; obtain ⟨_, rfl, rfl⟩ := h'
      exact ⟨by simp only [Out.mirror, ofPair_mapRight]; exact SameOut.refl _, by rw [insert_mirror]⟩
  case iter =>
    obtain ⟨d, hd, rfl, rfl⟩ := h; obtain ⟨d', hd', rfl, rfl⟩ := h'
    refine ⟨?_, .refl _⟩
    have e1 : (c₁.filter fun e => (leftOf e).isSome) = c₁ :=
      List.filter_eq_self.2 fun e hm => by have := he e hm; cases e <;> simp_all [isPair, leftOf]
    have e2 : ((c₁.map mirror).filter fun e => (leftOf e).isSome) = c₁.map mirror :=
      List.filter_eq_self.2 fun e hm => by
        obtain ⟨e, hm', rfl⟩ := List.mem_map.1 hm
        have := he e hm'; cases e <;> simp_all [isPair, rightOf]
    rw [e1] at hd
    rw [e2] at hd'
    exact (hd.map _).trans hd'.symm
  case iterPaired =>
    obtain ⟨d, hd, rfl, rfl⟩ := h; obtain ⟨d', hd', rfl, rfl⟩ := h'
    refine ⟨?_, .refl _⟩
    rw [filterMap_mirror] at hd'
    simp only [pairOf_mirror] at hd'
    refine (hd.map _).trans (List.Perm.trans ?_ hd'.symm)
    rw [List.map_filterMap]
  case iterUnpaired =>
    obtain ⟨d, hd, rfl, rfl⟩ := h; obtain ⟨d', hd', rfl, rfl⟩ := h'
    refine ⟨?_, .refl _⟩
    rw [List.filter_map] at hd'
    simp only [Function.comp_def, isPair_mirror] at hd'
    exact (hd.map _).trans hd'.symm
  case iterLeft | iterRight =>
    obtain ⟨d, hd, rfl, rfl⟩ := h; obtain ⟨d', hd', rfl, rfl⟩ := h'
    refine ⟨?_, .refl _⟩
    rw [filterMap_mirror] at hd'
    simp only [leftOf_mirror, rightOf_mirror] at hd'
    exact hd.trans hd'.symm
  case drain n =>
    obtain ⟨_, _, _, _, _, rfl, rfl⟩ := h; obtain ⟨_, _, _, _, _, rfl, rfl⟩ := h'
    obtain rfl : n = 0 := ho
    exact ⟨.refl _, .refl _⟩
  case retainPaired σ f s =>
    obtain ⟨g, hg⟩ := ho
    obtain ⟨d, hd, rfl, rfl⟩ := h; obtain ⟨d', hd', rfl, rfl⟩ := h'
    refine ⟨rfl, ?_⟩
    rw [filterMap_mirror] at hd'
    simp only [pairOf_mirror, ← List.map_filterMap] at hd'
    rw [(split_pure hg d s).2, (split_pure (g := fun p : R × L => g (p.2, p.1)) (fun s p => hg s (p.2, p.1)) d' s).2,
      List.map_append, List.filter_map]
    simp only [Function.comp_def, isPair_mirror, List.map_map]
    refine .append_right _ ?_
    refine (((hd'.trans (hd.symm.map Prod.swap)).filter _).map _).trans ?_
    rw [List.filter_map, List.map_map]
    exact .refl _
  case retainUnpaired σ f s =>
    obtain ⟨g, hg⟩ := ho
    obtain ⟨d, hd, rfl, rfl⟩ := h; obtain ⟨d', hd', rfl, rfl⟩ := h'
    refine ⟨rfl, ?_⟩
    rw [(split_pure hg d s).2, (split_pure (g := fun e => g e.mirror) (fun s e => hg s _) d' s).2, List.map_append]
    rw [List.filter_map] at hd'
    rw [List.filter_map]
    simp only [Function.comp_def, isPair_mirror] at hd' ⊢
    refine .append_right _ ?_
    refine ((hd'.trans (hd.symm.map mirror)).filter _).trans ?_
    rw [List.filter_map]
    simp only [Function.comp_def, mirror_mirror]
    exact .refl _
  case extendPairs xs =>
    obtain ⟨rfl, rfl⟩ := h; obtain ⟨rfl, rfl⟩ := h'
    refine ⟨rfl, ?_⟩
    rw [← insertAll_mirror, List.map_map, List.map_map]
    exact .refl _
  case extend xs =>
    obtain ⟨rfl, rfl⟩ := h; obtain ⟨rfl, rfl⟩ := h'
    exact ⟨rfl, by rw [insertAll_mirror]⟩
  case clone cl cr =>
    obtain ⟨rfl, rfl⟩ := h; obtain ⟨rfl, rfl⟩ := h'
    refine ⟨rfl, ?_⟩
    rw [List.map_map, List.map_map]
    refine .of_eq (List.map_congr_left fun e _ => ?_)
    cases e <;> rfl
  case getLeft | getRight =>
    obtain ⟨rfl, rfl⟩ := h; obtain ⟨rfl, rfl⟩ := h'
    refine ⟨?_, .refl _⟩
    simp only [findL_mirror, findR_mirror, leftOf_map, rightOf_map]
    rfl
  case containsLeft | containsRight | isLeftPaired | isRightPaired =>
    obtain ⟨rfl, rfl⟩ := h; obtain ⟨rfl, rfl⟩ := h'
    refine ⟨?_, .refl _⟩
    simp only [List.any_map, Function.comp_def, hasL_mirror, hasR_mirror, isPair_mirror]
    rfl
  case arePaired =>
    obtain ⟨rfl, rfl⟩ := h; obtain ⟨rfl, rfl⟩ := h'
    refine ⟨?_, .refl _⟩
    rw [hasPair_mirror]; rfl
  case lenLeft | lenRight =>
    obtain ⟨rfl, rfl⟩ := h; obtain ⟨rfl, rfl⟩ := h'
    refine ⟨?_, .refl _⟩
    rw [filterMap_mirror]
    simp only [leftOf_mirror, rightOf_mirror]
    rfl
  case isEmpty =>
    obtain ⟨rfl, rfl⟩ := h; obtain ⟨rfl, rfl⟩ := h'
    exact ⟨by simp [Out.mirror, SameOut], .refl _⟩
  all_goals
    obtain ⟨rfl, rfl⟩ := h; obtain ⟨rfl, rfl⟩ := h'
    exact ⟨rfl, .refl _⟩

/-- If the mirrored call returns the mirrored result and leaves the mirrored contents, the call is no exception. -/
theorem even_of_step (h1 : OneToOne c) {op : Op L R} (ho : OrderFree op) {o : Out L R} {o' : Out R L}
    {c₁ : List (OptionalPair L R)} {c₂ : List (OptionalPair R L)} (h : Step c op o c₁)
    (h' : Step (c.map mirror) op.mirror o' c₂) (hoo : SameOut o.mirror o') (hcc : c₂.Perm (c₁.map mirror)) : Even c op := by
  have back : ∀ {d : List (OptionalPair L R)} {e : OptionalPair L R}, e.mirror ∈ d.map mirror → e ∈ d := by
    intro d e hm
    obtain ⟨x, hx, hxe⟩ := List.mem_map.1 hm
    have := congrArg mirror hxe
    rw [mirror_mirror, mirror_mirror] at this
    exact this ▸ hx
  cases op <;> try exact trivial
  case insert l r =>
    obtain ⟨rfl, -⟩ := h
    obtain ⟨rfl, -⟩ := h'
    refine Classical.byContradiction fun hn => ?_
    simp only [Even, Bool.not_eq_false] at hn
    have hf := (findL_eq_findR h1 hn).1
    simp only [hasPair, List.any_eq_true, Bool.and_eq_true] at hn
    obtain ⟨p, hp, h2, h3⟩ := hn
    let _ := tidyRaw
    have := tidyRaw_lawful
    have hl := mem_findL h1 hp h2
    rw [hl] at hf
    have hn : hasPair c l r = true := by
      simp only [hasPair, List.any_eq_true, Bool.and_eq_true]
      exact ⟨p, hp, h2, h3⟩
    simp only [insert, hn, hasPair_mirror, findL_mirror, hl, ← hf, Out.mirror, SameOut, if_true, Option.map_some,
      Option.getD_some, Out.twoEntries.injEq, Prod.mk.injEq] at hoo
    cases p <;> simp [mirror, hasL] at hoo h2
  case iter =>
    obtain ⟨d, hd, rfl, -⟩ := h
    obtain ⟨d', hd', rfl, -⟩ := h'
    replace hoo : (d.map mirror).Perm d' := hoo
    intro e hm
    cases e with
    | neither => exact absurd hm h1.2
    | someBoth => rfl
    | someLeft l =>
      have hx : someLeft l ∈ d := hd.mem_iff.2 (List.mem_filter.2 ⟨hm, rfl⟩)
      have := hd'.mem_iff.1 (hoo.mem_iff.1 (List.mem_map_of_mem (f := mirror) hx))
      exact absurd (List.mem_filter.1 this).2 (by simp [mirror, leftOf])
    | someRight r =>
      have hx : (someRight r : OptionalPair L R).mirror ∈ d' :=
        hd'.mem_iff.2 (List.mem_filter.2 ⟨List.mem_map_of_mem (f := mirror) hm, rfl⟩)
      have := hd.mem_iff.1 (back (hoo.mem_iff.2 hx))
      exact absurd (List.mem_filter.1 this).2 (by simp [leftOf])
  case retain σ f s =>
    obtain ⟨g, hg⟩ := ho
    obtain ⟨-, p⟩ := retain_pure hg h
    obtain ⟨-, p'⟩ := retain_pure (g := fun e => g e.mirror) (fun s e => hg s _) h'
    intro e hm hp t
    rw [hg]
    refine Classical.byContradiction fun hn => ?_
    rw [Bool.not_eq_false] at hn
    cases e with
    | neither => exact absurd hm h1.2
    | someBoth => cases hp
    | someLeft l =>
      have hx := p'.mem_iff.2 (List.mem_filter.2 ⟨List.mem_map_of_mem (f := mirror) hm, by simp [leftOf, mirror]⟩)
      have := p.mem_iff.1 (back (hcc.mem_iff.1 hx))
      exact absurd (List.mem_filter.1 this).2 (by simp [leftOf, hn])
    | someRight r =>
      have hx := p.mem_iff.2 (List.mem_filter.2 ⟨hm, by simp [leftOf]⟩)
      have := p'.mem_iff.1 (hcc.mem_iff.2 (List.mem_map_of_mem (f := mirror) hx))
      exact absurd (List.mem_filter.1 this).2 (by simp [leftOf, mirror, hn])

end Verif.PartialSpec
