import Verif.Props.PartialDemo
/-!
Property C145 (`PartialCycleMap`): calls neither see nor touch items they have nothing to do with; see `Props/Frame.lean`.
-/
set_option linter.unusedSectionVars false
set_option linter.unusedSimpArgs false

namespace Verif.PartialMap
open PartialSpec OptionalPair

variable {L R : Type}

/-- the left items given to a call -/
def Op.lefts : Op L R → List L
  | .insert l _ | .insertLeft l | .pair l _ | .pairForced l _ | .pairForcedRemove l _ | .unpair l _ | .remove l _
  | .removeViaLeft l | .removeLeft l | .getRight l | .containsLeft l | .isLeftPaired l | .arePaired l _ => [l]
  | .swapLeft old new | .swapLeftChecked old _ new | .swapLeftOrInsert old new _ => [old, new]
  | .swapRightChecked _ e _ => [e]
  | .swapRightOrInsert _ _ l => [l]
  | .extendPairs xs => xs.map (·.1)
  | .extend xs => xs.filterMap leftOf
  | _ => []

/-- the right items given to a call -/
def Op.rights : Op L R → List R
  | .insert _ r | .insertRight r | .pair _ r | .pairForced _ r | .pairForcedRemove _ r | .unpair _ r | .remove _ r
  | .removeViaRight r | .removeRight r | .getLeft r | .containsRight r | .isRightPaired r | .arePaired _ r => [r]
  | .swapRight old new | .swapRightChecked old _ new | .swapRightOrInsert old new _ => [old, new]
  | .swapLeftChecked _ e _ => [e]
  | .swapLeftOrInsert _ _ r => [r]
  | .extendPairs xs => xs.map (·.2)
  | .extend xs => xs.filterMap rightOf
  | _ => []

/-- the calls that are about single items, and the capacity calls -/
def Op.Local : Op L R → Prop
  | .lenLeft | .lenRight | .isEmpty | .clear | .iter | .iterPaired | .iterUnpaired | .iterLeft | .iterRight | .drain _
  | .drainFilter .. | .retain .. | .retainPaired .. | .retainUnpaired .. | .clone .. => False
  | _ => True

variable [BEq L] [BEq R]

/-- none of the entries `b` has an item that is given to the call -/
def Op.Apart (op : Op L R) (b : List (OptionalPair L R)) : Prop :=
  (∀ x ∈ op.lefts, ∀ e ∈ b, hasL x e = false) ∧ ∀ y ∈ op.rights, ∀ e ∈ b, hasR y e = false

/-- `unpair` compares hashes only (C41): one of the two items given to it has a hash that no other item has -/
def Op.Lucky (hb : BuildHasher L R) : Op L R → Prop
  | .unpair l r => (∀ x, hb.hl l = hb.hl x → (l == x) = true) ∨ ∀ y, hb.hr r = hb.hr y → (r == y) = true
  | _ => True

/-- where `swap_left_or_insert` and `swap_right_or_insert` do not panic (C49) -/
def Fits (c : List (OptionalPair L R)) : Op L R → Prop
  | .swapLeftOrInsert old new _ => (findL c old).isSome = true ∨ findL c new = none
  | .swapRightOrInsert old new l => (findR c old).isSome = true ∨ hasPair c l new = true ∨ findR c new = none
  | _ => True

section Lists
variable {a b : List (OptionalPair L R)}

theorem findL_frame {x : L} (h : ∀ e ∈ b, hasL x e = false) : findL (a ++ b) x = findL a x := by
  have : b.find? (hasL x) = none := List.find?_eq_none.2 fun p hp => by simp [h p hp]
  simp [findL, List.find?_append, this]

theorem findR_frame {y : R} (h : ∀ e ∈ b, hasR y e = false) : findR (a ++ b) y = findR a y := by
  have : b.find? (hasR y) = none := List.find?_eq_none.2 fun p hp => by simp [h p hp]
  simp [findR, List.find?_append, this]

theorem any_frame {P : OptionalPair L R → Bool} (h : ∀ p ∈ b, P p = false) : (a ++ b).any P = a.any P := by
  have : b.any P = false := List.any_eq_false.2 fun p hp => by simp [h p hp]
  rw [List.any_append, this, Bool.or_false]

theorem hasPair_frame {x : L} {y : R} (h : ∀ e ∈ b, hasL x e = false) : hasPair (a ++ b) x y = hasPair a x y :=
  any_frame fun p hp => by simp [h p hp]

theorem filter_frame {P : OptionalPair L R → Bool} (h : ∀ p ∈ b, P p = true) : (a ++ b).filter P = a.filter P ++ b := by
  rw [List.filter_append, List.filter_eq_self.2 h]

theorem eraseL_frame {x : L} (h : ∀ e ∈ b, hasL x e = false) : eraseL (a ++ b) x = eraseL a x ++ b :=
  filter_frame fun p hp => by simp [h p hp]

theorem eraseR_frame {y : R} (h : ∀ e ∈ b, hasR y e = false) : eraseR (a ++ b) y = eraseR a y ++ b :=
  filter_frame fun p hp => by simp [h p hp]

theorem others_frame {x : L} {y : R} (hx : ∀ e ∈ b, hasL x e = false) (hy : ∀ e ∈ b, hasR y e = false) :
    others (a ++ b) x y = others a x y ++ b :=
  filter_frame fun p hp => by simp [hx p hp, hy p hp]

theorem insert_frame {x : L} {y : R} (hx : ∀ e ∈ b, hasL x e = false) (hy : ∀ e ∈ b, hasR y e = false) :
    PartialSpec.insert (a ++ b) x y = ((PartialSpec.insert a x y).1, (PartialSpec.insert a x y).2 ++ b) := by
  simp only [PartialSpec.insert, findL_frame hx, findR_frame hy, hasPair_frame hx, others_frame hx hy, List.cons_append]

theorem insertLeft_frame {x : L} (hx : ∀ e ∈ b, hasL x e = false) :
    PartialSpec.insertLeft (a ++ b) x = ((PartialSpec.insertLeft a x).1, (PartialSpec.insertLeft a x).2 ++ b) := by
  simp only [PartialSpec.insertLeft, findL_frame hx, eraseL_frame hx, List.cons_append]

theorem insertRight_frame {y : R} (hy : ∀ e ∈ b, hasR y e = false) :
    PartialSpec.insertRight (a ++ b) y = ((PartialSpec.insertRight a y).1, (PartialSpec.insertRight a y).2 ++ b) := by
  simp only [PartialSpec.insertRight, findR_frame hy, eraseR_frame hy, List.cons_append]

theorem pair_frame {x : L} {y : R} (hx : ∀ e ∈ b, hasL x e = false) (hy : ∀ e ∈ b, hasR y e = false) :
    PartialSpec.pair (a ++ b) x y = ((PartialSpec.pair a x y).1, (PartialSpec.pair a x y).2 ++ b) := by
  simp only [PartialSpec.pair, findL_frame hx, findR_frame hy, others_frame hx hy]
  split <;> rfl

theorem pairForced_frame {x : L} {y : R} (hx : ∀ e ∈ b, hasL x e = false) (hy : ∀ e ∈ b, hasR y e = false) :
    PartialSpec.pairForced (a ++ b) x y = ((PartialSpec.pairForced a x y).1, (PartialSpec.pairForced a x y).2 ++ b) := by
  simp only [PartialSpec.pairForced, findL_frame hx, findR_frame hy, others_frame hx hy, hasPair_frame hx]
  split
  · split
    · rfl
    · simp only [List.cons_append, List.append_assoc]
  · rfl

theorem pairForcedRemove_frame {x : L} {y : R} (hx : ∀ e ∈ b, hasL x e = false) (hy : ∀ e ∈ b, hasR y e = false) :
    PartialSpec.pairForcedRemove (a ++ b) x y =
      ((PartialSpec.pairForcedRemove a x y).1, (PartialSpec.pairForcedRemove a x y).2 ++ b) := by
  simp only [PartialSpec.pairForcedRemove, findL_frame hx, findR_frame hy, others_frame hx hy, hasPair_frame hx]
  split
  · split <;> rfl
  · rfl

theorem unpair_frame {x : L} {y : R} (hx : ∀ e ∈ b, hasL x e = false) (hy : ∀ e ∈ b, hasR y e = false) :
    PartialSpec.unpair (a ++ b) x y = ((PartialSpec.unpair a x y).1, (PartialSpec.unpair a x y).2 ++ b) := by
  simp only [PartialSpec.unpair, findL_frame hx, findR_frame hy, others_frame hx hy, hasPair_frame hx]
  split
  · simp only [List.append_assoc]
  · rfl

theorem remove_frame {x : L} {y : R} (hx : ∀ e ∈ b, hasL x e = false) :
    PartialSpec.remove (a ++ b) x y = ((PartialSpec.remove a x y).1, (PartialSpec.remove a x y).2 ++ b) := by
  simp only [PartialSpec.remove, findL_frame hx, eraseL_frame hx, hasPair_frame hx]
  split <;> rfl

theorem removeLeft_frame {x : L} (hx : ∀ e ∈ b, hasL x e = false) :
    PartialSpec.removeLeft (a ++ b) x = ((PartialSpec.removeLeft a x).1, (PartialSpec.removeLeft a x).2 ++ b) := by
  simp only [PartialSpec.removeLeft, findL_frame hx, eraseL_frame hx, List.append_assoc]

theorem removeRight_frame {y : R} (hy : ∀ e ∈ b, hasR y e = false) :
    PartialSpec.removeRight (a ++ b) y = ((PartialSpec.removeRight a y).1, (PartialSpec.removeRight a y).2 ++ b) := by
  simp only [PartialSpec.removeRight, findR_frame hy, eraseR_frame hy, List.append_assoc]

theorem swapLeft_frame {old new : L} (ho : ∀ e ∈ b, hasL old e = false) (hn : ∀ e ∈ b, hasL new e = false) :
    PartialSpec.swapLeft (a ++ b) old new = ((PartialSpec.swapLeft a old new).1, (PartialSpec.swapLeft a old new).2 ++ b) := by
  simp only [PartialSpec.swapLeft, findL_frame ho, findL_frame hn, eraseL_frame hn]
  cases findL a old with
  | none => rfl
  | some q => simp only [List.cons_append]; rw [filter_frame fun p hp => by simp [hn p hp, ho p hp]]

theorem swapRight_frame {old new : R} (ho : ∀ e ∈ b, hasR old e = false) (hn : ∀ e ∈ b, hasR new e = false) :
    PartialSpec.swapRight (a ++ b) old new =
      ((PartialSpec.swapRight a old new).1, (PartialSpec.swapRight a old new).2 ++ b) := by
  simp only [PartialSpec.swapRight, findR_frame ho, findR_frame hn, eraseR_frame hn]
  cases findR a old with
  | none => rfl
  | some q => simp only [List.cons_append]; rw [filter_frame fun p hp => by simp [hn p hp, ho p hp]]

theorem insertEntry_frame {e : OptionalPair L R} (hx : ∀ x, leftOf e = some x → ∀ p ∈ b, hasL x p = false)
    (hy : ∀ y, rightOf e = some y → ∀ p ∈ b, hasR y p = false) : insertEntry (a ++ b) e = insertEntry a e ++ b := by
  cases e with
  | neither => rfl
  | someLeft l => simp only [insertEntry]; rw [insertLeft_frame (hx _ rfl)]
  | someRight r => simp only [insertEntry]; rw [insertRight_frame (hy _ rfl)]
  | someBoth l r => simp only [insertEntry]; rw [insert_frame (hx _ rfl) (hy _ rfl)]

theorem insertAll_frame {xs : List (OptionalPair L R)} (hx : ∀ x ∈ xs.filterMap leftOf, ∀ p ∈ b, hasL x p = false)
    (hy : ∀ y ∈ xs.filterMap rightOf, ∀ p ∈ b, hasR y p = false) : insertAll (a ++ b) xs = insertAll a xs ++ b := by
  induction xs generalizing a with
  | nil => rfl
  | cons q xs ih =>
    simp only [insertAll, List.foldl_cons]
    rw [insertEntry_frame (fun x h => hx x (List.mem_filterMap.2 ⟨q, List.mem_cons_self .., h⟩))
      (fun y h => hy y (List.mem_filterMap.2 ⟨q, List.mem_cons_self .., h⟩))]
    refine ih (fun x h => hx x ?_) (fun y h => hy y ?_)
    · obtain ⟨p, hp, e⟩ := List.mem_filterMap.1 h; exact List.mem_filterMap.2 ⟨p, List.mem_cons_of_mem _ hp, e⟩
    · obtain ⟨p, hp, e⟩ := List.mem_filterMap.1 h; exact List.mem_filterMap.2 ⟨p, List.mem_cons_of_mem _ hp, e⟩

theorem filterMap_leftOf_pairs (xs : List (L × R)) :
    (xs.map fun p => (someBoth p.1 p.2 : OptionalPair L R)).filterMap leftOf = xs.map (·.1) := by
  simp [List.filterMap_map, Function.comp_def, leftOf]

theorem filterMap_rightOf_pairs (xs : List (L × R)) :
    (xs.map fun p => (someBoth p.1 p.2 : OptionalPair L R)).filterMap rightOf = xs.map (·.2) := by
  simp [List.filterMap_map, Function.comp_def, rightOf]

theorem fits_frame {op : Op L R} (hl : op.Local) (h : op.Apart b) : Fits (a ++ b) op ↔ Fits a op := by
  obtain ⟨h1, h2⟩ := h
  cases op <;> simp only [Fits, Op.Local] at * <;>
    simp only [Op.lefts, Op.rights, List.mem_cons, List.not_mem_nil, or_false, forall_eq_or_imp, forall_eq] at h1 h2
  case swapLeftOrInsert old new r => rw [findL_frame h1.1, findL_frame h1.2]
  case swapRightOrInsert old new l => rw [findR_frame h2.1, findR_frame h2.2, hasPair_frame h1]

/-- calls that are about single items have one outcome -/
theorem step_det {op : Op L R} {o o₂ : Out L R} {c c' c₂} (hl : op.Local) (h : Step c op o c') (h2 : Step c op o₂ c₂) :
    o₂ = o ∧ c₂ = c' := by
  cases op <;> simp only [Op.Local] at hl <;> simp only [Step] at h h2
  case swapLeftChecked | swapLeftOrInsert | swapRightChecked | swapRightOrInsert =>
    split at h <;> simp_all
  all_goals exact ⟨h2.1.trans h.1.symm, h2.2.trans h.2.symm⟩

/-- with the entries `b` added, a call does the same and leaves `b` -/
theorem step_frame {op : Op L R} {o c'} (hl : op.Local) (h : op.Apart b) (hs : Step a op o c') :
    Step (a ++ b) op o (c' ++ b) := by
  obtain ⟨h1, h2⟩ := h
  cases op <;> simp only [Op.Local] at hl <;> simp only [Step] at hs ⊢ <;>
    simp only [Op.lefts, Op.rights, List.mem_cons, List.not_mem_nil, or_false, forall_eq_or_imp, forall_eq, false_implies,
      implies_true] at h1 h2
  case insert l r => rw [insert_frame h1 h2]; exact ⟨hs.1, by rw [hs.2]⟩
  case insertLeft l => rw [insertLeft_frame h1]; exact ⟨hs.1, by rw [hs.2]⟩
  case insertRight r => rw [insertRight_frame h2]; exact ⟨hs.1, by rw [hs.2]⟩
  case pair l r => rw [pair_frame h1 h2]; exact ⟨hs.1, by rw [hs.2]⟩
  case pairForced l r => rw [pairForced_frame h1 h2]; exact ⟨hs.1, by rw [hs.2]⟩
  case pairForcedRemove l r => rw [pairForcedRemove_frame h1 h2]; exact ⟨hs.1, by rw [hs.2]⟩
  case unpair l r => rw [unpair_frame h1 h2]; exact ⟨hs.1, by rw [hs.2]⟩
  case remove l r => rw [remove_frame h1]; exact ⟨hs.1, by rw [hs.2]⟩
  case removeViaLeft l => rw [findL_frame h1, eraseL_frame h1]; exact ⟨hs.1, by rw [hs.2]⟩
  case removeViaRight r => rw [findR_frame h2, eraseR_frame h2]; exact ⟨hs.1, by rw [hs.2]⟩
  case removeLeft l => rw [removeLeft_frame h1]; exact ⟨hs.1, by rw [hs.2]⟩
  case removeRight r => rw [removeRight_frame h2]; exact ⟨hs.1, by rw [hs.2]⟩
  case swapLeft old new => rw [swapLeft_frame h1.1 h1.2]; exact ⟨hs.1, by rw [hs.2]⟩
  case swapRight old new => rw [swapRight_frame h2.1 h2.2]; exact ⟨hs.1, by rw [hs.2]⟩
  case swapLeftChecked old e new =>
    rw [hasPair_frame h1.1, swapLeft_frame h1.1 h1.2]
    split at hs <;> rename_i hh
    · rw [if_pos hh]; exact ⟨hs.1, by rw [hs.2]⟩
    · rw [if_neg hh]; exact ⟨hs.1, by rw [hs.2]⟩
  case swapRightChecked old e new =>
    rw [hasPair_frame h1, swapRight_frame h2.1 h2.2]
    split at hs <;> rename_i hh
    · rw [if_pos hh]; exact ⟨hs.1, by rw [hs.2]⟩
    · rw [if_neg hh]; exact ⟨hs.1, by rw [hs.2]⟩
  case swapLeftOrInsert old new r =>
    rw [findL_frame h1.1, swapLeft_frame h1.1 h1.2, insert_frame h1.2 h2, findL_frame h1.2, findR_frame h2]
    split at hs <;> rename_i hh
    · rw [if_pos hh]; exact ⟨hs.1, by rw [hs.2]⟩
    · rw [if_neg hh]; exact ⟨hs.1, hs.2.1, by rw [hs.2.2]⟩
  case swapRightOrInsert old new l =>
    rw [findR_frame h2.1, swapRight_frame h2.1 h2.2, insert_frame h1 h2.2, findL_frame h1, findR_frame h2.2, hasPair_frame h1]
    split at hs <;> rename_i hh
    · rw [if_pos hh]; exact ⟨hs.1, by rw [hs.2]⟩
    · rw [if_neg hh]; exact ⟨hs.1, hs.2.1, by rw [hs.2.2]⟩
  case getLeft r => rw [findR_frame h2]; exact ⟨hs.1, by rw [hs.2]⟩
  case getRight l => rw [findL_frame h1]; exact ⟨hs.1, by rw [hs.2]⟩
  case containsLeft l => rw [any_frame h1]; exact ⟨hs.1, by rw [hs.2]⟩
  case containsRight r => rw [any_frame h2]; exact ⟨hs.1, by rw [hs.2]⟩
  case isLeftPaired l => rw [any_frame fun e he => by simp [h1 e he]]; exact ⟨hs.1, by rw [hs.2]⟩
  case isRightPaired r => rw [any_frame fun e he => by simp [h2 e he]]; exact ⟨hs.1, by rw [hs.2]⟩
  case arePaired l r => rw [hasPair_frame h1]; exact ⟨hs.1, by rw [hs.2]⟩
  case extendPairs xs =>
    rw [insertAll_frame (by rw [filterMap_leftOf_pairs]; exact h1) (by rw [filterMap_rightOf_pairs]; exact h2)]
    exact ⟨hs.1, by rw [hs.2]⟩
  case extend xs => rw [insertAll_frame h1 h2]; exact ⟨hs.1, by rw [hs.2]⟩
  all_goals exact ⟨hs.1, by rw [hs.2]⟩

/-- the items of `e` are items of `c`, or among `ls` and `rs` -/
def From (c : List (OptionalPair L R)) (ls : List L) (rs : List R) (e : OptionalPair L R) : Prop :=
  (∀ x, leftOf e = some x → x ∈ c.filterMap leftOf ∨ x ∈ ls) ∧ ∀ y, rightOf e = some y → y ∈ c.filterMap rightOf ∨ y ∈ rs

section From
variable {c : List (OptionalPair L R)} {ls : List L} {rs : List R}

theorem From.old {e} (h : e ∈ c) : From c ls rs e :=
  ⟨fun _ hx => .inl (List.mem_filterMap.2 ⟨e, h, hx⟩), fun _ hy => .inl (List.mem_filterMap.2 ⟨e, h, hy⟩)⟩

theorem From.mk_both {x : L} {y : R} (hx : x ∈ c.filterMap leftOf ∨ x ∈ ls) (hy : y ∈ c.filterMap rightOf ∨ y ∈ rs) :
    From c ls rs (someBoth x y) :=
  ⟨fun _ h => by simp only [leftOf, Option.some.injEq] at h; rw [← h]; exact hx,
   fun _ h => by simp only [rightOf, Option.some.injEq] at h; rw [← h]; exact hy⟩

theorem From.mk_left {x : L} (hx : x ∈ c.filterMap leftOf ∨ x ∈ ls) : From c ls rs (someLeft x : OptionalPair L R) :=
  ⟨fun _ h => by simp only [leftOf, Option.some.injEq] at h; rw [← h]; exact hx, fun _ h => by simp [rightOf] at h⟩

theorem From.mk_right {y : R} (hy : y ∈ c.filterMap rightOf ∨ y ∈ rs) : From c ls rs (someRight y : OptionalPair L R) :=
  ⟨fun _ h => by simp [leftOf] at h, fun _ h => by simp only [rightOf, Option.some.injEq] at h; rw [← h]; exact hy⟩

theorem From.foundL {f : OptionalPair L R → Bool} {x : L} (h : (c.find? f).bind leftOf = some x) :
    x ∈ c.filterMap leftOf := by
  obtain ⟨e, he, hx⟩ := Option.bind_eq_some_iff.1 h
  exact List.mem_filterMap.2 ⟨e, List.mem_of_find?_eq_some he, hx⟩

theorem From.foundR {f : OptionalPair L R → Bool} {y : R} (h : (c.find? f).bind rightOf = some y) :
    y ∈ c.filterMap rightOf := by
  obtain ⟨e, he, hx⟩ := Option.bind_eq_some_iff.1 h
  exact List.mem_filterMap.2 ⟨e, List.mem_of_find?_eq_some he, hx⟩

theorem From.lones {p : Option L} {q : Option R} (hp : ∀ x, p = some x → x ∈ c.filterMap leftOf)
    (hq : ∀ y, q = some y → y ∈ c.filterMap rightOf) {e} (he : e ∈ lones p q) : From c ls rs e := by
  simp only [PartialSpec.lones, List.mem_append, Option.mem_toList, Option.map_eq_some_iff] at he
  rcases he with ⟨x, hx, rfl⟩ | ⟨y, hy, rfl⟩
  · exact .mk_left (.inl (hp x hx))
  · exact .mk_right (.inl (hq y hy))

theorem From.insert {l : L} {r : R} (hl : l ∈ ls) (hr : r ∈ rs) {e} (he : e ∈ (PartialSpec.insert c l r).2) :
    From c ls rs e := by
  simp only [PartialSpec.insert, others, List.mem_cons, List.mem_filter] at he
  rcases he with rfl | he
  · exact .mk_both (.inr hl) (.inr hr)
  · exact .old he.1

theorem From.insertLeft {l : L} (hl : l ∈ ls) {e} (he : e ∈ (PartialSpec.insertLeft c l).2) : From c ls rs e := by
  simp only [PartialSpec.insertLeft, eraseL, List.mem_cons, List.mem_filter] at he
  rcases he with rfl | he
  · exact .mk_left (.inr hl)
  · exact .old he.1

theorem From.insertRight {r : R} (hr : r ∈ rs) {e} (he : e ∈ (PartialSpec.insertRight c r).2) : From c ls rs e := by
  simp only [PartialSpec.insertRight, eraseR, List.mem_cons, List.mem_filter] at he
  rcases he with rfl | he
  · exact .mk_right (.inr hr)
  · exact .old he.1

theorem From.trans {d e} (h : ∀ p ∈ d, From c ls rs p) (he : From d ls rs e) : From c ls rs e := by
  refine ⟨fun x hx => ?_, fun y hy => ?_⟩
  · rcases he.1 x hx with h' | h'
    · obtain ⟨p, hp, e⟩ := List.mem_filterMap.1 h'; exact (h p hp).1 x e
    · exact .inr h'
  · rcases he.2 y hy with h' | h'
    · obtain ⟨p, hp, e⟩ := List.mem_filterMap.1 h'; exact (h p hp).2 y e
    · exact .inr h'

theorem From.insertAll {xs : List (OptionalPair L R)} (hl : ∀ x ∈ xs.filterMap leftOf, x ∈ ls)
    (hr : ∀ y ∈ xs.filterMap rightOf, y ∈ rs) {e} (he : e ∈ PartialSpec.insertAll c xs) : From c ls rs e := by
  induction xs generalizing c with
  | nil => exact .old he
  | cons q xs ih =>
    refine From.trans (d := insertEntry c q) ?_
      (ih (fun x h => hl x ?_) (fun y h => hr y ?_) he)
    · intro p hp
      have h1 : ∀ x, leftOf q = some x → x ∈ ls := fun x h => hl x (List.mem_filterMap.2 ⟨q, List.mem_cons_self .., h⟩)
      have h2 : ∀ y, rightOf q = some y → y ∈ rs := fun y h => hr y (List.mem_filterMap.2 ⟨q, List.mem_cons_self .., h⟩)
      cases q with
      | neither => exact .old hp
      | someLeft l => exact .insertLeft (h1 _ rfl) hp
      | someRight r => exact .insertRight (h2 _ rfl) hp
      | someBoth l r => exact .insert (h1 _ rfl) (h2 _ rfl) hp
    · obtain ⟨p, hp, e⟩ := List.mem_filterMap.1 h; exact List.mem_filterMap.2 ⟨p, List.mem_cons_of_mem _ hp, e⟩
    · obtain ⟨p, hp, e⟩ := List.mem_filterMap.1 h; exact List.mem_filterMap.2 ⟨p, List.mem_cons_of_mem _ hp, e⟩

theorem From.swapLeft {x y : L} (hy : y ∈ ls) {e} (he : e ∈ (PartialSpec.swapLeft c x y).2) : From c ls rs e := by
  simp only [PartialSpec.swapLeft] at he
  split at he
  · rename_i q hf
    have hq := List.mem_of_find?_eq_some hf
    simp only [List.mem_cons, List.mem_filter] at he
    rcases he with rfl | he
    · cases q with
      | neither => exact .old hq
      | someLeft l => exact .mk_left (.inr hy)
      | someRight r => exact .old hq
      | someBoth l r => exact .mk_both (.inr hy) (.inl (List.mem_filterMap.2 ⟨_, hq, rfl⟩))
    · exact .old he.1
  · exact .old (List.mem_filter.1 he).1

theorem From.swapRight {x y : R} (hy : y ∈ rs) {e} (he : e ∈ (PartialSpec.swapRight c x y).2) : From c ls rs e := by
  simp only [PartialSpec.swapRight] at he
  split at he
  · rename_i q hf
    have hq := List.mem_of_find?_eq_some hf
    simp only [List.mem_cons, List.mem_filter] at he
    rcases he with rfl | he
    · cases q with
      | neither => exact .old hq
      | someLeft l => exact .old hq
      | someRight r => exact .mk_right (.inr hy)
      | someBoth l r => exact .mk_both (.inl (List.mem_filterMap.2 ⟨_, hq, rfl⟩)) (.inr hy)
    · exact .old he.1
  · exact .old (List.mem_filter.1 he).1

end From

/-- every item of the entries a call leaves was there before or is given to the call -/
theorem step_items {op : Op L R} {o c c'} (hl : op.Local) (hs : Step c op o c') {e} (he : e ∈ c') :
    From c op.lefts op.rights e := by
  cases op <;> simp only [Op.Local] at hl <;> simp only [Step] at hs <;> simp only [Op.lefts, Op.rights]
  case insert l r => rw [hs.2] at he; exact .insert (by simp) (by simp) he
  case insertLeft l => rw [hs.2] at he; exact .insertLeft (by simp) he
  case insertRight r => rw [hs.2] at he; exact .insertRight (by simp) he
  case pair l r =>
    rw [hs.2] at he
    simp only [PartialSpec.pair] at he
    split at he
    · rename_i x y hx hy
      simp only [List.mem_cons, others, List.mem_filter] at he
      rcases he with rfl | he
      · exact .mk_both (.inl (List.mem_filterMap.2 ⟨_, List.mem_of_find?_eq_some hx, rfl⟩))
          (.inl (List.mem_filterMap.2 ⟨_, List.mem_of_find?_eq_some hy, rfl⟩))
      · exact .old he.1
    · exact .old he
  case pairForced l r =>
    rw [hs.2] at he
    simp only [PartialSpec.pairForced] at he
    split at he
    · rename_i x y hx hy
      split at he
      · exact .old he
      · simp only [List.mem_cons, List.mem_append, others, List.mem_filter] at he
        rcases he with rfl | he | he
        · exact .mk_both (.inl (From.foundL hx)) (.inl (From.foundR hy))
        · exact From.lones (fun _ h => From.foundL h) (fun _ h => From.foundR h) he
        · exact .old he.1
    · exact .old he
  case pairForcedRemove l r =>
    rw [hs.2] at he
    simp only [PartialSpec.pairForcedRemove] at he
    split at he
    · rename_i x y hx hy
      split at he
      · exact .old he
      · simp only [List.mem_cons, others, List.mem_filter] at he
        rcases he with rfl | he
        · exact .mk_both (.inl (From.foundL hx)) (.inl (From.foundR hy))
        · exact .old he.1
    · exact .old he
  case unpair l r =>
    rw [hs.2] at he
    simp only [PartialSpec.unpair] at he
    split at he
    · simp only [List.mem_append, others, List.mem_filter] at he
      rcases he with he | he
      · exact From.lones (fun _ h => From.foundL h) (fun _ h => From.foundR h) he
      · exact .old he.1
    · exact .old he
  case remove l r =>
    rw [hs.2] at he
    simp only [PartialSpec.remove] at he
    split at he
    · exact .old (List.mem_filter.1 he).1
    · exact .old he
  case removeViaLeft l => rw [hs.2] at he; exact .old (List.mem_filter.1 he).1
  case removeViaRight l => rw [hs.2] at he; exact .old (List.mem_filter.1 he).1
  case removeLeft l =>
    rw [hs.2] at he
    simp only [PartialSpec.removeLeft, List.mem_append] at he
    rcases he with he | he
    · exact From.lones (by simp) (fun _ h => From.foundR h) he
    · exact .old (List.mem_filter.1 he).1
  case removeRight r =>
    rw [hs.2] at he
    simp only [PartialSpec.removeRight, List.mem_append] at he
    rcases he with he | he
    · exact From.lones (fun _ h => From.foundL h) (by simp) he
    · exact .old (List.mem_filter.1 he).1
  case swapLeft x y => rw [hs.2] at he; exact .swapLeft (by simp) he
  case swapRight x y => rw [hs.2] at he; exact .swapRight (by simp) he
  case swapLeftChecked x e y =>
    split at hs <;> rw [hs.2] at he
    · exact .swapLeft (by simp) he
    · exact .old he
  case swapRightChecked x e y =>
    split at hs <;> rw [hs.2] at he
    · exact .swapRight (by simp) he
    · exact .old he
  case swapLeftOrInsert x y r =>
    split at hs
    · rw [hs.2] at he; exact .swapLeft (by simp) he
    · rw [hs.2.2] at he; exact .insert (by simp) (by simp) he
  case swapRightOrInsert x y l =>
    split at hs
    · rw [hs.2] at he; exact .swapRight (by simp) he
    · rw [hs.2.2] at he; exact .insert (by simp) (by simp) he
  case extendPairs xs =>
    rw [hs.2] at he
    exact .insertAll (by rw [filterMap_leftOf_pairs]; simp) (by rw [filterMap_rightOf_pairs]; simp) he
  case extend xs => rw [hs.2] at he; exact .insertAll (fun _ h => h) (fun _ h => h) he
  all_goals exact .old (by rw [← hs.2]; exact he)

theorem fits_of_step {op : Op L R} {o c c'} (hl : op.Local) (h : Step c op o c') : Fits c op := by
  cases op <;> simp only [Op.Local] at hl <;> simp only [Fits]
  case swapLeftOrInsert | swapRightOrInsert =>
    simp only [Step] at h
    split at h
    · rename_i hh; exact .inl hh
    · exact .inr h.1

theorem step_of_fits {op : Op L R} {c} (hl : op.Local) (h : Fits c op) : ∃ o c', Step c op o c' := by
  cases op <;> simp only [Op.Local] at hl <;> simp only [Fits] at h <;> simp only [Step]
  case swapLeftChecked | swapRightChecked => split <;> exact ⟨_, _, rfl, rfl⟩
  case swapLeftOrInsert | swapRightOrInsert =>
    split
    · exact ⟨_, _, rfl, rfl⟩
    · rename_i hh; exact ⟨_, _, h.resolve_left hh, rfl, rfl⟩
  all_goals exact ⟨_, _, rfl, rfl⟩

theorem step_unframe {op : Op L R} {o d} (hl : op.Local) (h : op.Apart b) (hs : Step (a ++ b) op o d) :
    ∃ c', Step a op o c' ∧ d = c' ++ b := by
  obtain ⟨o', c', hs'⟩ := step_of_fits hl ((fits_frame hl h).1 (fits_of_step hl hs))
  obtain ⟨rfl, rfl⟩ := step_det hl hs (step_frame hl h hs')
  exact ⟨c', hs', rfl⟩

theorem steps_frame {ops : List (Op L R)} {os c'} (hl : ∀ op ∈ ops, op.Local) (h : ∀ op ∈ ops, op.Apart b)
    (hs : Steps a ops os c') : Steps (a ++ b) ops os (c' ++ b) := by
  induction ops generalizing a os with
  | nil => exact ⟨hs.1, by rw [hs.2]⟩
  | cons op ops ih =>
    obtain ⟨o, os', c1, e, s1, s2⟩ := hs
    rw [List.forall_mem_cons] at hl h
    exact ⟨o, os', c1 ++ b, e, step_frame hl.1 h.1 s1, ih hl.2 h.2 s2⟩

theorem steps_unframe {ops : List (Op L R)} {os d} (hl : ∀ op ∈ ops, op.Local) (h : ∀ op ∈ ops, op.Apart b)
    (hs : Steps (a ++ b) ops os d) : ∃ c', Steps a ops os c' ∧ d = c' ++ b := by
  induction ops generalizing a os with
  | nil => exact ⟨a, ⟨hs.1, rfl⟩, hs.2⟩
  | cons op ops ih =>
    obtain ⟨o, os', c1, e, s1, s2⟩ := hs
    rw [List.forall_mem_cons] at hl h
    obtain ⟨a1, s1', rfl⟩ := step_unframe hl.1 h.1 s1
    obtain ⟨a2, s2', rfl⟩ := ih hl.2 h.2 s2
    exact ⟨a2, ⟨o, os', a1, e, s1', s2'⟩, rfl⟩

theorem steps_det {ops : List (Op L R)} {os os₂ c c' c₂} (hl : ∀ op ∈ ops, op.Local) (h : Steps c ops os c')
    (h2 : Steps c ops os₂ c₂) : os₂ = os ∧ c₂ = c' := by
  induction ops generalizing c os os₂ with
  | nil => exact ⟨h2.1.trans h.1.symm, h2.2.trans h.2.symm⟩
  | cons op ops ih =>
    obtain ⟨o, os', c1, rfl, s1, s2⟩ := h
    obtain ⟨o', os'', c1', rfl, s1', s2'⟩ := h2
    rw [List.forall_mem_cons] at hl
    obtain ⟨rfl, rfl⟩ := step_det hl.1 s1 s1'
    obtain ⟨rfl, rfl⟩ := ih hl.2 s2 s2'
    exact ⟨rfl, rfl⟩

end Lists

section Maps
variable [RawImpl] [LawfulRaw] [EquivBEq L] [EquivBEq R] {m n : PartialMap L R} {a b c : List (OptionalPair L R)}

theorem hasPair_of_mem {e : OptionalPair L R} (he : e ∈ c) {l : L} {r : R} (hl : hasL l e = true) (hr : hasR r e = true) :
    hasPair c l r = true := List.any_eq_true.2 ⟨e, he, by simp [hl, hr]⟩

/-- what is needed so that a call does what the lists say -/
theorem safe_of_fits (h : OneToOne c) {hb : BuildHasher L R} {op : Op L R} (hl : op.Local) (hu : op.Lucky hb) (hf : Fits c op) :
    Safe hb c op := by
  cases op <;> simp only [Op.Local] at hl <;> simp only [Safe] <;> simp only [Fits] at hf
  case swapLeftOrInsert => exact hf
  case swapRightOrInsert => exact hf
  case unpair l r =>
    intro x y x' y' hm hm' hx hy' er el
    rcases hu with hu | hu
    · have := hu _ el
      have e := (mem_findL h hm (l := l) hx).symm.trans (mem_findL h hm' (l := l) this)
      cases e
      exact hasPair_of_mem hm (l := l) (r := r) hx hy'
    · have := hu _ er
      exact hasPair_of_mem hm (l := l) (r := r) hx this

/-- a history of calls about single items is done to the end, or it ends with the panic of `swap_left_or_insert` or
`swap_right_or_insert` -/
theorem local_run (h : Repr m c) {ops : List (Op L R)} (hl : ∀ op ∈ ops, op.Local) (hu : ∀ op ∈ ops, op.Lucky m.hb) :
    (∃ os m' c', m.run ops = .ok (os, m') ∧ Steps c ops os c' ∧ Repr m' c' ∧ m'.hb = m.hb) ∨
    (m.run ops = .error .unreachable ∧ ∀ os c', ¬ Steps c ops os c') := by
  induction ops generalizing m c with
  | nil => exact .inl ⟨[], m, c, rfl, ⟨rfl, rfl⟩, h, rfl⟩
  | cons op ops ih =>
    rw [List.forall_mem_cons] at hl hu
    by_cases hs : Fits c op
    · obtain ⟨o, m1, c1, e1, s1, h1, hb⟩ := exec_simulates h (safe_of_fits h.oneToOne hl.1 hu.1 hs)
      rcases ih h1 hl.2 (by rw [hb]; exact hu.2) with ⟨os, m2, c2, e2, s2, h2, hb2⟩ | ⟨e2, no⟩
      · exact .inl ⟨o :: os, m2, c2, by simp only [run, e1, e2, bind, Except.bind, pure, Except.pure],
          ⟨o, os, c1, rfl, s1, s2⟩, h2, hb2.trans hb⟩
      · refine .inr ⟨by simp only [run, e1, e2, bind, Except.bind], ?_⟩
        rintro os c' ⟨o', os', c1', rfl, s1', s2'⟩
        obtain ⟨rfl, rfl⟩ := step_det hl.1 s1 s1'
        exact no _ _ s2'
    · refine .inr ⟨?_, ?_⟩
      · obtain ⟨hl, -⟩ := hl
        cases op <;> simp only [Op.Local] at hl <;> simp only [Fits, not_true_eq_false, not_false_eq_true] at hs
        · rw [run, exec, swapLeftOrInsert_panics h _ _ _ hs]; rfl
        · rw [run, exec, swapRightOrInsert_panics h _ _ _ hs]; rfl
      · rintro os c' ⟨o', os', c1', rfl, s1', s2'⟩
        exact hs (fits_of_step hl.1 s1')

theorem run_then {ops ops₂ : List (Op L R)} {os os₂ : List (Out L R)} {m₁ m₂ : PartialMap L R} (e : m.run ops = .ok (os, m₁))
    (e₂ : m₁.run ops₂ = .ok (os₂, m₂)) : m.run (ops ++ ops₂) = .ok (os ++ os₂, m₂) := by
  induction ops generalizing m os with
  | nil => simp only [run] at e; cases e; exact e₂
  | cons op ops ih =>
    cases e1 : m.exec op with
    | error x => simp [run, e1, bind, Except.bind] at e
    | ok x =>
      cases e2 : x.2.run ops with
      | error y => simp [run, e1, e2, bind, Except.bind] at e
      | ok y =>
        simp [run, e1, e2, bind, Except.bind, pure, Except.pure] at e
        obtain ⟨rfl, rfl⟩ := e
        simp [run, e1, ih e2, bind, Except.bind, pure, Except.pure]

/-- what is done to `a` is done to `a ++ b` -/
theorem run_of_steps (h : Repr m (a ++ b)) {ops : List (Op L R)} {os a'} (hl : ∀ op ∈ ops, op.Local)
    (hu : ∀ op ∈ ops, op.Lucky m.hb) (hb : ∀ op ∈ ops, op.Apart b) (s : Steps a ops os a') :
    ∃ m', m.run ops = .ok (os, m') ∧ Repr m' (a' ++ b) ∧ m'.hb = m.hb := by
  rcases local_run h hl hu with ⟨os', m', c', e', s', r, hb'⟩ | ⟨-, no⟩
  · obtain ⟨rfl, rfl⟩ := steps_det hl (steps_frame hl hb s) s'
    exact ⟨m', e', r, hb'⟩
  · exact absurd (steps_frame hl hb s) (no _ _)

theorem steps_apart {ops : List (Op L R)} {os c c'} (hl : ∀ op ∈ ops, op.Local) (h : Steps c ops os c') {op₂ : Op L R}
    (h₂ : op₂.Apart c)
    (hx : ∀ op ∈ ops, (∀ x ∈ op.lefts, ∀ y ∈ op₂.lefts, (x == y) = false) ∧ ∀ x ∈ op.rights, ∀ y ∈ op₂.rights, (x == y) = false) :
    op₂.Apart c' := by
  induction ops generalizing c os with
  | nil => rw [h.2]; exact h₂
  | cons op ops ih =>
    obtain ⟨o, os', c1, rfl, s1, s2⟩ := h
    rw [List.forall_mem_cons] at hl hx
    refine ih hl.2 s2 ⟨fun x hx' e he => ?_, fun y hy' e he => ?_⟩ hx.2
    · have := (step_items hl.1 s1 he).1
      cases hq : leftOf e with
      | none => cases e <;> simp_all [leftOf, hasL]
      | some z =>
        have hz : hasL x e = (x == z) := by cases e <;> simp_all [leftOf, hasL]
        rw [hz]
        rcases this z hq with hi | hi
        · obtain ⟨q, hq', e'⟩ := List.mem_filterMap.1 hi
          have hz' : hasL x q = (x == z) := by cases q <;> simp_all [leftOf, hasL]
          rw [← hz']; exact h₂.1 x hx' q hq'
        · rw [BEq.comm]; exact hx.1.1 z hi x hx'
    · have := (step_items hl.1 s1 he).2
      cases hq : rightOf e with
      | none => cases e <;> simp_all [rightOf, hasR]
      | some z =>
        have hz : hasR y e = (y == z) := by cases e <;> simp_all [rightOf, hasR]
        rw [hz]
        rcases this z hq with hi | hi
        · obtain ⟨q, hq', e'⟩ := List.mem_filterMap.1 hi
          have hz' : hasR y q = (y == z) := by cases q <;> simp_all [rightOf, hasR]
          rw [← hz']; exact h₂.2 y hy' q hq'
        · rw [BEq.comm]; exact hx.1.2 z hi y hy'

/-- C145: `m` holds the entries of `n` and further entries, with none of whose items the calls are given.  Then the calls
return the same for both maps, one by one, or panic for both maps in the same way; what is left of `m` is what is left of `n` and the
further entries.  The hash functions of the two maps may be different.  (`Lucky`: `unpair` must not meet a collision, C41.) -/
theorem C145_partial_frame (hm : Reachable m) (hab : Shows m (a ++ b)) (hn : Reachable n) (ha : Shows n a)
    {ops : List (Op L R)} (hl : ∀ op ∈ ops, op.Local) (h : ∀ op ∈ ops, op.Apart b)
    (hu : ∀ op ∈ ops, op.Lucky m.hb) (hu' : ∀ op ∈ ops, op.Lucky n.hb) :
    (∃ os m' n' a', m.run ops = .ok (os, m') ∧ n.run ops = .ok (os, n') ∧ Shows m' (a' ++ b) ∧ Shows n' a') ∨
    (∃ e, m.run ops = .error e ∧ n.run ops = .error e) := by
  have rm := hm.repr_of_shows hab
  have rn := hn.repr_of_shows ha
  rcases local_run rn hl hu' with ⟨os, n', a', e, s, r, -⟩ | ⟨e, no⟩
  · obtain ⟨m', e', r', -⟩ := run_of_steps rm hl hu h s
    exact .inl ⟨os, m', n', a', e', e, r'.shows, r.shows⟩
  · rcases local_run rm hl hu with ⟨os2, m', c', e2, s2, r2, -⟩ | ⟨e2, no2⟩
    · obtain ⟨a', s', -⟩ := steps_unframe hl h s2
      exact absurd s' (no _ _)
    · exact .inr ⟨_, e2, e⟩

/-- C145: two histories of which each is given no item of the other one and no item of the entries the other one is about return
the same, call by call, whichever comes first, and leave the same entries.  It is enough to know that each of them alone runs
without a panic. -/
theorem C145_partial_commute (hm : Reachable m) (hab : Shows m (a ++ b)) {ops ops₂ : List (Op L R)}
    (hl : ∀ op ∈ ops, op.Local) (hl₂ : ∀ op ∈ ops₂, op.Local)
    (hu : ∀ op ∈ ops, op.Lucky m.hb) (hu₂ : ∀ op ∈ ops₂, op.Lucky m.hb)
    (h : ∀ op ∈ ops, op.Apart b) (h₂ : ∀ op ∈ ops₂, op.Apart a)
    (hx : ∀ op ∈ ops, ∀ op₂ ∈ ops₂, (∀ x ∈ op.lefts, ∀ y ∈ op₂.lefts, (x == y) = false) ∧
      ∀ x ∈ op.rights, ∀ y ∈ op₂.rights, (x == y) = false)
    {os os₂ : List (Out L R)} {m₁ m₂ : PartialMap L R} (e : m.run ops = .ok (os, m₁)) (e₂ : m.run ops₂ = .ok (os₂, m₂)) :
    ∃ m₁₂ m₂₁ c, m.run (ops ++ ops₂) = .ok (os ++ os₂, m₁₂) ∧ m.run (ops₂ ++ ops) = .ok (os₂ ++ os, m₂₁) ∧
      Shows m₁₂ c ∧ Shows m₂₁ c := by
  have rm := hm.repr_of_shows hab
  have rm' : Repr m (b ++ a) := rm.perm List.perm_append_comm
  have s : ∃ a', Steps a ops os a' := by
    rcases local_run rm hl hu with ⟨os', m', c', e', s, r, -⟩ | ⟨e', -⟩
    · rw [e] at e'; cases e'
      obtain ⟨a', s, -⟩ := steps_unframe hl h s
      exact ⟨a', s⟩
    · rw [e] at e'; cases e'
  have s₂ : ∃ b', Steps b ops₂ os₂ b' := by
    rcases local_run rm' hl₂ hu₂ with ⟨os', m', c', e', s, r, -⟩ | ⟨e', -⟩
    · rw [e₂] at e'; cases e'
      obtain ⟨b', s, -⟩ := steps_unframe hl₂ h₂ s
      exact ⟨b', s⟩
    · rw [e₂] at e'; cases e'
  obtain ⟨a', s⟩ := s
  obtain ⟨b', s₂⟩ := s₂
  have h₂' : ∀ op ∈ ops₂, op.Apart a' := fun op ho => steps_apart hl s (h₂ op ho) fun op' ho' => hx op' ho' op ho
  have h' : ∀ op ∈ ops, op.Apart b' := fun op ho => steps_apart hl₂ s₂ (h op ho) fun op' ho' =>
    ⟨fun x hx' y hy' => by rw [BEq.comm]; exact (hx op ho op' ho').1 y hy' x hx',
     fun x hx' y hy' => by rw [BEq.comm]; exact (hx op ho op' ho').2 y hy' x hx'⟩
  obtain ⟨m₁', e1, r1, b1⟩ := run_of_steps rm hl hu h s
  obtain ⟨m₁₂, e12, r12, -⟩ := run_of_steps (r1.perm List.perm_append_comm) hl₂ (by rw [b1]; exact hu₂) h₂' s₂
  obtain ⟨m₂', e2, r2, b2⟩ := run_of_steps rm' hl₂ hu₂ h₂ s₂
  obtain ⟨m₂₁, e21, r21, -⟩ := run_of_steps (r2.perm List.perm_append_comm) hl (by rw [b2]; exact hu) h' s
  exact ⟨m₁₂, m₂₁, a' ++ b', run_then e1 e12, run_then e2 e21, (r12.perm List.perm_append_comm).shows, r21.shows⟩

end Maps

section Examples
open Demo
variable [RawImpl] [LawfulRaw]

/-- calls about 3, 7 and 30 do the same in a map that holds these two lone items only, with another hash function -/
example : ∃ n : PartialMap Nat Nat, n.hb = spreadHash ∧
    ((∃ os m' n' a', demo.run [.pair 3 30, .insertLeft 7, .pairForced 7 30, .getRight 7] = .ok (os, m') ∧
      n.run [.pair 3 30, .insertLeft 7, .pairForced 7 30, .getRight 7] = .ok (os, n') ∧
      Shows m' (a' ++ [someBoth 2 20, someBoth 1 10]) ∧ Shows n' a') ∨
    ∃ e, demo.run [.pair 3 30, .insertLeft 7, .pairForced 7 30, .getRight 7] = .error e ∧
      n.run [.pair 3 30, .insertLeft 7, .pairForced 7 30, .getRight 7] = .error e) := by
  obtain ⟨n, e, h, hb, -⟩ := extend_refines (withHasher_repr (L := Nat) (R := Nat) spreadHash) [someLeft 3, someRight 30]
  have hn : Reachable n := .step (op := .extend [someLeft 3, someRight 30]) (.new spreadHash) (by simp) (by simp) (by simp)
    (by simp only [exec, e, bind, Except.bind, pure, Except.pure]; rfl)
  refine ⟨n, hb, C145_partial_frame demo_reachable (a := [someRight 30, someLeft 3]) demo_shows hn h.shows (by simp [Op.Local]) ?_
    (by simp [Op.Lucky]) (by simp [Op.Lucky])⟩
  simp [Op.Apart, Op.lefts, Op.rights, hasL, hasR]

/-- `unpair` of items whose hashes are their own -/
example : (Op.unpair 1 10 : Op (Fin 100) (Fin 100)).Lucky
    { hl := fun x => x.val.toUInt64, hr := fun x => x.val.toUInt64, hl_congr := by simp_all, hr_congr := by simp_all } := by
  simp only [Op.Lucky]; left; decide

/-- removing 1 (but not its partner) and renaming 20 to 50 can be done in either order -/
example : ∃ os os₂ m₁₂ m₂₁ c, demo.run ([.removeLeft 1] ++ [.swapRight 20 50]) = .ok (os ++ os₂, m₁₂) ∧
    demo.run ([.swapRight 20 50] ++ [.removeLeft 1]) = .ok (os₂ ++ os, m₂₁) ∧ Shows m₁₂ c ∧ Shows m₂₁ c := by
  have r := demo_reachable.repr_of_shows demo_shows
  obtain ⟨os, m₁, -, e, -⟩ := run_simulates rfl r (ops := [.removeLeft 1]) (by simp [SafeRun, Safe])
  obtain ⟨os₂, m₂, -, e₂, -⟩ := run_simulates rfl r (ops := [.swapRight 20 50]) (by simp [SafeRun, Safe])
  obtain ⟨m₁₂, m₂₁, c, h⟩ := C145_partial_commute demo_reachable (a := [someBoth 1 10])
    (b := [someRight 30, someLeft 3, someBoth 2 20])
    (r.perm (List.perm_append_comm (l₁ := [someRight 30, someLeft 3, someBoth 2 20]))).shows (by simp [Op.Local]) (by simp [Op.Local])
    (by simp [Op.Lucky]) (by simp [Op.Lucky])
    (by simp [Op.Apart, Op.lefts, Op.rights, hasL, hasR]) (by simp [Op.Apart, Op.lefts, Op.rights, hasL, hasR])
    (by simp [Op.lefts, Op.rights]) e e₂
  exact ⟨os, os₂, m₁₂, m₂₁, c, h⟩

end Examples
end Verif.PartialMap
