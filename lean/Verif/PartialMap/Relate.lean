import Verif.CycleMap.Relate
import Verif.PartialMap.SpecLemmas
/-!
The list machine of `PartialCycleMap` on related contents: related calls give related results and leave related
contents.
-/
set_option linter.unusedSectionVars false
namespace Verif.PartialMap
open PartialSpec OptionalPair
variable {L R L' R' : Type}

/-- The same call on related items.  Closures answer alike on related items, whatever their states (so their
answers do not depend on the order of visits); the clone functions take related items to related items.  `drain` and
`drain_filter` are dropped at once, since what `next` yields depends on the order of visits (C53, C54). -/
inductive RelOp [BEq L'] [BEq R'] (ρ : L → L' → Prop) (σ : R → R' → Prop) : Op L R → Op L' R' → Prop
  | insert {l r l' r'} : ρ l l' → σ r r' → RelOp ρ σ (.insert l r) (.insert l' r')
  | pair {l r l' r'} : ρ l l' → σ r r' → RelOp ρ σ (.pair l r) (.pair l' r')
  | pairForced {l r l' r'} : ρ l l' → σ r r' → RelOp ρ σ (.pairForced l r) (.pairForced l' r')
  | pairForcedRemove {l r l' r'} : ρ l l' → σ r r' → RelOp ρ σ (.pairForcedRemove l r) (.pairForcedRemove l' r')
  | unpair {l r l' r'} : ρ l l' → σ r r' → RelOp ρ σ (.unpair l r) (.unpair l' r')
  | remove {l r l' r'} : ρ l l' → σ r r' → RelOp ρ σ (.remove l r) (.remove l' r')
  | arePaired {l r l' r'} : ρ l l' → σ r r' → RelOp ρ σ (.arePaired l r) (.arePaired l' r')
  | insertLeft {l l'} : ρ l l' → RelOp ρ σ (.insertLeft l) (.insertLeft l')
  | removeViaLeft {l l'} : ρ l l' → RelOp ρ σ (.removeViaLeft l) (.removeViaLeft l')
  | removeLeft {l l'} : ρ l l' → RelOp ρ σ (.removeLeft l) (.removeLeft l')
  | getRight {l l'} : ρ l l' → RelOp ρ σ (.getRight l) (.getRight l')
  | containsLeft {l l'} : ρ l l' → RelOp ρ σ (.containsLeft l) (.containsLeft l')
  | isLeftPaired {l l'} : ρ l l' → RelOp ρ σ (.isLeftPaired l) (.isLeftPaired l')
  | insertRight {r r'} : σ r r' → RelOp ρ σ (.insertRight r) (.insertRight r')
  | removeViaRight {r r'} : σ r r' → RelOp ρ σ (.removeViaRight r) (.removeViaRight r')
  | removeRight {r r'} : σ r r' → RelOp ρ σ (.removeRight r) (.removeRight r')
  | getLeft {r r'} : σ r r' → RelOp ρ σ (.getLeft r) (.getLeft r')
  | containsRight {r r'} : σ r r' → RelOp ρ σ (.containsRight r) (.containsRight r')
  | isRightPaired {r r'} : σ r r' → RelOp ρ σ (.isRightPaired r) (.isRightPaired r')
  | swapLeft {a b a' b'} : ρ a a' → ρ b b' → RelOp ρ σ (.swapLeft a b) (.swapLeft a' b')
  | swapLeftChecked {a e b a' e' b'} : ρ a a' → σ e e' → ρ b b' →
      RelOp ρ σ (.swapLeftChecked a e b) (.swapLeftChecked a' e' b')
  | swapLeftOrInsert {a b r a' b' r'} : ρ a a' → ρ b b' → σ r r' →
      RelOp ρ σ (.swapLeftOrInsert a b r) (.swapLeftOrInsert a' b' r')
  | swapRight {a b a' b'} : σ a a' → σ b b' → RelOp ρ σ (.swapRight a b) (.swapRight a' b')
  | swapRightChecked {a e b a' e' b'} : σ a a' → ρ e e' → σ b b' →
      RelOp ρ σ (.swapRightChecked a e b) (.swapRightChecked a' e' b')
  | swapRightOrInsert {a b l a' b' l'} : σ a a' → σ b b' → ρ l l' →
      RelOp ρ σ (.swapRightOrInsert a b l) (.swapRightOrInsert a' b' l')
  | lenLeft : RelOp ρ σ .lenLeft .lenLeft
  | lenRight : RelOp ρ σ .lenRight .lenRight
  | isEmpty : RelOp ρ σ .isEmpty .isEmpty
  | clear : RelOp ρ σ .clear .clear
  | iter : RelOp ρ σ .iter .iter
  | iterPaired : RelOp ρ σ .iterPaired .iterPaired
  | iterUnpaired : RelOp ρ σ .iterUnpaired .iterUnpaired
  | iterLeft : RelOp ρ σ .iterLeft .iterLeft
  | iterRight : RelOp ρ σ .iterRight .iterRight
  | drain : RelOp ρ σ (.drain 0) (.drain 0)
  | drainFilter {τ τ'} {f : τ → OptionalPair L R → Bool × τ} {f' : τ' → OptionalPair L' R' → Bool × τ'} {s s'} :
      (∀ t t' e e', OptionalPair.Rel ρ σ e e' → (f t e).1 = (f' t' e').1) →
      RelOp ρ σ (.drainFilter τ f s 0) (.drainFilter τ' f' s' 0)
  | retain {τ τ'} {f : τ → OptionalPair L R → Bool × τ} {f' : τ' → OptionalPair L' R' → Bool × τ'} {s s'} :
      (∀ t t' e e', OptionalPair.Rel ρ σ e e' → (f t e).1 = (f' t' e').1) →
      RelOp ρ σ (.retain τ f s) (.retain τ' f' s')
  | retainUnpaired {τ τ'} {f : τ → OptionalPair L R → Bool × τ} {f' : τ' → OptionalPair L' R' → Bool × τ'} {s s'} :
      (∀ t t' e e', OptionalPair.Rel ρ σ e e' → (f t e).1 = (f' t' e').1) →
      RelOp ρ σ (.retainUnpaired τ f s) (.retainUnpaired τ' f' s')
  | retainPaired {τ τ'} {f : τ → L → R → Bool × τ} {f' : τ' → L' → R' → Bool × τ'} {s s'} :
      (∀ t t' l l' r r', ρ l l' → σ r r' → (f t l r).1 = (f' t' l' r').1) →
      RelOp ρ σ (.retainPaired τ f s) (.retainPaired τ' f' s')
  | extendPairs {xs xs'} : List.Forall₂ (BothRel ρ σ) xs xs' → RelOp ρ σ (.extendPairs xs) (.extendPairs xs')
  | extend {xs xs'} : List.Forall₂ (OptionalPair.Rel ρ σ) xs xs' → RelOp ρ σ (.extend xs) (.extend xs')
  | reserveLeft {n n'} : RelOp ρ σ (.reserveLeft n) (.reserveLeft n')
  | reserveRight {n n'} : RelOp ρ σ (.reserveRight n) (.reserveRight n')
  | tryReserveLeft {n n' b} : RelOp ρ σ (.tryReserveLeft n b) (.tryReserveLeft n' b)
  | tryReserveRight {n n' b} : RelOp ρ σ (.tryReserveRight n b) (.tryReserveRight n' b)
  | shrinkToLeft {n n'} : RelOp ρ σ (.shrinkToLeft n) (.shrinkToLeft n')
  | shrinkToRight {n n'} : RelOp ρ σ (.shrinkToRight n) (.shrinkToRight n')
  | shrinkToFit : RelOp ρ σ .shrinkToFit .shrinkToFit
  | clone {cl cr cl' cr'} : (∀ x x', ρ x x' → ρ (cl x) (cl' x')) → (∀ x x', σ x x' → σ (cr x) (cr' x')) →
      (∀ x, (cl' x == x) = true) → (∀ x, (cr' x == x) = true) → RelOp ρ σ (.clone cl cr) (.clone cl' cr')

/-- The same result with related items (visited items up to order). -/
inductive RelOut (ρ : L → L' → Prop) (σ : R → R' → Prop) : Out L R → Out L' R' → Prop
  | unit : RelOut ρ σ .unit .unit
  | bool {b} : RelOut ρ σ (.bool b) (.bool b)
  | nat {n} : RelOut ρ σ (.nat n) (.nat n)
  | left {o o'} : Option.Rel ρ o o' → RelOut ρ σ (.left o) (.left o')
  | right {o o'} : Option.Rel σ o o' → RelOut ρ σ (.right o) (.right o')
  | pair {o o'} : Option.Rel (BothRel ρ σ) o o' → RelOut ρ σ (.pair o) (.pair o')
  | entry {o o'} : OptionalPair.Rel ρ σ o o' → RelOut ρ σ (.entry o) (.entry o')
  | twoEntries {o o'} : BothRel (OptionalPair.Rel ρ σ) (OptionalPair.Rel ρ σ) o o' →
      RelOut ρ σ (.twoEntries o) (.twoEntries o')
  | swappedLeft {o o'} : OptionalPair.Rel ρ (OptionalPair.Rel ρ σ) o o' → RelOut ρ σ (.swappedLeft o) (.swappedLeft o')
  | swappedRight {o o'} : OptionalPair.Rel σ (OptionalPair.Rel ρ σ) o o' →
      RelOut ρ σ (.swappedRight o) (.swappedRight o')
  | lefts {a b} : Matches ρ a b → RelOut ρ σ (.lefts a) (.lefts b)
  | rights {a b} : Matches σ a b → RelOut ρ σ (.rights a) (.rights b)
  | pairs {a b} : Matches (BothRel ρ σ) a b → RelOut ρ σ (.pairs a) (.pairs b)
  | entries {a b} : Matches (OptionalPair.Rel ρ σ) a b → RelOut ρ σ (.entries a) (.entries b)

end Verif.PartialMap

namespace Verif.PartialSpec
open PartialMap OptionalPair
open CycleSpec (split split_rel split_matches)
variable {L R L' R' : Type} [BEq L] [BEq R] [BEq L'] [BEq R']
variable {ρ : L → L' → Prop} {σ : R → R' → Prop}

/-! Functions of one entry -/

section
variable {e : OptionalPair L R} {e' : OptionalPair L' R'} (h : OptionalPair.Rel ρ σ e e')
include h

theorem leftOf_rel : Option.Rel ρ (leftOf e) (leftOf e') := by
  cases h <;> first | exact .none | exact .some ‹_›

theorem rightOf_rel : Option.Rel σ (rightOf e) (rightOf e') := by
  cases h <;> first | exact .none | exact .some ‹_›

theorem pairOf_rel : Option.Rel (BothRel ρ σ) (pairOf e) (pairOf e') := by
  cases h <;> first | exact .none | exact .some ⟨‹_›, ‹_›⟩

theorem isPair_rel : isPair e = isPair e' := by cases h <;> rfl

theorem asRight_rel : OptionalPair.Rel ρ σ (asRight e) (asRight e') := by
  cases h <;> first | exact .neither | exact .right ‹_› | exact .left ‹_›

theorem hasL_rel (hρ : Keeps ρ) {l l'} (hl : ρ l l') : hasL l e = hasL l' e' := by
  cases h <;> first | rfl | exact hρ _ _ _ _ hl ‹_›

theorem hasR_rel (hσ : Keeps σ) {r r'} (hr : σ r r') : hasR r e = hasR r' e' := by
  cases h <;> first | rfl | exact hσ _ _ _ _ hr ‹_›

theorem setLeft_rel {l l'} (hl : ρ l l') : OptionalPair.Rel ρ σ (setLeft l e) (setLeft l' e') := by
  cases h with
  | neither => exact .neither
  | left _ => exact .left hl
  | right h => exact .right h
  | both _ h => exact .both hl h

theorem setRight_rel {r r'} (hr : σ r r') : OptionalPair.Rel ρ σ (setRight r e) (setRight r' e') := by
  cases h with
  | neither => exact .neither
  | left h => exact .left h
  | right _ => exact .right hr
  | both h _ => exact .both h hr

end

theorem lones_rel {a a' b b'} (h : Option.Rel ρ a a') (h' : Option.Rel σ b b') :
    List.Forall₂ (OptionalPair.Rel ρ σ) (lones a b) (lones a' b') := by
  cases h with
  | none =>
    cases h' with
    | none => exact .nil
    | some h => exact .cons (.right h) .nil
  | some h =>
    cases h' with
    | none => exact .cons (.left h) .nil
    | some h' => exact .cons (.left h) (.cons (.right h') .nil)

section
variable [EquivBEq L] [EquivBEq R] [EquivBEq L'] [EquivBEq R']
variable {c : List (OptionalPair L R)} {d : List (OptionalPair L' R')}
variable (hρ : Keeps ρ) (hσ : Keeps σ) (hc : List.Forall₂ (OptionalPair.Rel ρ σ) c d)
include hρ hσ hc

theorem findL_rel {l l'} (h : ρ l l') : Option.Rel (OptionalPair.Rel ρ σ) (findL c l) (findL d l') :=
  Rel₂.find? hc fun _ _ e => hasL_rel e hρ h

theorem findR_rel {r r'} (h : σ r r') : Option.Rel (OptionalPair.Rel ρ σ) (findR c r) (findR d r') :=
  Rel₂.find? hc fun _ _ e => hasR_rel e hσ h

theorem eraseL_rel {l l'} (h : ρ l l') : List.Forall₂ (OptionalPair.Rel ρ σ) (eraseL c l) (eraseL d l') :=
  Rel₂.filter hc fun _ _ e => by rw [hasL_rel e hρ h]

theorem eraseR_rel {r r'} (h : σ r r') : List.Forall₂ (OptionalPair.Rel ρ σ) (eraseR c r) (eraseR d r') :=
  Rel₂.filter hc fun _ _ e => by rw [hasR_rel e hσ h]

theorem others_rel {l l' r r'} (h : ρ l l') (h' : σ r r') :
    List.Forall₂ (OptionalPair.Rel ρ σ) (others c l r) (others d l' r') :=
  Rel₂.filter hc fun _ _ e => by rw [hasL_rel e hρ h, hasR_rel e hσ h']

theorem hasPair_rel {l l' r r'} (h : ρ l l') (h' : σ r r') : hasPair c l r = hasPair d l' r' :=
  Rel₂.any hc fun _ _ e => by rw [hasL_rel e hρ h, hasR_rel e hσ h']

theorem insert_rel {l l' r r'} (h : ρ l l') (h' : σ r r') :
    BothRel (OptionalPair.Rel ρ σ) (OptionalPair.Rel ρ σ) (insert c l r).1 (insert d l' r').1 ∧
    List.Forall₂ (OptionalPair.Rel ρ σ) (insert c l r).2 (insert d l' r').2 := by
  refine ⟨⟨RelOpt.getD (findL_rel hρ hσ hc h) .neither, ?_⟩, .cons (.both h h') (others_rel hρ hσ hc h h')⟩
  simp only [insert, hasPair_rel hρ hσ hc h h']
  split
  · exact .neither
  · exact RelOpt.getD (findR_rel hρ hσ hc h') .neither

theorem insertLeft_rel {l l'} (h : ρ l l') :
    OptionalPair.Rel ρ σ (insertLeft c l).1 (insertLeft d l').1 ∧
    List.Forall₂ (OptionalPair.Rel ρ σ) (insertLeft c l).2 (insertLeft d l').2 :=
  ⟨RelOpt.getD (findL_rel hρ hσ hc h) .neither, .cons (.left h) (eraseL_rel hρ hσ hc h)⟩

theorem insertRight_rel {r r'} (h : σ r r') :
    OptionalPair.Rel ρ σ (insertRight c r).1 (insertRight d r').1 ∧
    List.Forall₂ (OptionalPair.Rel ρ σ) (insertRight c r).2 (insertRight d r').2 :=
  ⟨RelOpt.getD (findR_rel hρ hσ hc h) .neither, .cons (.right h) (eraseR_rel hρ hσ hc h)⟩

theorem pair_rel {l l' r r'} (h : ρ l l') (h' : σ r r') :
    (pair c l r).1 = (pair d l' r').1 ∧ List.Forall₂ (OptionalPair.Rel ρ σ) (pair c l r).2 (pair d l' r').2 := by
  have h1 := findL_rel hρ hσ hc h
  have h2 := findR_rel hρ hσ hc h'
  simp only [pair]
  generalize findL c l = x at h1
  generalize findL d l' = x' at h1
  generalize findR c r = y at h2
  generalize findR d r' = y' at h2
  cases h1 with
  | none => exact ⟨rfl, hc⟩
  | some h1 =>
    cases h1 with
    | left h1 =>
      cases h2 with
      | none => exact ⟨rfl, hc⟩
      | some h2 =>
        cases h2 with
        | right h2 => exact ⟨rfl, .cons (.both h1 h2) (others_rel hρ hσ hc h h')⟩
        | _ => exact ⟨rfl, hc⟩
    | _ => exact ⟨rfl, hc⟩

theorem pairForced_rel {l l' r r'} (h : ρ l l') (h' : σ r r') :
    OptionalPair.Rel ρ σ (pairForced c l r).1 (pairForced d l' r').1 ∧
    List.Forall₂ (OptionalPair.Rel ρ σ) (pairForced c l r).2 (pairForced d l' r').2 := by
  have h1 := RelOpt.bind (findL_rel hρ hσ hc h) fun _ _ e => leftOf_rel e
  have h2 := RelOpt.bind (findR_rel hρ hσ hc h') fun _ _ e => rightOf_rel e
  have h3 := RelOpt.bind (findR_rel hρ hσ hc h') fun _ _ e => leftOf_rel e
  have h4 := RelOpt.bind (findL_rel hρ hσ hc h) fun _ _ e => rightOf_rel e
  simp only [pairForced, hasPair_rel hρ hσ hc h h']
  generalize (findL c l).bind leftOf = x at h1
  generalize (findL d l').bind leftOf = x' at h1
  generalize (findR c r).bind rightOf = y at h2
  generalize (findR d r').bind rightOf = y' at h2
  cases h1 with
  | none => exact ⟨.neither, hc⟩
  | some h1 =>
    cases h2 with
    | none => exact ⟨.neither, hc⟩
    | some h2 =>
      simp only
      split
      · exact ⟨.neither, hc⟩
      · exact ⟨RelOpt.ofPair h3 h4, .cons (.both h1 h2) (Rel₂.append (lones_rel h3 h4) (others_rel hρ hσ hc h h'))⟩

theorem pairForcedRemove_rel {l l' r r'} (h : ρ l l') (h' : σ r r') :
    OptionalPair.Rel ρ σ (pairForcedRemove c l r).1 (pairForcedRemove d l' r').1 ∧
    List.Forall₂ (OptionalPair.Rel ρ σ) (pairForcedRemove c l r).2 (pairForcedRemove d l' r').2 := by
  have h1 := RelOpt.bind (findL_rel hρ hσ hc h) fun _ _ e => leftOf_rel e
  have h2 := RelOpt.bind (findR_rel hρ hσ hc h') fun _ _ e => rightOf_rel e
  have h3 := RelOpt.bind (findR_rel hρ hσ hc h') fun _ _ e => leftOf_rel e
  have h4 := RelOpt.bind (findL_rel hρ hσ hc h) fun _ _ e => rightOf_rel e
  simp only [pairForcedRemove, hasPair_rel hρ hσ hc h h']
  generalize (findL c l).bind leftOf = x at h1
  generalize (findL d l').bind leftOf = x' at h1
  generalize (findR c r).bind rightOf = y at h2
  generalize (findR d r').bind rightOf = y' at h2
  cases h1 with
  | none => exact ⟨.neither, hc⟩
  | some h1 =>
    cases h2 with
    | none => exact ⟨.neither, hc⟩
    | some h2 =>
      simp only
      split
      · exact ⟨.neither, hc⟩
      · exact ⟨RelOpt.ofPair h3 h4, .cons (.both h1 h2) (others_rel hρ hσ hc h h')⟩

theorem unpair_rel {l l' r r'} (h : ρ l l') (h' : σ r r') :
    (unpair c l r).1 = (unpair d l' r').1 ∧ List.Forall₂ (OptionalPair.Rel ρ σ) (unpair c l r).2 (unpair d l' r').2 := by
  simp only [unpair, hasPair_rel hρ hσ hc h h']
  split
  · exact ⟨rfl, Rel₂.append (lones_rel (RelOpt.bind (findL_rel hρ hσ hc h) fun _ _ e => leftOf_rel e)
      (RelOpt.bind (findR_rel hρ hσ hc h') fun _ _ e => rightOf_rel e)) (others_rel hρ hσ hc h h')⟩
  · exact ⟨rfl, hc⟩

theorem remove_rel {l l' r r'} (h : ρ l l') (h' : σ r r') :
    Option.Rel (BothRel ρ σ) (remove c l r).1 (remove d l' r').1 ∧
    List.Forall₂ (OptionalPair.Rel ρ σ) (remove c l r).2 (remove d l' r').2 := by
  simp only [remove, hasPair_rel hρ hσ hc h h']
  split
  · exact ⟨RelOpt.bind (findL_rel hρ hσ hc h) fun _ _ e => pairOf_rel e, eraseL_rel hρ hσ hc h⟩
  · exact ⟨.none, hc⟩

theorem removeLeft_rel {l l'} (h : ρ l l') :
    Option.Rel ρ (removeLeft c l).1 (removeLeft d l').1 ∧
    List.Forall₂ (OptionalPair.Rel ρ σ) (removeLeft c l).2 (removeLeft d l').2 :=
  ⟨RelOpt.bind (findL_rel hρ hσ hc h) fun _ _ e => leftOf_rel e,
   Rel₂.append (lones_rel .none (RelOpt.bind (findL_rel hρ hσ hc h) fun _ _ e => rightOf_rel e)) (eraseL_rel hρ hσ hc h)⟩

theorem removeRight_rel {r r'} (h : σ r r') :
    Option.Rel σ (removeRight c r).1 (removeRight d r').1 ∧
    List.Forall₂ (OptionalPair.Rel ρ σ) (removeRight c r).2 (removeRight d r').2 :=
  ⟨RelOpt.bind (findR_rel hρ hσ hc h) fun _ _ e => rightOf_rel e,
   Rel₂.append (lones_rel (RelOpt.bind (findR_rel hρ hσ hc h) fun _ _ e => leftOf_rel e) .none) (eraseR_rel hρ hσ hc h)⟩

theorem swapLeft_rel {a a' b b'} (h : ρ a a') (h' : ρ b b') :
    OptionalPair.Rel ρ (OptionalPair.Rel ρ σ) (swapLeft c a b).1 (swapLeft d a' b').1 ∧
    List.Forall₂ (OptionalPair.Rel ρ σ) (swapLeft c a b).2 (swapLeft d a' b').2 := by
  have hf := findL_rel hρ hσ hc h
  simp only [swapLeft]
  generalize findL c a = x at hf
  generalize findL d a' = y at hf
  cases hf with
  | none => exact ⟨.neither, eraseL_rel hρ hσ hc h'⟩
  | some e =>
    exact ⟨RelOpt.ofPair (leftOf_rel e) (RelOpt.ite (hρ _ _ _ _ h' h) .none (findL_rel hρ hσ hc h')),
      .cons (setLeft_rel e h') (Rel₂.filter hc fun _ _ e => by rw [hasL_rel e hρ h, hasL_rel e hρ h'])⟩

theorem swapRight_rel {a a' b b'} (h : σ a a') (h' : σ b b') :
    OptionalPair.Rel σ (OptionalPair.Rel ρ σ) (swapRight c a b).1 (swapRight d a' b').1 ∧
    List.Forall₂ (OptionalPair.Rel ρ σ) (swapRight c a b).2 (swapRight d a' b').2 := by
  have hf := findR_rel hρ hσ hc h
  simp only [swapRight]
  generalize findR c a = x at hf
  generalize findR d a' = y at hf
  cases hf with
  | none => exact ⟨.neither, eraseR_rel hρ hσ hc h'⟩
  | some e =>
    exact ⟨RelOpt.ofPair (rightOf_rel e) (RelOpt.ite (hσ _ _ _ _ h' h) .none (findR_rel hρ hσ hc h')),
      .cons (setRight_rel e h') (Rel₂.filter hc fun _ _ e => by rw [hasR_rel e hσ h, hasR_rel e hσ h'])⟩

omit hc in
theorem insertAll_rel {xs : List (OptionalPair L R)} {ys : List (OptionalPair L' R')}
    (h : List.Forall₂ (OptionalPair.Rel ρ σ) xs ys) :
    ∀ {c : List (OptionalPair L R)} {d : List (OptionalPair L' R')}, List.Forall₂ (OptionalPair.Rel ρ σ) c d →
      List.Forall₂ (OptionalPair.Rel ρ σ) (insertAll c xs) (insertAll d ys) := by
  induction h with
  | nil => exact id
  | cons e _ ih =>
    intro c d hc
    refine ih ?_
    cases e with
    | neither => exact hc
    | left h => exact (insertLeft_rel hρ hσ hc h).2
    | right h => exact (insertRight_rel hρ hσ hc h).2
    | both h h' => exact (insert_rel hρ hσ hc h h').2

/-- Safety carries over to related contents, if the second hash builder has no more collisions than the first. -/
theorem safe_rel {hb : BuildHasher L R} {hb' : BuildHasher L' R'}
    (hhl : ∀ x x' y y', ρ x x' → ρ y y' → hb'.hl x' = hb'.hl y' → hb.hl x = hb.hl y)
    (hhr : ∀ x x' y y', σ x x' → σ y y' → hb'.hr x' = hb'.hr y' → hb.hr x = hb.hr y)
    {op : Op L R} {op' : Op L' R'} (ho : RelOp ρ σ op op') (hs : Safe hb c op) : Safe hb' d op' := by
  cases ho with
  | unpair h1 h2 =>
    intro a b a' b' m1 m2 e1 e2 e3 e4
    obtain ⟨x, hx, rx⟩ := Rel₂.mem' hc m1
    obtain ⟨y, hy, ry⟩ := Rel₂.mem' hc m2
    cases rx with | both p q =>
    cases ry with | both p' q' =>
    rw [← hasPair_rel hρ hσ hc h1 h2]
    exact hs _ _ _ _ hx hy (by rw [hρ _ _ _ _ h1 p]; exact e1) (by rw [hσ _ _ _ _ h2 q']; exact e2)
      (hhr _ _ _ _ h2 q e3) (hhl _ _ _ _ h1 p' e4)
  | swapLeftOrInsert h1 h2 h3 =>
    rcases hs with hs | hs
    · exact .inl ((RelOpt.isSome (findL_rel hρ hσ hc h1)).symm.trans hs)
    · exact .inr ((RelOpt.eq_none (findL_rel hρ hσ hc h2)).1 hs)
  | swapRightOrInsert h1 h2 h3 =>
    rcases hs with hs | hs | hs
    · exact .inl ((RelOpt.isSome (findR_rel hρ hσ hc h1)).symm.trans hs)
    · exact .inr (.inl ((hasPair_rel hρ hσ hc h3 h2).symm.trans hs))
    · exact .inr (.inr ((RelOpt.eq_none (findR_rel hρ hσ hc h2)).1 hs))
  | @drainFilter _ _ f f' s s' hf =>
    intro t l r hm
    obtain ⟨x, hx, rx⟩ := Rel₂.mem' hc hm
    cases rx with | both p q =>
    rw [← hf s t _ _ (.right q)]
    exact hs s _ _ hx
  | clone _ _ h3 h4 => exact ⟨h3, h4⟩
  | _ => trivial

omit hρ hσ in
theorem parts_rel {x us : List (OptionalPair L R)} {y vs : List (OptionalPair L' R')} (hx : (x ++ us).Perm c)
    (hx1 : ∀ e ∈ x, (leftOf e).isSome = true) (hx2 : ∀ e ∈ us, leftOf e = none) (hy : (y ++ vs).Perm d)
    (hy1 : ∀ e ∈ y, (leftOf e).isSome = true) (hy2 : ∀ e ∈ vs, leftOf e = none) :
    Matches (OptionalPair.Rel ρ σ) x y ∧ Matches (OptionalPair.Rel ρ σ) us vs := by
  have p := perm_parts hx hx1 hx2
  have q := perm_parts hy hy1 hy2
  exact ⟨.of_perm (Rel₂.filter hc fun _ _ e => RelOpt.isSome (leftOf_rel e)) p.1 q.1,
    .of_perm (Rel₂.filter hc fun _ _ e => by rw [RelOpt.isSome (leftOf_rel e)]) p.2 q.2⟩

/-- Related calls on related contents: related results, related contents. -/
theorem step_rel {op : Op L R} {op' : Op L' R'} (ho : RelOp ρ σ op op') {o : Out L R} {o' : Out L' R'}
    {c₁ : List (OptionalPair L R)} {d₁ : List (OptionalPair L' R')} (h : Step c op o c₁) (h' : Step d op' o' d₁) :
    RelOut ρ σ o o' ∧ Matches (OptionalPair.Rel ρ σ) c₁ d₁ := by
  cases ho with
  | insert h1 h2 =>
    obtain ⟨rfl, rfl⟩ := h; obtain ⟨rfl, rfl⟩ := h'
    have := insert_rel hρ hσ hc h1 h2
    exact ⟨.twoEntries this.1, .of this.2⟩
  | insertLeft h1 =>
    obtain ⟨rfl, rfl⟩ := h; obtain ⟨rfl, rfl⟩ := h'
    have := insertLeft_rel hρ hσ hc h1
    exact ⟨.entry this.1, .of this.2⟩
  | insertRight h1 =>
    obtain ⟨rfl, rfl⟩ := h; obtain ⟨rfl, rfl⟩ := h'
    have := insertRight_rel hρ hσ hc h1
    exact ⟨.entry this.1, .of this.2⟩
  | pairForced h1 h2 =>
    obtain ⟨rfl, rfl⟩ := h; obtain ⟨rfl, rfl⟩ := h'
    have := pairForced_rel hρ hσ hc h1 h2
    exact ⟨.entry this.1, .of this.2⟩
  | pairForcedRemove h1 h2 =>
    obtain ⟨rfl, rfl⟩ := h; obtain ⟨rfl, rfl⟩ := h'
    have := pairForcedRemove_rel hρ hσ hc h1 h2
    exact ⟨.entry this.1, .of this.2⟩
  | remove h1 h2 =>
    obtain ⟨rfl, rfl⟩ := h; obtain ⟨rfl, rfl⟩ := h'
    have := remove_rel hρ hσ hc h1 h2
    exact ⟨.pair this.1, .of this.2⟩
  | removeLeft h1 =>
    obtain ⟨rfl, rfl⟩ := h; obtain ⟨rfl, rfl⟩ := h'
    have := removeLeft_rel hρ hσ hc h1
    exact ⟨.left this.1, .of this.2⟩
  | removeRight h1 =>
    obtain ⟨rfl, rfl⟩ := h; obtain ⟨rfl, rfl⟩ := h'
    have := removeRight_rel hρ hσ hc h1
    exact ⟨.right this.1, .of this.2⟩
  | swapLeft h1 h2 =>
    obtain ⟨rfl, rfl⟩ := h; obtain ⟨rfl, rfl⟩ := h'
    have := swapLeft_rel hρ hσ hc h1 h2
    exact ⟨.swappedLeft this.1, .of this.2⟩
  | swapRight h1 h2 =>
    obtain ⟨rfl, rfl⟩ := h; obtain ⟨rfl, rfl⟩ := h'
    have := swapRight_rel hρ hσ hc h1 h2
    exact ⟨.swappedRight this.1, .of this.2⟩
  | pair h1 h2 =>
    obtain ⟨rfl, rfl⟩ := h; obtain ⟨rfl, rfl⟩ := h'
    have := pair_rel hρ hσ hc h1 h2
    rw [this.1]
    exact ⟨.bool, .of this.2⟩
  | unpair h1 h2 =>
    obtain ⟨rfl, rfl⟩ := h; obtain ⟨rfl, rfl⟩ := h'
    have := unpair_rel hρ hσ hc h1 h2
    rw [this.1]
    exact ⟨.bool, .of this.2⟩
  | removeViaLeft h1 =>
    obtain ⟨rfl, rfl⟩ := h; obtain ⟨rfl, rfl⟩ := h'
    exact ⟨.entry (RelOpt.getD (findL_rel hρ hσ hc h1) .neither), .of (eraseL_rel hρ hσ hc h1)⟩
  | removeViaRight h1 =>
    obtain ⟨rfl, rfl⟩ := h; obtain ⟨rfl, rfl⟩ := h'
    exact ⟨.entry (RelOpt.getD (findR_rel hρ hσ hc h1) .neither), .of (eraseR_rel hρ hσ hc h1)⟩
  | swapLeftChecked h1 h2 h3 =>
    simp only [Step, hasPair_rel hρ hσ hc h1 h2] at h h'
    split at h
    · rename_i hb; rw [if_pos hb] at h'
      obtain ⟨rfl, rfl⟩ := h; obtain ⟨rfl, rfl⟩ := h'
      have := swapLeft_rel hρ hσ hc h1 h3
      exact ⟨.swappedLeft this.1, .of this.2⟩
    · rename_i hb; rw [if_neg hb] at h'
      obtain ⟨rfl, rfl⟩ := h; obtain ⟨rfl, rfl⟩ := h'
      exact ⟨.swappedLeft .neither, .of hc⟩
  | swapRightChecked h1 h2 h3 =>
    simp only [Step, hasPair_rel hρ hσ hc h2 h1] at h h'
    split at h
    · rename_i hb; rw [if_pos hb] at h'
      obtain ⟨rfl, rfl⟩ := h; obtain ⟨rfl, rfl⟩ := h'
      have := swapRight_rel hρ hσ hc h1 h3
      exact ⟨.swappedRight this.1, .of this.2⟩
    · rename_i hb; rw [if_neg hb] at h'
      obtain ⟨rfl, rfl⟩ := h; obtain ⟨rfl, rfl⟩ := h'
      exact ⟨.swappedRight .neither, .of hc⟩
  | swapLeftOrInsert h1 h2 h3 =>
    simp only [Step, RelOpt.isSome (findL_rel hρ hσ hc h1)] at h h'
    split at h
    · rename_i hb; rw [if_pos hb] at h'
      obtain ⟨rfl, rfl⟩ := h; obtain ⟨rfl, rfl⟩ := h'
      have := swapLeft_rel hρ hσ hc h1 h2
      exact ⟨.swappedLeft this.1, .of this.2⟩
    · rename_i hb; rw [if_neg hb] at h'
      obtain ⟨_, rfl, rfl⟩ := h; obtain ⟨_, rfl, rfl⟩ := h'
      exact ⟨.swappedLeft (RelOpt.ofPair .none (findR_rel hρ hσ hc h3)), .of (insert_rel hρ hσ hc h2 h3).2⟩
  | swapRightOrInsert h1 h2 h3 =>
    simp only [Step, RelOpt.isSome (findR_rel hρ hσ hc h1)] at h h'
    split at h
    · rename_i hb; rw [if_pos hb] at h'
      obtain ⟨rfl, rfl⟩ := h; obtain ⟨rfl, rfl⟩ := h'
      have := swapRight_rel hρ hσ hc h1 h2
      exact ⟨.swappedRight this.1, .of this.2⟩
    · rename_i hb; rw [if_neg hb] at h'
      obtain ⟨_, rfl, rfl⟩ := h; obtain ⟨_, rfl, rfl⟩ := h'
      exact ⟨.swappedRight (RelOpt.ofPair .none (findL_rel hρ hσ hc h3)), .of (insert_rel hρ hσ hc h3 h2).2⟩
  | getLeft h1 =>
    obtain ⟨rfl, rfl⟩ := h; obtain ⟨rfl, rfl⟩ := h'
    exact ⟨.left (RelOpt.bind (findR_rel hρ hσ hc h1) fun _ _ e => leftOf_rel e), .of hc⟩
  | getRight h1 =>
    obtain ⟨rfl, rfl⟩ := h; obtain ⟨rfl, rfl⟩ := h'
    exact ⟨.right (RelOpt.bind (findL_rel hρ hσ hc h1) fun _ _ e => rightOf_rel e), .of hc⟩
  | containsLeft h1 =>
    obtain ⟨rfl, rfl⟩ := h; obtain ⟨rfl, rfl⟩ := h'
    rw [Rel₂.any hc fun _ _ e => hasL_rel e hρ h1]
    exact ⟨.bool, .of hc⟩
  | containsRight h1 =>
    obtain ⟨rfl, rfl⟩ := h; obtain ⟨rfl, rfl⟩ := h'
    rw [Rel₂.any hc fun _ _ e => hasR_rel e hσ h1]
    exact ⟨.bool, .of hc⟩
  | isLeftPaired h1 =>
    obtain ⟨rfl, rfl⟩ := h; obtain ⟨rfl, rfl⟩ := h'
    rw [Rel₂.any hc fun _ _ e => by rw [isPair_rel e, hasL_rel e hρ h1]]
    exact ⟨.bool, .of hc⟩
  | isRightPaired h1 =>
    obtain ⟨rfl, rfl⟩ := h; obtain ⟨rfl, rfl⟩ := h'
    rw [Rel₂.any hc fun _ _ e => by rw [isPair_rel e, hasR_rel e hσ h1]]
    exact ⟨.bool, .of hc⟩
  | arePaired h1 h2 =>
    obtain ⟨rfl, rfl⟩ := h; obtain ⟨rfl, rfl⟩ := h'
    rw [hasPair_rel hρ hσ hc h1 h2]
    exact ⟨.bool, .of hc⟩
  | lenLeft =>
    obtain ⟨rfl, rfl⟩ := h; obtain ⟨rfl, rfl⟩ := h'
    rw [(Rel₂.filterMap hc fun _ _ e => leftOf_rel e).length_eq]
    exact ⟨.nat, .of hc⟩
  | lenRight =>
    obtain ⟨rfl, rfl⟩ := h; obtain ⟨rfl, rfl⟩ := h'
    rw [(Rel₂.filterMap hc fun _ _ e => rightOf_rel e).length_eq]
    exact ⟨.nat, .of hc⟩
  | isEmpty =>
    obtain ⟨rfl, rfl⟩ := h; obtain ⟨rfl, rfl⟩ := h'
    rw [Rel₂.isEmpty hc]
    exact ⟨.bool, .of hc⟩
  | clear =>
    obtain ⟨rfl, rfl⟩ := h; obtain ⟨rfl, rfl⟩ := h'
    exact ⟨.unit, .of .nil⟩
  | iter =>
    obtain ⟨x, hx, rfl, rfl⟩ := h; obtain ⟨y, hy, rfl, rfl⟩ := h'
    exact ⟨.entries (.of_perm (Rel₂.filter hc fun _ _ e => RelOpt.isSome (leftOf_rel e)) hx hy), .of hc⟩
  | iterPaired =>
    obtain ⟨x, hx, rfl, rfl⟩ := h; obtain ⟨y, hy, rfl, rfl⟩ := h'
    exact ⟨.pairs (.of_perm (Rel₂.filterMap hc fun _ _ e => pairOf_rel e) hx hy), .of hc⟩
  | iterUnpaired =>
    obtain ⟨x, hx, rfl, rfl⟩ := h; obtain ⟨y, hy, rfl, rfl⟩ := h'
    exact ⟨.entries (.of_perm (Rel₂.filter hc fun _ _ e => by rw [isPair_rel e]) hx hy), .of hc⟩
  | iterLeft =>
    obtain ⟨x, hx, rfl, rfl⟩ := h; obtain ⟨y, hy, rfl, rfl⟩ := h'
    exact ⟨.lefts (.of_perm (Rel₂.filterMap hc fun _ _ e => leftOf_rel e) hx hy), .of hc⟩
  | iterRight =>
    obtain ⟨x, hx, rfl, rfl⟩ := h; obtain ⟨y, hy, rfl, rfl⟩ := h'
    exact ⟨.rights (.of_perm (Rel₂.filterMap hc fun _ _ e => rightOf_rel e) hx hy), .of hc⟩
  | drain =>
    obtain ⟨_, _, _, _, _, rfl, rfl⟩ := h; obtain ⟨_, _, _, _, _, rfl, rfl⟩ := h'
    exact ⟨.entries (.of .nil), .of .nil⟩
  | @drainFilter _ _ f f' s s' hf =>
    obtain ⟨x, us, x2, h1, h2, h3, h4, h5, rfl, rfl⟩ := h
    obtain ⟨y, vs, y2, g1, g2, g3, g4, g5, rfl, rfl⟩ := h'
    obtain ⟨hxy, hu⟩ := parts_rel hc h1 h2 h3 g1 g2 g3
    have hk := (split_matches hxy s s' hf).2
    have key : ∀ {L R : Type} {d2 k us : List (OptionalPair L R)},
        (d2 ++ k.filter fun e => (rightOf e).isNone).Perm (k ++ us) →
        (∀ e ∈ d2, (rightOf e).isSome = true) → d2.Perm ((k ++ us).filter fun e => (rightOf e).isSome) := by
      intro L R d2 k us h h5
      have := h.filter fun e => (rightOf e).isSome
      rwa [List.filter_append, List.filter_eq_self.2 h5, List.filter_filter, List.filter_eq_nil_iff.2
        (fun e he => by cases rightOf e <;> simp), List.append_nil] at this
    have h2 := ((hk.append hu).filter fun _ _ e => RelOpt.isSome (rightOf_rel e)).perm (key h4 h5) (key g4 g5)
    have hf' := fun t t' a b (e : OptionalPair.Rel ρ σ a b) => hf t t' _ _ (asRight_rel e)
    refine ⟨.entries (.of ?_), (split_matches h2 _ _ hf').2.append (hk.filter fun _ _ e => ?_)⟩
    · simp only [List.take_zero]; exact .nil
    · rw [← Option.not_isSome, ← Option.not_isSome, RelOpt.isSome (rightOf_rel e)]
  | retain hf =>
    obtain ⟨x, us, h1, h2, h3, rfl, rfl⟩ := h
    obtain ⟨y, vs, g1, g2, g3, rfl, rfl⟩ := h'
    obtain ⟨hxy, hu⟩ := parts_rel hc h1 h2 h3 g1 g2 g3
    exact ⟨.unit, (split_matches hxy _ _ hf).2.append hu⟩
  | retainPaired hf =>
    obtain ⟨x, hx, rfl, rfl⟩ := h
    obtain ⟨y, hy, rfl, rfl⟩ := h'
    have hxy : Matches (BothRel ρ σ) x y := .of_perm (Rel₂.filterMap hc fun _ _ e => pairOf_rel e) hx hy
    have hf' := fun t t' (a : L × R) (b : L' × R') (e : BothRel ρ σ a b) => hf t t' a.1 b.1 a.2 b.2 e.1 e.2
    exact ⟨.unit, ((split_matches hxy _ _ hf').2.map fun _ _ e => .both e.1 e.2).append
      (.of (Rel₂.filter hc fun _ _ e => by rw [isPair_rel e]))⟩
  | retainUnpaired hf =>
    obtain ⟨x, hx, rfl, rfl⟩ := h
    obtain ⟨y, hy, rfl, rfl⟩ := h'
    have hxy : Matches (OptionalPair.Rel ρ σ) x y := .of_perm (Rel₂.filter hc fun _ _ e => by rw [isPair_rel e]) hx hy
    exact ⟨.unit, (split_matches hxy _ _ hf).2.append (.of (Rel₂.filter hc fun _ _ e => isPair_rel e))⟩
  | extendPairs h1 =>
    obtain ⟨rfl, rfl⟩ := h; obtain ⟨rfl, rfl⟩ := h'
    exact ⟨.unit, .of (insertAll_rel hρ hσ (Rel₂.map h1 fun _ _ e => .both e.1 e.2) hc)⟩
  | extend h1 =>
    obtain ⟨rfl, rfl⟩ := h; obtain ⟨rfl, rfl⟩ := h'
    exact ⟨.unit, .of (insertAll_rel hρ hσ h1 hc)⟩
  | tryReserveLeft | tryReserveRight =>
    obtain ⟨rfl, rfl⟩ := h; obtain ⟨rfl, rfl⟩ := h'
    exact ⟨.bool, .of hc⟩
  | clone h1 h2 _ _ =>
    obtain ⟨rfl, rfl⟩ := h; obtain ⟨rfl, rfl⟩ := h'
    refine ⟨.unit, .of (Rel₂.map hc fun _ _ e => ?_)⟩
    cases e with
    | neither => exact .neither
    | left e => exact .left (h1 _ _ e)
    | right e => exact .right (h2 _ _ e)
    | both e e' => exact .both (h1 _ _ e) (h2 _ _ e')
  | _ =>
    obtain ⟨rfl, rfl⟩ := h; obtain ⟨rfl, rfl⟩ := h'
    exact ⟨.unit, .of hc⟩
end

end Verif.PartialSpec
