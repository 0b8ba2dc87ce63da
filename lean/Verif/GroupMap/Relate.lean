import Verif.CycleMap.Relate
import Verif.GroupMap.SpecLemmas
/-!
The list machine of `GroupMap` on related contents: related calls give related results and leave related contents.
-/
set_option linter.unusedSectionVars false
namespace Verif.GroupMap
open GroupSpec
variable {L R L' R' : Type}

/-- The same call on related items.  Closures answer alike on related items, whatever their states (so their
answers do not depend on the order of visits); the clone functions take related items to related items. -/
inductive RelOp [BEq L'] [BEq R'] (ρ : L → L' → Prop) (σ : R → R' → Prop) : Op L R → Op L' R' → Prop
  | insert {l r l' r'} : ρ l l' → σ r r' → RelOp ρ σ (.insert l r) (.insert l' r')
  | insertRemove {l r l' r'} : ρ l l' → σ r r' → RelOp ρ σ (.insertRemove l r) (.insertRemove l' r')
  | insertLeft {l r l' r'} : ρ l l' → σ r r' → RelOp ρ σ (.insertLeft l r) (.insertLeft l' r')
  | pair {l r l' r'} : ρ l l' → σ r r' → RelOp ρ σ (.pair l r) (.pair l' r')
  | remove {l r l' r'} : ρ l l' → σ r r' → RelOp ρ σ (.remove l r) (.remove l' r')
  | arePaired {l r l' r'} : ρ l l' → σ r r' → RelOp ρ σ (.arePaired l r) (.arePaired l' r')
  | removeLeft {l l'} : ρ l l' → RelOp ρ σ (.removeLeft l) (.removeLeft l')
  | getRight {l l'} : ρ l l' → RelOp ρ σ (.getRight l) (.getRight l')
  | containsLeft {l l'} : ρ l l' → RelOp ρ σ (.containsLeft l) (.containsLeft l')
  | insertRight {r r'} : σ r r' → RelOp ρ σ (.insertRight r) (.insertRight r')
  | removeRight {r r'} : σ r r' → RelOp ρ σ (.removeRight r) (.removeRight r')
  | getLeftIter {r r'} : σ r r' → RelOp ρ σ (.getLeftIter r) (.getLeftIter r')
  | containsRight {r r'} : σ r r' → RelOp ρ σ (.containsRight r) (.containsRight r')
  | isRightPaired {r r'} : σ r r' → RelOp ρ σ (.isRightPaired r) (.isRightPaired r')
  | swapRight {a b a' b'} : σ a a' → σ b b' → RelOp ρ σ (.swapRight a b) (.swapRight a' b')
  | swapRightRemove {a b a' b'} : σ a a' → σ b b' → RelOp ρ σ (.swapRightRemove a b) (.swapRightRemove a' b')
  | lenLeft : RelOp ρ σ .lenLeft .lenLeft
  | lenRight : RelOp ρ σ .lenRight .lenRight
  | isEmpty : RelOp ρ σ .isEmpty .isEmpty
  | clear : RelOp ρ σ .clear .clear
  | iter : RelOp ρ σ .iter .iter
  | iterPaired : RelOp ρ σ .iterPaired .iterPaired
  | iterUnpaired : RelOp ρ σ .iterUnpaired .iterUnpaired
  | iterLeft : RelOp ρ σ .iterLeft .iterLeft
  | iterRight : RelOp ρ σ .iterRight .iterRight
  | retainPaired {τ τ'} {f : τ → L → R → Bool × τ} {f' : τ' → L' → R' → Bool × τ'} {s s'} :
      (∀ t t' l l' r r', ρ l l' → σ r r' → (f t l r).1 = (f' t' l' r').1) →
      RelOp ρ σ (.retainPaired τ f s) (.retainPaired τ' f' s')
  | retainUnpaired {τ τ'} {f : τ → R → Bool × τ} {f' : τ' → R' → Bool × τ'} {s s'} :
      (∀ t t' r r', σ r r' → (f t r).1 = (f' t' r').1) → RelOp ρ σ (.retainUnpaired τ f s) (.retainUnpaired τ' f' s')
  | extend {xs xs'} : List.Forall₂ (BothRel ρ σ) xs xs' → RelOp ρ σ (.extend xs) (.extend xs')
  | extendOpt {xs xs'} : List.Forall₂ (BothRel (Option.Rel ρ) σ) xs xs' → RelOp ρ σ (.extendOpt xs) (.extendOpt xs')
  | clone {cl cr cl' cr'} : (∀ x x', ρ x x' → ρ (cl x) (cl' x')) → (∀ x x', σ x x' → σ (cr x) (cr' x')) →
      (∀ x, (cl' x == x) = true) → (∀ x, (cr' x == x) = true) → RelOp ρ σ (.clone cl cr) (.clone cl' cr')

/-- The same result with related items (visited items, and the left items of a group, up to order). -/
inductive RelOut (ρ : L → L' → Prop) (σ : R → R' → Prop) : Out L R → Out L' R' → Prop
  | unit : RelOut ρ σ .unit .unit
  | bool {b} : RelOut ρ σ (.bool b) (.bool b)
  | nat {n} : RelOut ρ σ (.nat n) (.nat n)
  | left {o o'} : Option.Rel ρ o o' → RelOut ρ σ (.left o) (.left o')
  | right {o o'} : Option.Rel σ o o' → RelOut ρ σ (.right o) (.right o')
  | group {o o'} : Option.Rel (BothRel (Matches ρ) σ) o o' → RelOut ρ σ (.group o) (.group o')
  | leftAndGroup {l l' o o'} : Option.Rel ρ l l' → Option.Rel (BothRel (Matches ρ) σ) o o' →
      RelOut ρ σ (.leftAndGroup l o) (.leftAndGroup l' o')
  | leftsOf {o o'} : Option.Rel (Matches ρ) o o' → RelOut ρ σ (.leftsOf o) (.leftsOf o')
  | lefts {a b} : Matches ρ a b → RelOut ρ σ (.lefts a) (.lefts b)
  | rights {a b} : Matches σ a b → RelOut ρ σ (.rights a) (.rights b)
  | pairs {a b} : Matches (BothRel ρ σ) a b → RelOut ρ σ (.pairs a) (.pairs b)
  | entries {a b} : Matches (BothRel (Option.Rel ρ) σ) a b → RelOut ρ σ (.entries a) (.entries b)

end Verif.GroupMap

namespace Verif.GroupSpec
open GroupMap
open CycleSpec (split split_rel split_matches)
variable {L R L' R' : Type} [BEq L] [BEq R] [BEq L'] [BEq R']

/-- the right items are related, and the pairs are, in order -/
structure Contents.Rel (ρ : L → L' → Prop) (σ : R → R' → Prop) (c : Contents L R) (d : Contents L' R') : Prop where
  rights : List.Forall₂ σ c.rights d.rights
  pairs : List.Forall₂ (BothRel ρ σ) c.pairs d.pairs

/-- the right items are related, and the pairs are, in some order -/
structure Contents.Alike (ρ : L → L' → Prop) (σ : R → R' → Prop) (c : Contents L R) (d : Contents L' R') : Prop where
  rights : Matches σ c.rights d.rights
  pairs : Matches (BothRel ρ σ) c.pairs d.pairs

theorem Contents.Rel.alike {ρ : L → L' → Prop} {σ : R → R' → Prop} {c : Contents L R} {d : Contents L' R'}
    (h : c.Rel ρ σ d) : c.Alike ρ σ d := ⟨.of h.rights, .of h.pairs⟩

theorem Contents.Alike.rel {ρ : L → L' → Prop} {σ : R → R' → Prop} {c : Contents L R} {d : Contents L' R'}
    (h : c.Alike ρ σ d) : ∃ e : Contents L' R', e.Same d ∧ c.Rel ρ σ e := by
  obtain ⟨⟨e1, h1, h2⟩, ⟨e2, h3, h4⟩⟩ := h
  exact ⟨⟨e1, e2⟩, ⟨h1, h3⟩, ⟨h2, h4⟩⟩

theorem SameEntry.rel {ρ : L → L' → Prop} {σ : R → R' → Prop} {g x : Option (List L × R)} {g' x' : Option (List L' × R')}
    (h : SameEntry g x) (h' : SameEntry g' x') (hx : Option.Rel (BothRel (Matches ρ) σ) x x') :
    Option.Rel (BothRel (Matches ρ) σ) g g' := by
  cases hx with
  | none =>
    cases g with
    | some _ => exact h.elim
    | none =>
      cases g' with
      | some _ => exact h'.elim
      | none => exact .none
  | some e =>
    cases g with
    | none => exact h.elim
    | some _ =>
      cases g' with
      | none => exact h'.elim
      | some _ => exact .some ⟨e.1.perm h.1 h'.1, by rw [h.2, h'.2]; exact e.2⟩

section
variable {ρ : L → L' → Prop} {σ : R → R' → Prop} {c : Contents L R} {d : Contents L' R'}
variable (hρ : Keeps ρ) (hσ : Keeps σ) (hc : c.Rel ρ σ d)
include hρ hσ hc

theorem findL_rel {l l'} (h : ρ l l') : Option.Rel (BothRel ρ σ) (findL c l) (findL d l') :=
  Rel₂.find? hc.pairs fun _ _ e => hρ _ _ _ _ h e.1

theorem findR_rel {r r'} (h : σ r r') : Option.Rel σ (findR c r) (findR d r') :=
  Rel₂.find? hc.rights fun _ _ e => hσ _ _ _ _ h e

theorem group_rel {r r'} (h : σ r r') : List.Forall₂ ρ (group c r) (group d r') :=
  Rel₂.map (Rel₂.filter hc.pairs fun _ _ e => hσ _ _ _ _ h e.2) fun _ _ e => e.1

theorem hasPair_rel {l l' r r'} (h : ρ l l') (h' : σ r r') : hasPair c l r = hasPair d l' r' :=
  Rel₂.any hc.pairs fun _ _ e => by rw [hρ _ _ _ _ h e.1, hσ _ _ _ _ h' e.2]

theorem hasGroup_rel {r r'} (h : σ r r') : hasGroup c r = hasGroup d r' :=
  Rel₂.any hc.pairs fun _ _ e => by rw [hσ _ _ _ _ h e.2]

theorem lone_rel : List.Forall₂ σ (lone c) (lone d) :=
  Rel₂.filter hc.rights fun _ _ e => by rw [hasGroup_rel hρ hσ hc e]

theorem entries_rel : List.Forall₂ (BothRel (Option.Rel ρ) σ) (entries c) (entries d) :=
  Rel₂.append (Rel₂.map hc.pairs fun _ _ e => ⟨.some e.1, e.2⟩) (Rel₂.map (lone_rel hρ hσ hc) fun _ _ e => ⟨.none, e⟩)

theorem eraseL_rel {l l'} (h : ρ l l') : (eraseL c l).Rel ρ σ (eraseL d l') :=
  ⟨hc.rights, Rel₂.filter hc.pairs fun _ _ e => by rw [hρ _ _ _ _ h e.1]⟩

theorem eraseR_rel {r r'} (h : σ r r') : (eraseR c r).Rel ρ σ (eraseR d r') :=
  ⟨Rel₂.filter hc.rights fun _ _ e => by rw [hσ _ _ _ _ h e], Rel₂.filter hc.pairs fun _ _ e => by rw [hσ _ _ _ _ h e.2]⟩

theorem entryR_rel {r r'} (h : σ r r') : Option.Rel (BothRel (Matches ρ) σ) (entryR c r) (entryR d r') :=
  RelOpt.map (findR_rel hρ hσ hc h) fun _ _ e => ⟨.of (group_rel hρ hσ hc h), e⟩

theorem insert_rel {l l' r r'} (h : ρ l l') (h' : σ r r') : (insert c l r).Rel ρ σ (insert d l' r') := by
  have h2 := findR_rel hρ hσ hc h'
  refine ⟨?_, .cons ⟨RelOpt.getD (RelOpt.map (findL_rel hρ hσ hc h) fun _ _ e => e.1) h, RelOpt.getD h2 h'⟩
    (eraseL_rel hρ hσ hc h).pairs⟩
  simp only [insert]
  generalize findR c r = x at h2
  generalize findR d r' = y at h2
  cases h2 with
  | none => exact .cons h' hc.rights
  | some _ => exact hc.rights

theorem insertLeft_rel {l l' r r'} (h : ρ l l') (h' : σ r r') :
    Option.Rel ρ (insertLeft c l r).1 (insertLeft d l' r').1 ∧ (insertLeft c l r).2.Rel ρ σ (insertLeft d l' r').2 := by
  have h2 := findR_rel hρ hσ hc h'
  simp only [insertLeft]
  generalize findR c r = x at h2
  generalize findR d r' = y at h2
  cases h2 with
  | none => exact ⟨.none, hc⟩
  | some e => exact ⟨RelOpt.map (findL_rel hρ hσ hc h) fun _ _ e => e.1,
      hc.rights, .cons ⟨h, e⟩ (eraseL_rel hρ hσ hc h).pairs⟩

theorem insertRight_rel {r r'} (h : σ r r') :
    Option.Rel (BothRel (Matches ρ) σ) (insertRight c r).1 (insertRight d r').1 ∧
    (insertRight c r).2.Rel ρ σ (insertRight d r').2 :=
  ⟨entryR_rel hρ hσ hc h, .cons h (eraseR_rel hρ hσ hc h).rights, (eraseR_rel hρ hσ hc h).pairs⟩

theorem insertRemove_rel {l l' r r'} (h : ρ l l') (h' : σ r r') :
    Option.Rel ρ (insertRemove c l r).1.1 (insertRemove d l' r').1.1 ∧
    Option.Rel (BothRel (Matches ρ) σ) (insertRemove c l r).1.2 (insertRemove d l' r').1.2 ∧
    (insertRemove c l r).2.Rel ρ σ (insertRemove d l' r').2 := by
  have h1 := eraseL_rel hρ hσ hc h
  have h2 := eraseR_rel hρ hσ h1 h'
  exact ⟨RelOpt.map (findL_rel hρ hσ hc h) fun _ _ e => e.1, entryR_rel hρ hσ h1 h',
    .cons h' h2.rights, .cons ⟨h, h'⟩ h2.pairs⟩

theorem pair_rel {l l' r r'} (h : ρ l l') (h' : σ r r') :
    (pair c l r).1 = (pair d l' r').1 ∧ (pair c l r).2.Rel ρ σ (pair d l' r').2 := by
  have h1 := findL_rel hρ hσ hc h
  have h2 := findR_rel hρ hσ hc h'
  simp only [pair]
  generalize findL c l = x at h1
  generalize findL d l' = x' at h1
  generalize findR c r = y at h2
  generalize findR d r' = y' at h2
  cases h1 with
  | none => exact ⟨rfl, hc⟩
  | some h1 =>
    cases h2 with
    | none => exact ⟨rfl, hc⟩
    | some h2 => exact ⟨rfl, hc.rights, .cons ⟨h1.1, h2⟩ (eraseL_rel hρ hσ hc h).pairs⟩

theorem remove_rel {l l' r r'} (h : ρ l l') (h' : σ r r') :
    Option.Rel (BothRel (Matches ρ) σ) (remove c l r).1 (remove d l' r').1 ∧
    (remove c l r).2.Rel ρ σ (remove d l' r').2 := by
  simp only [remove, hasPair_rel hρ hσ hc h h']
  split
  · exact ⟨entryR_rel hρ hσ hc h', eraseR_rel hρ hσ hc h'⟩
  · exact ⟨.none, hc⟩

theorem moveAll_rel {a a' b b'} (h : σ a a') (h' : σ b b') :
    List.Forall₂ (BothRel ρ σ) (moveAll c a b) (moveAll d a' b') := by
  refine Rel₂.map hc.pairs fun p q e => ?_
  rw [hσ _ _ _ _ h e.2]
  split
  · exact ⟨e.1, h'⟩
  · exact e

theorem swapRight_rel {a a' b b'} (h : σ a a') (h' : σ b b') : (swapRight c a b).Rel ρ σ (swapRight d a' b') := by
  have h2 := findR_rel hρ hσ hc h
  simp only [swapRight]
  generalize findR c a = x at h2
  generalize findR d a' = y at h2
  cases h2 with
  | none => exact (insertRight_rel hρ hσ hc h').2
  | some _ => exact ⟨.cons h' hc.rights, moveAll_rel hρ hσ hc h h'⟩

theorem swapRightRemove_rel {a a' b b'} (h : σ a a') (h' : σ b b') :
    Option.Rel σ (swapRightRemove c a b).1 (swapRightRemove d a' b').1 ∧
    (swapRightRemove c a b).2.Rel ρ σ (swapRightRemove d a' b').2 := by
  have h2 := findR_rel hρ hσ hc h
  simp only [swapRightRemove]
  generalize findR c a = x at h2
  generalize findR d a' = y at h2
  cases h2 with
  | none => exact ⟨.none, (insertRight_rel hρ hσ hc h').2⟩
  | some e => exact ⟨.some e, .cons h' (eraseR_rel hρ hσ hc h).rights, moveAll_rel hρ hσ hc h h'⟩

omit hc in
theorem insertAll_rel {xs : List (Option L × R)} {ys : List (Option L' × R')}
    (h : List.Forall₂ (BothRel (Option.Rel ρ) σ) xs ys) :
    ∀ {c : Contents L R} {d : Contents L' R'}, c.Rel ρ σ d →
      (insertAll c xs).Rel ρ σ (insertAll d ys) ∧ (NewPairs c xs → NewPairs d ys) := by
  induction h with
  | nil => exact fun h => ⟨h, id⟩
  | @cons x y _ _ e _ ih =>
    obtain ⟨xl, xr⟩ := x
    obtain ⟨yl, yr⟩ := y
    obtain ⟨e1, e2⟩ := e
    intro c d hc
    dsimp only at e1 e2
    cases e1 with
    | none => exact ih (insertRight_rel hρ hσ hc e2).2
    | some e1 =>
      have := ih (insert_rel hρ hσ hc e1 e2)
      exact ⟨this.1, fun h => ⟨(hasPair_rel hρ hσ hc e1 e2).symm.trans h.1, this.2 h.2⟩⟩

/-- Safety carries over to related contents. -/
theorem safe_rel {op : Op L R} {op' : Op L' R'} (ho : RelOp ρ σ op op') (hs : Safe c op) : Safe d op' := by
  cases ho with
  | insert h1 h2 => exact (hasPair_rel hρ hσ hc h1 h2).symm.trans hs
  | swapRight h1 h2 =>
    rcases hs with hs | ⟨hs, hs'⟩
    · exact .inl ((RelOpt.eq_none (findR_rel hρ hσ hc h1)).1 hs)
    · exact .inr ⟨(hasGroup_rel hρ hσ hc h1).symm.trans hs, (RelOpt.eq_none (findR_rel hρ hσ hc h2)).1 hs'⟩
  | swapRightRemove h1 h2 =>
    rcases hs with hs | ⟨hs, hs'⟩
    · exact .inl ((RelOpt.eq_none (findR_rel hρ hσ hc h1)).1 hs)
    · refine .inr ⟨(hasGroup_rel hρ hσ hc h1).symm.trans hs, ?_⟩
      rcases hs' with hs' | hs'
      · exact .inl ((RelOpt.eq_none (findR_rel hρ hσ hc h2)).1 hs')
      · exact .inr ((hσ _ _ _ _ h1 h2).symm.trans hs')
  | @retainPaired _ _ f f' s s' hf =>
    intro q hq t
    obtain ⟨p, hp, e⟩ := Rel₂.mem' hc.pairs hq
    rw [← hf s t _ _ _ _ e.1 e.2]
    exact hs p hp s
  | extend h1 => exact (insertAll_rel hρ hσ (Rel₂.map h1 fun _ _ e => ⟨.some e.1, e.2⟩) hc).2 hs
  | extendOpt h1 => exact (insertAll_rel hρ hσ h1 hc).2 hs
  | clone _ _ h3 h4 => exact ⟨h3, h4⟩
  | _ => trivial

/-- Related calls on related contents: related results, related contents. -/
theorem step_rel {op : Op L R} {op' : Op L' R'} (ho : RelOp ρ σ op op') {o : Out L R} {o' : Out L' R'}
    {c₁ : Contents L R} {d₁ : Contents L' R'} (h : Step c op o c₁) (h' : Step d op' o' d₁) :
    RelOut ρ σ o o' ∧ c₁.Alike ρ σ d₁ := by
  cases ho with
  | insert h1 h2 =>
    obtain ⟨rfl, rfl⟩ := h; obtain ⟨rfl, rfl⟩ := h'
    exact ⟨.unit, (insert_rel hρ hσ hc h1 h2).alike⟩
  | insertRemove h1 h2 =>
    obtain ⟨g, hg, rfl, rfl⟩ := h; obtain ⟨g', hg', rfl, rfl⟩ := h'
    have := insertRemove_rel hρ hσ hc h1 h2
    exact ⟨.leftAndGroup this.1 (hg.rel hg' this.2.1), this.2.2.alike⟩
  | insertLeft h1 h2 =>
    obtain ⟨rfl, rfl⟩ := h; obtain ⟨rfl, rfl⟩ := h'
    have := insertLeft_rel hρ hσ hc h1 h2
    exact ⟨.left this.1, this.2.alike⟩
  | insertRight h1 =>
    obtain ⟨g, hg, rfl, rfl⟩ := h; obtain ⟨g', hg', rfl, rfl⟩ := h'
    have := insertRight_rel hρ hσ hc h1
    exact ⟨.group (hg.rel hg' this.1), this.2.alike⟩
  | swapRight h1 h2 =>
    obtain ⟨rfl, rfl⟩ := h; obtain ⟨rfl, rfl⟩ := h'
    exact ⟨.unit, (swapRight_rel hρ hσ hc h1 h2).alike⟩
  | swapRightRemove h1 h2 =>
    obtain ⟨rfl, rfl⟩ := h; obtain ⟨rfl, rfl⟩ := h'
    have := swapRightRemove_rel hρ hσ hc h1 h2
    exact ⟨.right this.1, this.2.alike⟩
  | pair h1 h2 =>
    obtain ⟨rfl, rfl⟩ := h; obtain ⟨rfl, rfl⟩ := h'
    have := pair_rel hρ hσ hc h1 h2
    rw [this.1]
    exact ⟨.bool, this.2.alike⟩
  | remove h1 h2 =>
    obtain ⟨g, hg, rfl, rfl⟩ := h; obtain ⟨g', hg', rfl, rfl⟩ := h'
    have := remove_rel hρ hσ hc h1 h2
    exact ⟨.group (hg.rel hg' this.1), this.2.alike⟩
  | removeLeft h1 =>
    obtain ⟨rfl, rfl⟩ := h; obtain ⟨rfl, rfl⟩ := h'
    exact ⟨.left (RelOpt.map (findL_rel hρ hσ hc h1) fun _ _ e => e.1), (eraseL_rel hρ hσ hc h1).alike⟩
  | removeRight h1 =>
    obtain ⟨g, hg, rfl, rfl⟩ := h; obtain ⟨g', hg', rfl, rfl⟩ := h'
    exact ⟨.group (hg.rel hg' (entryR_rel hρ hσ hc h1)), (eraseR_rel hρ hσ hc h1).alike⟩
  | getRight h1 =>
    obtain ⟨rfl, rfl⟩ := h; obtain ⟨rfl, rfl⟩ := h'
    exact ⟨.right (RelOpt.map (findL_rel hρ hσ hc h1) fun _ _ e => e.2), hc.alike⟩
  | getLeftIter h1 =>
    obtain ⟨g, hg, rfl, rfl⟩ := h; obtain ⟨g', hg', rfl, rfl⟩ := h'
    exact ⟨.leftsOf (RelOpt.map (findR_rel hρ hσ hc h1) fun _ _ _ => .of_perm (group_rel hρ hσ hc h1) hg hg'), hc.alike⟩
  | containsLeft h1 =>
    obtain ⟨rfl, rfl⟩ := h; obtain ⟨rfl, rfl⟩ := h'
    rw [Rel₂.any hc.pairs fun _ _ e => hρ _ _ _ _ h1 e.1]
    exact ⟨.bool, hc.alike⟩
  | containsRight h1 =>
    obtain ⟨rfl, rfl⟩ := h; obtain ⟨rfl, rfl⟩ := h'
    rw [Rel₂.any hc.rights fun _ _ e => hσ _ _ _ _ h1 e]
    exact ⟨.bool, hc.alike⟩
  | isRightPaired h1 =>
    obtain ⟨rfl, rfl⟩ := h; obtain ⟨rfl, rfl⟩ := h'
    rw [hasGroup_rel hρ hσ hc h1]
    exact ⟨.bool, hc.alike⟩
  | arePaired h1 h2 =>
    obtain ⟨rfl, rfl⟩ := h; obtain ⟨rfl, rfl⟩ := h'
    rw [hasPair_rel hρ hσ hc h1 h2]
    exact ⟨.bool, hc.alike⟩
  | lenLeft =>
    obtain ⟨rfl, rfl⟩ := h; obtain ⟨rfl, rfl⟩ := h'
    rw [hc.pairs.length_eq]
    exact ⟨.nat, hc.alike⟩
  | lenRight =>
    obtain ⟨rfl, rfl⟩ := h; obtain ⟨rfl, rfl⟩ := h'
    rw [hc.rights.length_eq]
    exact ⟨.nat, hc.alike⟩
  | isEmpty =>
    obtain ⟨rfl, rfl⟩ := h; obtain ⟨rfl, rfl⟩ := h'
    rw [Rel₂.isEmpty hc.rights]
    exact ⟨.bool, hc.alike⟩
  | clear =>
    obtain ⟨rfl, rfl⟩ := h; obtain ⟨rfl, rfl⟩ := h'
    exact ⟨.unit, .of .nil, .of .nil⟩
  | iter =>
    obtain ⟨x, hx, rfl, rfl⟩ := h; obtain ⟨y, hy, rfl, rfl⟩ := h'
    exact ⟨.entries (.of_perm (entries_rel hρ hσ hc) hx hy), hc.alike⟩
  | iterPaired =>
    obtain ⟨x, hx, rfl, rfl⟩ := h; obtain ⟨y, hy, rfl, rfl⟩ := h'
    exact ⟨.pairs (.of_perm hc.pairs hx hy), hc.alike⟩
  | iterUnpaired =>
    obtain ⟨x, hx, rfl, rfl⟩ := h; obtain ⟨y, hy, rfl, rfl⟩ := h'
    exact ⟨.rights (.of_perm (lone_rel hρ hσ hc) hx hy), hc.alike⟩
  | iterLeft =>
    obtain ⟨x, hx, rfl, rfl⟩ := h; obtain ⟨y, hy, rfl, rfl⟩ := h'
    exact ⟨.lefts (.of_perm (Rel₂.map hc.pairs fun _ _ e => e.1) hx hy), hc.alike⟩
  | iterRight =>
    obtain ⟨x, hx, rfl, rfl⟩ := h; obtain ⟨y, hy, rfl, rfl⟩ := h'
    exact ⟨.rights (.of_perm hc.rights hx hy), hc.alike⟩
  | retainPaired hf =>
    obtain ⟨x, hx, rfl, rfl⟩ := h; obtain ⟨y, hy, rfl, rfl⟩ := h'
    have hf' := fun t t' (a : L × R) (b : L' × R') (e : BothRel ρ σ a b) => hf t t' a.1 b.1 a.2 b.2 e.1 e.2
    exact ⟨.unit, .of hc.rights, (split_rel hc.pairs hx hy _ _ hf').2⟩
  | retainUnpaired hf =>
    obtain ⟨x, hx, rfl, rfl⟩ := h; obtain ⟨y, hy, rfl, rfl⟩ := h'
    exact ⟨.unit, (split_rel (lone_rel hρ hσ hc) hx hy _ _ hf).2.append
      (.of (Rel₂.filter hc.rights fun _ _ e => hasGroup_rel hρ hσ hc e)), .of hc.pairs⟩
  | extend h1 =>
    obtain ⟨rfl, rfl⟩ := h; obtain ⟨rfl, rfl⟩ := h'
    exact ⟨.unit, (insertAll_rel hρ hσ (Rel₂.map h1 fun _ _ e => ⟨.some e.1, e.2⟩) hc).1.alike⟩
  | extendOpt h1 =>
    obtain ⟨rfl, rfl⟩ := h; obtain ⟨rfl, rfl⟩ := h'
    exact ⟨.unit, (insertAll_rel hρ hσ h1 hc).1.alike⟩
  | clone h1 h2 _ _ =>
    obtain ⟨rfl, rfl⟩ := h; obtain ⟨rfl, rfl⟩ := h'
    exact ⟨.unit, .of (Rel₂.map hc.rights fun _ _ e => h2 _ _ e),
      .of (Rel₂.map hc.pairs fun _ _ e => ⟨h1 _ _ e.1, h2 _ _ e.2⟩)⟩
end

end Verif.GroupSpec
