import Verif.Relate
import Verif.CycleMap.SpecLemmas
/-!
The list machine of `CycleMap` on related contents: related calls give related results and leave related contents.
-/
set_option linter.unusedSectionVars false
namespace Verif.CycleMap
open CycleSpec OptionalPair
variable {L R L' R' : Type}

/-- The same call on related items.  Closures answer alike on related items, whatever their states (so their
answers do not depend on the order of visits); the clone functions take related items to related items. -/
inductive RelOp [BEq L'] [BEq R'] (ρ : L → L' → Prop) (σ : R → R' → Prop) : Op L R → Op L' R' → Prop
  | insert {l r l' r'} : ρ l l' → σ r r' → RelOp ρ σ (.insert l r) (.insert l' r')
  | remove {l r l' r'} : ρ l l' → σ r r' → RelOp ρ σ (.remove l r) (.remove l' r')
  | removeViaLeft {l l'} : ρ l l' → RelOp ρ σ (.removeViaLeft l) (.removeViaLeft l')
  | removeViaRight {r r'} : σ r r' → RelOp ρ σ (.removeViaRight r) (.removeViaRight r')
  | swapLeft {a b a' b'} : ρ a a' → ρ b b' → RelOp ρ σ (.swapLeft a b) (.swapLeft a' b')
  | swapLeftChecked {a e b a' e' b'} : ρ a a' → σ e e' → ρ b b' →
      RelOp ρ σ (.swapLeftChecked a e b) (.swapLeftChecked a' e' b')
  | swapLeftOrInsert {a b r a' b' r'} : ρ a a' → ρ b b' → σ r r' →
      RelOp ρ σ (.swapLeftOrInsert a b r) (.swapLeftOrInsert a' b' r')
  | swapRight {a b a' b'} : σ a a' → σ b b' → RelOp ρ σ (.swapRight a b) (.swapRight a' b')
  | swapRightChecked {a e b a' e' b'} : σ a a' → ρ e e' → σ b b' →
      RelOp ρ σ (.swapRightChecked a e b) (.swapRightChecked a' e' b')
  | swapRightOrInsert {a b l a' b' l'} : σ a a' → σ b b' → ρ l l' →
      RelOp ρ σ (.swapRightOrInsert a b l) (.swapRightOrInsert a' b' l')
  | getLeft {r r'} : σ r r' → RelOp ρ σ (.getLeft r) (.getLeft r')
  | getRight {l l'} : ρ l l' → RelOp ρ σ (.getRight l) (.getRight l')
  | containsLeft {l l'} : ρ l l' → RelOp ρ σ (.containsLeft l) (.containsLeft l')
  | containsRight {r r'} : σ r r' → RelOp ρ σ (.containsRight r) (.containsRight r')
  | arePaired {l r l' r'} : ρ l l' → σ r r' → RelOp ρ σ (.arePaired l r) (.arePaired l' r')
  | len : RelOp ρ σ .len .len
  | isEmpty : RelOp ρ σ .isEmpty .isEmpty
  | clear : RelOp ρ σ .clear .clear
  | iter : RelOp ρ σ .iter .iter
  | iterLeft : RelOp ρ σ .iterLeft .iterLeft
  | iterRight : RelOp ρ σ .iterRight .iterRight
  | drain {n} : RelOp ρ σ (.drain n) (.drain n)
  | drainFilterAll {τ τ'} {f : τ → L → R → Bool × τ} {f' : τ' → L' → R' → Bool × τ'} {s s'} :
      (∀ t t' l l' r r', ρ l l' → σ r r' → (f t l r).1 = (f' t' l' r').1) →
      RelOp ρ σ (.drainFilterAll τ f s) (.drainFilterAll τ' f' s')
  | retain {τ τ'} {f : τ → L → R → Bool × τ} {f' : τ' → L' → R' → Bool × τ'} {s s'} :
      (∀ t t' l l' r r', ρ l l' → σ r r' → (f t l r).1 = (f' t' l' r').1) →
      RelOp ρ σ (.retain τ f s) (.retain τ' f' s')
  | extend {xs xs'} : List.Forall₂ (BothRel ρ σ) xs xs' → RelOp ρ σ (.extend xs) (.extend xs')
  | reserve {n n'} : RelOp ρ σ (.reserve n) (.reserve n')
  | tryReserve {n n' a b} : RelOp ρ σ (.tryReserve n a b) (.tryReserve n' a b)
  | shrinkTo {n n'} : RelOp ρ σ (.shrinkTo n) (.shrinkTo n')
  | shrinkToFit : RelOp ρ σ .shrinkToFit .shrinkToFit
  | clone {cl cr cl' cr'} : (∀ x x', ρ x x' → ρ (cl x) (cl' x')) → (∀ x x', σ x x' → σ (cr x) (cr' x')) →
      (∀ x, (cl' x == x) = true) → (∀ x, (cr' x == x) = true) → RelOp ρ σ (.clone cl cr) (.clone cl' cr')

/-- The same result with related items (visited items up to order). -/
inductive RelOut (ρ : L → L' → Prop) (σ : R → R' → Prop) : Out L R → Out L' R' → Prop
  | unit : RelOut ρ σ .unit .unit
  | bool {b} : RelOut ρ σ (.bool b) (.bool b)
  | nat {n} : RelOut ρ σ (.nat n) (.nat n)
  | left {o o'} : Option.Rel ρ o o' → RelOut ρ σ (.left o) (.left o')
  | right {o o'} : Option.Rel σ o o' → RelOut ρ σ (.right o) (.right o')
  | pair {o o'} : Option.Rel (BothRel ρ σ) o o' → RelOut ρ σ (.pair o) (.pair o')
  | inserted {o o'} : OptionalPair.Rel (BothRel ρ σ) (BothRel ρ σ) o o' → RelOut ρ σ (.inserted o) (.inserted o')
  | swappedLeft {o o'} : OptionalPair.Rel ρ (BothRel ρ σ) o o' → RelOut ρ σ (.swappedLeft o) (.swappedLeft o')
  | swappedRight {o o'} : OptionalPair.Rel σ (BothRel ρ σ) o o' → RelOut ρ σ (.swappedRight o) (.swappedRight o')
  | lefts {a b} : Matches ρ a b → RelOut ρ σ (.lefts a) (.lefts b)
  | rights {a b} : Matches σ a b → RelOut ρ σ (.rights a) (.rights b)
  | pairs {a b} : Matches (BothRel ρ σ) a b → RelOut ρ σ (.pairs a) (.pairs b)

end Verif.CycleMap

namespace Verif.CycleSpec
open CycleMap OptionalPair
variable {L R L' R' : Type} [BEq L] [BEq R] [BEq L'] [BEq R']

theorem split_pure_on {τ α : Type} {f : τ → α → Bool × τ} {g : α → Bool} {as : List α}
    (h : ∀ a ∈ as, ∀ s, (f s a).1 = g a) (s : τ) :
    (split f as s).1 = as.filter g ∧ (split f as s).2.1 = as.filter fun a => !g a := by
  induction as generalizing s with
  | nil => exact ⟨rfl, rfl⟩
  | cons a as ih =>
    have ha := h a (by simp) s
    have ih := ih (fun a ha => h a (by simp [ha]))
    simp only [split]
    cases hf : f s a with
    | mk b s' =>
      rw [hf] at ha
      cases b <;> simp [← ha, ih s']

/-- Splitting related lists, visited in any orders, by closures that answer alike. -/
theorem split_rel {α β τ τ' : Type} {r : α → β → Prop} {f : τ → α → Bool × τ} {f' : τ' → β → Bool × τ'}
    {c d : List α} {c' d' : List β} (hc : List.Forall₂ r c c') (hd : d.Perm c) (hd' : d'.Perm c') (s : τ) (s' : τ')
    (hf : ∀ t t' a b, r a b → (f t a).1 = (f' t' b).1) :
    Matches r (split f d s).1 (split f' d' s').1 ∧ Matches r (split f d s).2.1 (split f' d' s').2.1 := by
  have e := split_pure_on (f := f) (g := fun a => (f s a).1) (as := d) (fun a ha t => by
    obtain ⟨b, _, hab⟩ := Rel₂.mem hc (hd.mem_iff.1 ha)
    rw [hf t s' a b hab, hf s s' a b hab]) s
  have e' := split_pure_on (f := f') (g := fun b => (f' s' b).1) (as := d') (fun b hb t => by
    obtain ⟨a, _, hab⟩ := Rel₂.mem' hc (hd'.mem_iff.1 hb)
    rw [← hf s t a b hab, ← hf s s' a b hab]) s'
  rw [e.1, e.2, e'.1, e'.2]
  exact ⟨.of_perm (Rel₂.filter hc fun a b h => hf s s' a b h) (hd.filter _) (hd'.filter _),
    .of_perm (Rel₂.filter hc fun a b h => by rw [hf s s' a b h]) (hd.filter _) (hd'.filter _)⟩

/-- The same for lists related in some order. -/
theorem split_matches {α β τ τ' : Type} {r : α → β → Prop} {f : τ → α → Bool × τ} {f' : τ' → β → Bool × τ'}
    {d : List α} {d' : List β} (h : Matches r d d') (s : τ) (s' : τ') (hf : ∀ t t' a b, r a b → (f t a).1 = (f' t' b).1) :
    Matches r (split f d s).1 (split f' d' s').1 ∧ Matches r (split f d s).2.1 (split f' d' s').2.1 := by
  obtain ⟨e, he, h⟩ := h
  exact split_rel h (.refl _) he.symm s s' hf

section
variable {ρ : L → L' → Prop} {σ : R → R' → Prop} {c : List (L × R)} {d : List (L' × R')}
variable (hρ : Keeps ρ) (hσ : Keeps σ) (hc : List.Forall₂ (BothRel ρ σ) c d)
include hρ hσ hc

theorem findL_rel {l l'} (h : ρ l l') : Option.Rel (BothRel ρ σ) (findL c l) (findL d l') :=
  Rel₂.find? hc fun _ _ e => hρ _ _ _ _ h e.1

theorem findR_rel {r r'} (h : σ r r') : Option.Rel (BothRel ρ σ) (findR c r) (findR d r') :=
  Rel₂.find? hc fun _ _ e => hσ _ _ _ _ h e.2

theorem eraseL_rel {l l'} (h : ρ l l') : List.Forall₂ (BothRel ρ σ) (eraseL c l) (eraseL d l') :=
  Rel₂.filter hc fun _ _ e => by rw [hρ _ _ _ _ h e.1]

theorem eraseR_rel {r r'} (h : σ r r') : List.Forall₂ (BothRel ρ σ) (eraseR c r) (eraseR d r') :=
  Rel₂.filter hc fun _ _ e => by rw [hσ _ _ _ _ h e.2]

theorem hasPair_rel {l l' r r'} (h : ρ l l') (h' : σ r r') : hasPair c l r = hasPair d l' r' :=
  Rel₂.any hc fun _ _ e => by rw [hρ _ _ _ _ h e.1, hσ _ _ _ _ h' e.2]

theorem insert_rel {l l' r r'} (h : ρ l l') (h' : σ r r') :
    OptionalPair.Rel (BothRel ρ σ) (BothRel ρ σ) (insert c l r).1 (insert d l' r').1 ∧
    List.Forall₂ (BothRel ρ σ) (insert c l r).2 (insert d l' r').2 :=
  ⟨RelOpt.ofPair (findL_rel hρ hσ hc h) (RelOpt.ite (hasPair_rel hρ hσ hc h h') .none (findR_rel hρ hσ hc h')),
   .cons ⟨h, h'⟩ (Rel₂.filter hc fun _ _ e => by rw [hρ _ _ _ _ h e.1, hσ _ _ _ _ h' e.2])⟩

theorem swapLeft_rel {a a' b b'} (h : ρ a a') (h' : ρ b b') :
    OptionalPair.Rel ρ (BothRel ρ σ) (swapLeft c a b).1 (swapLeft d a' b').1 ∧
    List.Forall₂ (BothRel ρ σ) (swapLeft c a b).2 (swapLeft d a' b').2 := by
  have hf := findL_rel hρ hσ hc h
  simp only [swapLeft]
  generalize findL c a = x at hf
  generalize findL d a' = y at hf
  cases hf with
  | none => exact ⟨.neither, eraseL_rel hρ hσ hc h'⟩
  | some e =>
    exact ⟨RelOpt.ofPair (.some e.1) (RelOpt.ite (hρ _ _ _ _ h' h) .none (findL_rel hρ hσ hc h')),
      .cons ⟨h', e.2⟩ (Rel₂.filter hc fun _ _ e => by rw [hρ _ _ _ _ h e.1, hρ _ _ _ _ h' e.1])⟩

theorem swapRight_rel {a a' b b'} (h : σ a a') (h' : σ b b') :
    OptionalPair.Rel σ (BothRel ρ σ) (swapRight c a b).1 (swapRight d a' b').1 ∧
    List.Forall₂ (BothRel ρ σ) (swapRight c a b).2 (swapRight d a' b').2 := by
  have hf := findR_rel hρ hσ hc h
  simp only [swapRight]
  generalize findR c a = x at hf
  generalize findR d a' = y at hf
  cases hf with
  | none => exact ⟨.neither, eraseR_rel hρ hσ hc h'⟩
  | some e =>
    exact ⟨RelOpt.ofPair (.some e.2) (RelOpt.ite (hσ _ _ _ _ h' h) .none (findR_rel hρ hσ hc h')),
      .cons ⟨e.1, h'⟩ (Rel₂.filter hc fun _ _ e => by rw [hσ _ _ _ _ h e.2, hσ _ _ _ _ h' e.2])⟩

omit hc in
theorem insertAll_rel {xs : List (L × R)} {ys : List (L' × R')} (h : List.Forall₂ (BothRel ρ σ) xs ys) :
    ∀ {c : List (L × R)} {d : List (L' × R')}, List.Forall₂ (BothRel ρ σ) c d →
      List.Forall₂ (BothRel ρ σ) (insertAll c xs) (insertAll d ys) := by
  induction h with
  | nil => exact id
  | cons e _ ih => exact fun hc => ih (insert_rel hρ hσ hc e.1 e.2).2

/-- Safety carries over to related contents. -/
theorem safe_rel {op : Op L R} {op' : Op L' R'} (ho : RelOp ρ σ op op') (hs : Safe c op) : Safe d op' := by
  cases ho with
  | drain => exact Nat.le_trans (Nat.le_of_eq hc.length_eq.symm) hs
  | swapRightOrInsert h1 h2 h3 =>
    rcases hs with hs | hs
    · exact .inl ((RelOpt.isSome (findR_rel hρ hσ hc h1)) ▸ hs)
    · exact .inr ((RelOpt.eq_none (findL_rel hρ hσ hc h3)).1 hs)
  | clone _ _ h3 h4 => exact ⟨h3, h4⟩
  | _ => trivial

/-- Related calls on related contents: related results, related contents. -/
theorem step_rel {op : Op L R} {op' : Op L' R'} (ho : RelOp ρ σ op op') {o : Out L R} {o' : Out L' R'}
    {c₁ : List (L × R)} {d₁ : List (L' × R')} (h : Step c op o c₁) (h' : Step d op' o' d₁) :
    RelOut ρ σ o o' ∧ Matches (BothRel ρ σ) c₁ d₁ := by
  cases ho with
  | insert h1 h2 =>
    obtain ⟨rfl, rfl⟩ := h; obtain ⟨rfl, rfl⟩ := h'
    have := insert_rel hρ hσ hc h1 h2
    exact ⟨.inserted this.1, .of this.2⟩
  | remove h1 h2 =>
    obtain ⟨rfl, rfl⟩ := h; obtain ⟨rfl, rfl⟩ := h'
    have hp := hasPair_rel hρ hσ hc h1 h2
    refine ⟨.pair (RelOpt.ite hp (findL_rel hρ hσ hc h1) .none), ?_⟩
    rw [hp]
    split
    · exact .of (eraseL_rel hρ hσ hc h1)
    · exact .of hc
  | removeViaLeft h1 =>
    obtain ⟨rfl, rfl⟩ := h; obtain ⟨rfl, rfl⟩ := h'
    exact ⟨.pair (findL_rel hρ hσ hc h1), .of (eraseL_rel hρ hσ hc h1)⟩
  | removeViaRight h1 =>
    obtain ⟨rfl, rfl⟩ := h; obtain ⟨rfl, rfl⟩ := h'
    exact ⟨.pair (findR_rel hρ hσ hc h1), .of (eraseR_rel hρ hσ hc h1)⟩
  | swapLeft h1 h2 =>
    obtain ⟨rfl, rfl⟩ := h; obtain ⟨rfl, rfl⟩ := h'
    have := swapLeft_rel hρ hσ hc h1 h2
    exact ⟨.swappedLeft this.1, .of this.2⟩
  | swapRight h1 h2 =>
    obtain ⟨rfl, rfl⟩ := h; obtain ⟨rfl, rfl⟩ := h'
    have := swapRight_rel hρ hσ hc h1 h2
    exact ⟨.swappedRight this.1, .of this.2⟩
  | swapLeftChecked h1 h2 h3 =>
    simp only [Step, hasPair_rel hρ hσ hc h1 h2] at h h'
    split at h
    · rename_i hb; rw [if_pos hb] at h'
      obtain ⟨rfl, rfl⟩ := h; obtain ⟨rfl, rfl⟩ := h'
      have := swapLeft_rel hρ hσ hc h1 h3
      exact ⟨.swappedLeft this.1, .of this.2⟩
    · rename_i hb; rw [if_neg hb] at h'
      obtain ⟨rfl, rfl⟩ := h; obtain ⟨rfl, rfl⟩ := h'
      exact ⟨.swappedLeft .neither, .of hc⟩
  | swapRightChecked h1 h2 h3 =>
    simp only [Step, hasPair_rel hρ hσ hc h2 h1] at h h'
    split at h
    · rename_i hb; rw [if_pos hb] at h'
      obtain ⟨rfl, rfl⟩ := h; obtain ⟨rfl, rfl⟩ := h'
      have := swapRight_rel hρ hσ hc h1 h3
      exact ⟨.swappedRight this.1, .of this.2⟩
    · rename_i hb; rw [if_neg hb] at h'
      obtain ⟨rfl, rfl⟩ := h; obtain ⟨rfl, rfl⟩ := h'
      exact ⟨.swappedRight .neither, .of hc⟩
  | swapLeftOrInsert h1 h2 h3 =>
    simp only [Step, RelOpt.isSome (findL_rel hρ hσ hc h1)] at h h'
    split at h
    · rename_i hb; rw [if_pos hb] at h'
      obtain ⟨rfl, rfl⟩ := h; obtain ⟨rfl, rfl⟩ := h'
      have := swapLeft_rel hρ hσ hc h1 h2
      exact ⟨.swappedLeft this.1, .of this.2⟩
    · rename_i hb; rw [if_neg hb] at h'
      obtain ⟨rfl, rfl⟩ := h; obtain ⟨rfl, rfl⟩ := h'
      have := insert_rel hρ hσ hc h2 h3
      refine ⟨.swappedLeft ?_, .of this.2⟩
      have := this.1
      revert this
      generalize (insert c _ _).1 = x
      generalize (insert d _ _).1 = y
      intro this
      cases this with
      | neither => exact .neither
      | left e => exact .left e.1
      | right e => exact .right e
      | both e e' => exact .both e.1 e'
  | swapRightOrInsert h1 h2 h3 =>
    simp only [Step, RelOpt.isSome (findR_rel hρ hσ hc h1)] at h h'
    split at h
    · rename_i hb; rw [if_pos hb] at h'
      obtain ⟨rfl, rfl⟩ := h; obtain ⟨rfl, rfl⟩ := h'
      have := swapRight_rel hρ hσ hc h1 h2
      exact ⟨.swappedRight this.1, .of this.2⟩
    · rename_i hb; rw [if_neg hb] at h'
      obtain ⟨_, rfl, rfl⟩ := h; obtain ⟨_, rfl, rfl⟩ := h'
      exact ⟨.swappedRight (RelOpt.ofPair .none (findR_rel hρ hσ hc h2)), .of (insert_rel hρ hσ hc h3 h2).2⟩
  | getLeft h1 =>
    obtain ⟨rfl, rfl⟩ := h; obtain ⟨rfl, rfl⟩ := h'
    exact ⟨.left (RelOpt.map (findR_rel hρ hσ hc h1) fun _ _ e => e.1), .of hc⟩
  | getRight h1 =>
    obtain ⟨rfl, rfl⟩ := h; obtain ⟨rfl, rfl⟩ := h'
    exact ⟨.right (RelOpt.map (findL_rel hρ hσ hc h1) fun _ _ e => e.2), .of hc⟩
  | containsLeft h1 =>
    obtain ⟨rfl, rfl⟩ := h; obtain ⟨rfl, rfl⟩ := h'
    rw [Rel₂.any hc fun _ _ e => hρ _ _ _ _ h1 e.1]
    exact ⟨.bool, .of hc⟩
  | containsRight h1 =>
    obtain ⟨rfl, rfl⟩ := h; obtain ⟨rfl, rfl⟩ := h'
    rw [Rel₂.any hc fun _ _ e => hσ _ _ _ _ h1 e.2]
    exact ⟨.bool, .of hc⟩
  | arePaired h1 h2 =>
    obtain ⟨rfl, rfl⟩ := h; obtain ⟨rfl, rfl⟩ := h'
    rw [hasPair_rel hρ hσ hc h1 h2]
    exact ⟨.bool, .of hc⟩
  | len =>
    obtain ⟨rfl, rfl⟩ := h; obtain ⟨rfl, rfl⟩ := h'
    rw [hc.length_eq]
    exact ⟨.nat, .of hc⟩
  | isEmpty =>
    obtain ⟨rfl, rfl⟩ := h; obtain ⟨rfl, rfl⟩ := h'
    rw [Rel₂.isEmpty hc]
    exact ⟨.bool, .of hc⟩
  | clear =>
    obtain ⟨rfl, rfl⟩ := h; obtain ⟨rfl, rfl⟩ := h'
    exact ⟨.unit, .of .nil⟩
  | iter =>
    obtain ⟨x, hx, rfl, rfl⟩ := h; obtain ⟨y, hy, rfl, rfl⟩ := h'
    exact ⟨.pairs (.of_perm hc hx hy), .of hc⟩
  | iterLeft =>
    obtain ⟨x, hx, rfl, rfl⟩ := h; obtain ⟨y, hy, rfl, rfl⟩ := h'
    exact ⟨.lefts (.of_perm (Rel₂.map hc fun _ _ e => e.1) hx hy), .of hc⟩
  | iterRight =>
    obtain ⟨x, hx, rfl, rfl⟩ := h; obtain ⟨y, hy, rfl, rfl⟩ := h'
    exact ⟨.rights (.of_perm (Rel₂.map hc fun _ _ e => e.2) hx hy), .of hc⟩
  | drain =>
    obtain ⟨_, x, hx, rfl, rfl⟩ := h; obtain ⟨_, y, hy, rfl, rfl⟩ := h'
    exact ⟨.pairs (.of_perm hc hx hy), .of .nil⟩
  | drainFilterAll hf =>
    obtain ⟨x, hx, rfl, rfl⟩ := h; obtain ⟨y, hy, rfl, rfl⟩ := h'
    have hf := fun t t' (a : L × R) (b : L' × R') (e : BothRel ρ σ a b) => hf t t' a.1 b.1 a.2 b.2 e.1 e.2
    exact ⟨.pairs (split_rel hc hx hy _ _ hf).1, (split_rel hc hx hy _ _ hf).2⟩
  | retain hf =>
    obtain ⟨x, hx, rfl, rfl⟩ := h; obtain ⟨y, hy, rfl, rfl⟩ := h'
    have hf := fun t t' (a : L × R) (b : L' × R') (e : BothRel ρ σ a b) => hf t t' a.1 b.1 a.2 b.2 e.1 e.2
    exact ⟨.unit, (split_rel hc hx hy _ _ hf).1⟩
  | extend h1 =>
    obtain ⟨rfl, rfl⟩ := h; obtain ⟨rfl, rfl⟩ := h'
    exact ⟨.unit, .of (insertAll_rel hρ hσ h1 hc)⟩
  | tryReserve =>
    obtain ⟨rfl, rfl⟩ := h; obtain ⟨rfl, rfl⟩ := h'
    exact ⟨.bool, .of hc⟩
  | clone h1 h2 _ _ =>
    obtain ⟨rfl, rfl⟩ := h; obtain ⟨rfl, rfl⟩ := h'
    exact ⟨.unit, .of (Rel₂.map hc fun _ _ e => ⟨h1 _ _ e.1, h2 _ _ e.2⟩)⟩
  | _ =>
    obtain ⟨rfl, rfl⟩ := h; obtain ⟨rfl, rfl⟩ := h'
    exact ⟨.unit, .of hc⟩
end

end Verif.CycleSpec
