import Verif.Optionals
import Mathlib.Data.List.Perm.Basic
/-!
Relations between items lifted to lists, optional items and optional pairs, and what list functions do to related
lists.  Used to state and prove that the maps look at their items only through `==` (C146).
-/
namespace Verif
variable {α β γ δ : Type}

/-- the two lists have related elements, in some order -/
def Matches (r : α → β → Prop) (as : List α) (bs : List β) : Prop := ∃ e, e.Perm bs ∧ List.Forall₂ r as e

/-- the relation preserves and reflects `==` -/
def Keeps [BEq α] [BEq β] (r : α → β → Prop) : Prop :=
  ∀ x x' y y', r x x' → r y y' → (x == y) = (x' == y')

/-- both components are related -/
def BothRel (r : α → β → Prop) (s : γ → δ → Prop) (p : α × γ) (q : β × δ) : Prop := r p.1 q.1 ∧ s p.2 q.2

/-- the same components are there, and they are related -/
inductive OptionalPair.Rel (r : α → β → Prop) (s : γ → δ → Prop) : OptionalPair α γ → OptionalPair β δ → Prop
  | neither : Rel r s .neither .neither
  | left {a b} : r a b → Rel r s (.someLeft a) (.someLeft b)
  | right {a b} : s a b → Rel r s (.someRight a) (.someRight b)
  | both {a b c d} : r a b → s c d → Rel r s (.someBoth a c) (.someBoth b d)

variable {r : α → β → Prop} {s : γ → δ → Prop} {as : List α} {bs : List β}

theorem Keeps.eq {α : Type} [BEq α] [EquivBEq α] : Keeps fun x y : α => (x == y) = true := by
  intro x x' y y' h1 h2
  rw [Bool.eq_iff_iff]
  exact ⟨fun h => BEq.trans (BEq.symm h1) (BEq.trans h h2), fun h => BEq.trans h1 (BEq.trans h (BEq.symm h2))⟩

theorem Matches.of_perm {as' : List α} {bs' : List β} (h : List.Forall₂ r as' bs') (ha : as.Perm as')
    (hb : bs.Perm bs') : Matches r as bs := by
  obtain ⟨w, h1, h2⟩ := List.perm_comp_forall₂ ha h
  exact ⟨w, h2.trans hb.symm, h1⟩

theorem Matches.of (h : List.Forall₂ r as bs) : Matches r as bs := ⟨bs, .refl _, h⟩

theorem Rel₂.mem (h : List.Forall₂ r as bs) {a : α} (ha : a ∈ as) : ∃ b ∈ bs, r a b := by
  induction h with
  | nil => cases ha
  | cons h _ ih =>
    rcases List.mem_cons.1 ha with rfl | ha
    · exact ⟨_, by simp, h⟩
    · obtain ⟨b, hb, e⟩ := ih ha
      exact ⟨b, by simp [hb], e⟩

theorem Rel₂.mem' (h : List.Forall₂ r as bs) {b : β} (hb : b ∈ bs) : ∃ a ∈ as, r a b := by
  induction h with
  | nil => cases hb
  | cons h _ ih =>
    rcases List.mem_cons.1 hb with rfl | hb
    · exact ⟨_, by simp, h⟩
    · obtain ⟨a, ha, e⟩ := ih hb
      exact ⟨a, by simp [ha], e⟩

theorem Rel₂.any (h : List.Forall₂ r as bs) {p : α → Bool} {q : β → Bool} (hpq : ∀ a b, r a b → p a = q b) :
    as.any p = bs.any q := by
  induction h with
  | nil => rfl
  | cons h _ ih => simp only [List.any_cons, hpq _ _ h, ih]

theorem Rel₂.filter (h : List.Forall₂ r as bs) {p : α → Bool} {q : β → Bool} (hpq : ∀ a b, r a b → p a = q b) :
    List.Forall₂ r (as.filter p) (bs.filter q) := by
  induction h with
  | nil => exact .nil
  | cons h _ ih =>
    simp only [List.filter_cons, hpq _ _ h]
    split
    · exact .cons h ih
    · exact ih

theorem Rel₂.find? (h : List.Forall₂ r as bs) {p : α → Bool} {q : β → Bool} (hpq : ∀ a b, r a b → p a = q b) :
    Option.Rel r (as.find? p) (bs.find? q) := by
  induction h with
  | nil => exact .none
  | @cons a b _ _ h _ ih =>
    simp only [List.find?_cons, hpq _ _ h]
    split
    · exact .some h
    · exact ih

theorem Rel₂.map (h : List.Forall₂ r as bs) {f : α → γ} {g : β → δ} (hfg : ∀ a b, r a b → s (f a) (g b)) :
    List.Forall₂ s (as.map f) (bs.map g) := by
  induction h with
  | nil => exact .nil
  | cons h _ ih => exact .cons (hfg _ _ h) ih

theorem Rel₂.filterMap (h : List.Forall₂ r as bs) {f : α → Option γ} {g : β → Option δ}
    (hfg : ∀ a b, r a b → Option.Rel s (f a) (g b)) : List.Forall₂ s (as.filterMap f) (bs.filterMap g) := by
  induction h with
  | nil => exact .nil
  | @cons a b _ _ h _ ih =>
    have := hfg _ _ h
    simp only [List.filterMap_cons]
    generalize f a = x at this
    generalize g b = y at this
    cases this with
    | none => exact ih
    | some e => exact .cons e ih

theorem Rel₂.append {as' : List α} {bs' : List β} (h : List.Forall₂ r as bs) (h' : List.Forall₂ r as' bs') :
    List.Forall₂ r (as ++ as') (bs ++ bs') := by
  induction h with
  | nil => exact h'
  | cons h _ ih => exact .cons h ih

theorem Rel₂.isEmpty (h : List.Forall₂ r as bs) : as.isEmpty = bs.isEmpty := by cases h <;> rfl

theorem RelOpt.map {x : Option α} {y : Option β} (h : Option.Rel r x y) {f : α → γ} {g : β → δ}
    (hfg : ∀ a b, r a b → s (f a) (g b)) : Option.Rel s (x.map f) (y.map g) := by
  cases h with
  | none => exact .none
  | some h => exact .some (hfg _ _ h)

theorem RelOpt.bind {x : Option α} {y : Option β} (h : Option.Rel r x y) {f : α → Option γ} {g : β → Option δ}
    (hfg : ∀ a b, r a b → Option.Rel s (f a) (g b)) : Option.Rel s (x.bind f) (y.bind g) := by
  cases h with
  | none => exact .none
  | some h => exact hfg _ _ h

theorem RelOpt.getD {x : Option α} {y : Option β} (h : Option.Rel r x y) {a : α} {b : β} (hab : r a b) :
    r (x.getD a) (y.getD b) := by
  cases h with
  | none => exact hab
  | some h => exact h

theorem RelOpt.isSome {x : Option α} {y : Option β} (h : Option.Rel r x y) : x.isSome = y.isSome := by
  cases h <;> rfl

theorem RelOpt.eq_none {x : Option α} {y : Option β} (h : Option.Rel r x y) : x = none ↔ y = none := by
  cases h <;> simp

theorem RelOpt.ite {x x' : Option α} {y y' : Option β} {b b' : Bool} (hb : b = b') (h : Option.Rel r x y)
    (h' : Option.Rel r x' y') : Option.Rel r (if b then x else x') (if b' then y else y') := by
  subst hb; split <;> assumption

theorem RelOpt.ofPair {x : Option α} {y : Option β} {z : Option γ} {w : Option δ} (h : Option.Rel r x y)
    (h' : Option.Rel s z w) : OptionalPair.Rel r s (OptionalPair.ofPair (x, z)) (OptionalPair.ofPair (y, w)) := by
  cases h with
  | none =>
    cases h' with
    | none => exact .neither
    | some h => exact .right h
  | some h =>
    cases h' with
    | none => exact .left h
    | some h' => exact .both h h'

theorem Matches.append {as' : List α} {bs' : List β} (h : Matches r as bs) (h' : Matches r as' bs') :
    Matches r (as ++ as') (bs ++ bs') := by
  obtain ⟨e, he, h⟩ := h
  obtain ⟨e', he', h'⟩ := h'
  exact ⟨e ++ e', he.append he', Rel₂.append h h'⟩

theorem Matches.perm {as' : List α} {bs' : List β} (h : Matches r as' bs') (ha : as.Perm as') (hb : bs.Perm bs') :
    Matches r as bs := by
  obtain ⟨e, he, h⟩ := h
  exact .of_perm h ha (hb.trans he.symm)

theorem Matches.filter (h : Matches r as bs) {p : α → Bool} {q : β → Bool} (hpq : ∀ a b, r a b → p a = q b) :
    Matches r (as.filter p) (bs.filter q) := by
  obtain ⟨e, he, h⟩ := h
  exact ⟨e.filter q, he.filter _, Rel₂.filter h hpq⟩

theorem Matches.map (h : Matches r as bs) {f : α → γ} {g : β → δ} (hfg : ∀ a b, r a b → s (f a) (g b)) :
    Matches s (as.map f) (bs.map g) := by
  obtain ⟨e, he, h⟩ := h
  exact ⟨e.map g, he.map _, Rel₂.map h hfg⟩

/-- an example of items with a part that `==` and `Hash` ignore -/
structure Tagged where
  key : Nat
  tag : Nat

instance : BEq Tagged := ⟨fun a b => a.key == b.key⟩

theorem Tagged.beq_iff {a b : Tagged} : (a == b) = true ↔ a.key = b.key := beq_iff_eq (a := a.key) (b := b.key)

instance : EquivBEq Tagged where
  rfl := Tagged.beq_iff.2 rfl
  symm h := Tagged.beq_iff.2 (Tagged.beq_iff.1 h).symm
  trans h h' := Tagged.beq_iff.2 ((Tagged.beq_iff.1 h).trans (Tagged.beq_iff.1 h'))

/-- a `Clone` that does not copy the ignored part -/
def Tagged.fresh (a : Tagged) : Tagged := ⟨a.key, 0⟩

theorem Tagged.fresh_eq (a : Tagged) : (a.fresh == a) = true := Tagged.beq_iff.2 rfl

end Verif
