import Verif.Optionals
/-! Properties C01–C04 of `OptionalPair`. -/
namespace Verif.OptionalPair
variable {L R A B C D : Type}

/-- C01: `OptionalPair<L, R>` and `(Option<L>, Option<R>)` are in bijection. -/
theorem C01_pair_roundtrip :
    (∀ o : OptionalPair L R, ofPair (toPair o) = o) ∧ (∀ t : Option L × Option R, toPair (ofPair t) = t) :=
  ⟨fun o => by cases o <;> rfl, fun (a, b) => by cases a <;> cases b <;> rfl⟩

example : toPair (ofPair (some 3, some "x")) = (some 3, some "x") := C01_pair_roundtrip.2 _
example : ofPair ((some 3, none) : Option Nat × Option String) = someLeft 3 := rfl

/-- C02: the `Option<(Option<L>, Option<R>)>` form. -/
theorem C02_option_roundtrip :
    (∀ o : OptionalPair L R, ofOption (toOption o) = o) ∧
    (∀ t : Option (Option L × Option R), t ≠ some (none, none) → toOption (ofOption t) = t) ∧
    toOption (ofOption (some ((none, none) : Option L × Option R))) = none ∧
    (∀ o : OptionalPair L R, toOption o = none ↔ o = neither) := by
  refine ⟨fun o => by cases o <;> rfl, ?_, rfl, fun o => by cases o <;> simp [toOption]⟩
  rintro (_ | ⟨_ | a, _ | b⟩) h <;> first | rfl | exact absurd rfl h

example : toOption (ofOption (some (some 3, some "x"))) = some (some 3, some "x") :=
  C02_option_roundtrip.2.1 _ (by simp)

/-- C03: the accessors read the tuple form. -/
theorem C03_accessors [BEq L] [BEq R] (o : OptionalPair L R) :
    o.getLeft = (toPair o).1 ∧ o.getRight = (toPair o).2 ∧
    (o.isNone = true ↔ (toPair o).1 = none ∧ (toPair o).2 = none) ∧ o.isSome = !o.isNone := by
  cases o <;> simp [OptionalPair.getLeft, OptionalPair.getRight, toPair, isNone, isSome, beq]

example : (someBoth 1 2 : OptionalPair Nat Nat).getRight = some 2 ∧
    (someBoth 1 2 : OptionalPair Nat Nat).isSome = true := ⟨rfl, rfl⟩

/-- C03: `==` compares the tuple forms componentwise, and is an equivalence relation if `==` of the items is. -/
theorem C03_eq [BEq L] [BEq R] [EquivBEq L] [EquivBEq R] :
    (∀ o p : OptionalPair L R, beq o p = ((toPair o).1 == (toPair p).1 && (toPair o).2 == (toPair p).2)) ∧
    (∀ o : OptionalPair L R, beq o o = true) ∧ (∀ o p : OptionalPair L R, beq o p = true → beq p o = true) ∧
    (∀ o p q : OptionalPair L R, beq o p = true → beq p q = true → beq o q = true) := by
  refine ⟨fun o p => ?_, fun o => ?_, fun o p => ?_, fun o p q => ?_⟩
  · cases o <;> cases p <;> simp [beq, toPair]
  · cases o <;> simp [beq]
  · cases o <;> cases p <;> simp [beq] <;> intros <;> simp_all [BEq.comm]
  · cases o <;> cases p <;> cases q <;> simp only [beq, Bool.false_eq_true, false_implies, implies_true, Bool.and_eq_true]
    · exact BEq.trans
    · exact BEq.trans
    · exact fun h h' => ⟨BEq.trans h.1 h'.1, BEq.trans h.2 h'.2⟩

example : beq (someBoth 1 2) (someBoth 1 3) = false ∧ beq (someBoth 1 2) (someBoth 1 2 : OptionalPair Nat Nat) = true := ⟨rfl, rfl⟩

/-- C04: the mapping functions act on each component as `Option::map`, and obey the functor laws. -/
theorem C04_mapping (o : OptionalPair L R) (f : L → A) (g : R → B) (f' : A → C) (g' : B → D) :
    toPair (o.map f g) = ((toPair o).1.map f, (toPair o).2.map g) ∧
    toPair (o.mapLeft f) = ((toPair o).1.map f, (toPair o).2) ∧
    toPair (o.mapRight g) = ((toPair o).1, (toPair o).2.map g) ∧
    toPair (o.convert f g) = ((toPair o).1.map f, (toPair o).2.map g) ∧
    toPair (o.cloned f g) = ((toPair o).1.map f, (toPair o).2.map g) ∧
    o.map id id = o ∧ (o.map f g).map f' g' = o.map (f' ∘ f) (g' ∘ g) := by
  cases o <;> simp [OptionalPair.map, mapLeft, mapRight, convert, cloned, toPair]

example : toPair ((someBoth 1 2 : OptionalPair Nat Nat).map (· + 1) toString) = (some 2, some "2") := rfl

end Verif.OptionalPair
