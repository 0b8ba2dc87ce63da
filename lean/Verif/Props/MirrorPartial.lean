import Verif.PartialMap.Mirror
import Verif.Props.PartialTraits
import Verif.Props.Sharp
/-!
C147 (`PartialCycleMap`): left and right are interchangeable, with three exceptions.
-/
namespace Verif.PartialMap
open PartialSpec OptionalPair
variable {L R : Type} [BEq L] [BEq R] [EquivBEq L] [EquivBEq R]

/-- C147: a history and its mirror image, on a map and a map with mirrored contents, return mirrored results, call by
call (visited items up to order), and leave mirrored contents. -/
theorem C147_mirror (I I' : RawImpl) (hI : @LawfulRaw I) (hI' : @LawfulRaw I') {m : PartialMap L R} {m' : PartialMap R L}
    {c : List (OptionalPair L R)} (hm : @Reachable I L R _ _ m) (hc : @Shows I L R _ _ m c) (hm' : @Reachable I' R L _ _ m')
    (hc' : @Shows I' R L _ _ m' (c.map mirror)) {ops : List (Op L R)} (hs : SafeRun m.hb c ops) (he : EvenRun m'.hb c ops)
    (ho : ∀ op ∈ ops, OrderFree op) :
    ∃ os m₁ os' m₁', @run I L R _ _ m ops = .ok (os, m₁) ∧ @run I' R L _ _ m' (ops.map Op.mirror) = .ok (os', m₁') ∧
      List.Forall₂ (fun o o' => SameOut o.mirror o') os os' ∧
      ∃ d, @Shows I L R _ _ m₁ d ∧ @Shows I' R L _ _ m₁' (d.map mirror) := by
  suffices key : ∀ (ops : List (Op L R)) (m : PartialMap L R) (m' : PartialMap R L) (c : List (OptionalPair L R)), Repr m c →
      Repr m' (c.map mirror) → SafeRun m.hb c ops → EvenRun m'.hb c ops → (∀ op ∈ ops, OrderFree op) →
      ∃ os m₁ os' m₁', @run I L R _ _ m ops = .ok (os, m₁) ∧ @run I' R L _ _ m' (ops.map Op.mirror) = .ok (os', m₁') ∧
        List.Forall₂ (fun o o' => SameOut o.mirror o') os os' ∧ ∃ d, Repr m₁ d ∧ Repr m₁' (d.map mirror) by
    obtain ⟨os, m₁, os', m₁', e₁, e₂, h, d, r₁, r₂⟩ := key ops m m' c (@Reachable.repr_of_shows I hI _ _ _ _ _ _ _ _ hm hc)
      (@Reachable.repr_of_shows I' hI' _ _ _ _ _ _ _ _ hm' hc') hs he ho
    exact ⟨os, m₁, os', m₁', e₁, e₂, h, d, @Repr.shows I hI _ _ _ _ _ _ _ _ r₁, @Repr.shows I' hI' _ _ _ _ _ _ _ _ r₂⟩
  intro ops
  induction ops with
  | nil => intro m m' c r₁ r₂ _ _ _; exact ⟨[], m, [], m', rfl, rfl, .nil, c, r₁, r₂⟩
  | cons op ops ih =>
    intro m m' c r₁ r₂ hs he ho
    obtain ⟨o₁, m₁, c₁, e₁, s₁, r₁', hb₁⟩ := @exec_simulates I hI _ _ _ _ _ _ _ _ r₁ op hs.1
    obtain ⟨o₂, m₂, c₂, e₂, s₂, r₂', hb₂⟩ := @exec_simulates I' hI' _ _ _ _ _ _ _ _ r₂ op.mirror he.2.1
    obtain ⟨hso, hperm⟩ := step_mirror (@Shows.oneToOne I _ _ _ _ _ _ (@Repr.shows I hI _ _ _ _ _ _ _ _ r₁)) he.1
      (ho op (by simp)) hs.1 he.2.1 s₁ s₂
    obtain ⟨os, m₁', os', m₂', f₁, f₂, hos, rest⟩ := ih m₁ m₂ c₁ r₁' (@Repr.perm I' hI' _ _ _ _ _ _ _ _ _ r₂' hperm)
      (hb₁ ▸ hs.2 _ _ s₁) (hb₂ ▸ he.2.2 _ _ s₁) (fun op h => ho op (by simp [h]))
    refine ⟨o₁ :: os, m₁', o₂ :: os', m₂', ?_, ?_, .cons hso hos, rest⟩
    · simp only [run, e₁, f₁, bind, Except.bind, pure, Except.pure]
    · simp only [List.map_cons, run, e₂, f₂, bind, Except.bind, pure, Except.pure]

/-- numbers on the left and booleans on the right, and the other way round -/
example : ∃ os m₁ os' m₁',
    @run tidyRaw Nat Bool _ _ (@withHasher tidyRaw Nat Bool _ _ ⟨fun n => n.toUInt64, fun _ => 0, by simp, by simp⟩)
      [.insert 1 true, .insertLeft 2, .pair 2 false, .insertRight false, .pair 2 false, .removeLeft 1, .iterUnpaired] = .ok (os, m₁) ∧
    @run messyRaw Bool Nat _ _ (@withHasher messyRaw Bool Nat _ _ ⟨fun _ => 5, fun _ => 5, by simp, by simp⟩)
      [.insert true 1, .insertRight 2, .pair false 2, .insertLeft false, .pair false 2, .removeRight 1, .iterUnpaired] = .ok (os', m₁') ∧
    List.Forall₂ (fun o o' => SameOut (Out.mirror o) o') os os' := by
  obtain ⟨os, m₁, os', m₁', h1, h2, h3, _⟩ := C147_mirror (L := Nat) (R := Bool) tidyRaw messyRaw tidyRaw_lawful messyRaw_lawful
    (@Reachable.new tidyRaw Nat Bool _ _ ⟨fun n => n.toUInt64, fun _ => 0, by simp, by simp⟩)
    (@C58_new tidyRaw tidyRaw_lawful Nat Bool _ _ _ _ _ 0).1
    (@Reachable.new messyRaw Bool Nat _ _ ⟨fun _ => 5, fun _ => 5, by simp, by simp⟩)
    (@C58_new messyRaw messyRaw_lawful Bool Nat _ _ _ _ _ 0).1
    (ops := [.insert 1 true, .insertLeft 2, .pair 2 false, .insertRight false, .pair 2 false, .removeLeft 1, .iterUnpaired])
    (by simp [SafeRun, Safe]) (by simp [EvenRun, Even, Safe, Op.mirror, hasPair]) (by simp [OrderFree])
  exact ⟨os, m₁, os', m₁', h1, h2, h3⟩

/-- C147: the three exceptions of `Even` are real.  For a call that is safe from both sides, the mirrored call on the
mirrored map returns the mirrored result and leaves the mirrored contents if and only if the call is not one of them. -/
theorem C147_exact (I I' : RawImpl) (hI : @LawfulRaw I) (hI' : @LawfulRaw I') {m : PartialMap L R} {m' : PartialMap R L}
    {c : List (OptionalPair L R)} (hm : @Reachable I L R _ _ m) (hc : @Shows I L R _ _ m c) (hm' : @Reachable I' R L _ _ m')
    (hc' : @Shows I' R L _ _ m' (c.map mirror)) {op : Op L R} (hs : Safe m.hb c op) (hs' : Safe m'.hb (c.map mirror) op.mirror)
    (ho : OrderFree op) :
    (∃ o m₁ o' m₁', @exec I L R _ _ m op = .ok (o, m₁) ∧ @exec I' R L _ _ m' op.mirror = .ok (o', m₁') ∧
      SameOut o.mirror o' ∧ ∃ d, @Shows I L R _ _ m₁ d ∧ @Shows I' R L _ _ m₁' (d.map mirror)) ↔ Even c op := by
  have r₁ := @Reachable.repr_of_shows I hI _ _ _ _ _ _ _ _ hm hc
  have r₂ := @Reachable.repr_of_shows I' hI' _ _ _ _ _ _ _ _ hm' hc'
  have h1 := @Shows.oneToOne I _ _ _ _ _ _ hc
  obtain ⟨o₁, m₁, c₁, e₁, s₁, r₁', -⟩ := @exec_simulates I hI _ _ _ _ _ _ _ _ r₁ op hs
  obtain ⟨o₂, m₂, c₂, e₂, s₂, r₂', -⟩ := @exec_simulates I' hI' _ _ _ _ _ _ _ _ r₂ op.mirror hs'
  constructor
  · rintro ⟨o, _, o', _, h2, h3, h4, d, h5, h6⟩
    rw [e₁] at h2
    rw [e₂] at h3
    obtain ⟨rfl, rfl⟩ : o₁ = o ∧ m₁ = _ := by simpa using h2
    obtain ⟨rfl, rfl⟩ : o₂ = o' ∧ m₂ = _ := by simpa using h3
    have p₁ := @Shows.unique I _ _ _ _ _ _ _ (@Repr.shows I hI _ _ _ _ _ _ _ _ r₁') h5
    have p₂ := @Shows.unique I' _ _ _ _ _ _ _ (@Repr.shows I' hI' _ _ _ _ _ _ _ _ r₂') h6
    exact even_of_step h1 ho s₁ s₂ h4 (p₂.trans (p₁.symm.map _))
  · intro he
    obtain ⟨hso, hperm⟩ := step_mirror h1 he ho hs hs' s₁ s₂
    exact ⟨_, _, _, _, e₁, e₂, hso, c₁, @Repr.shows I hI _ _ _ _ _ _ _ _ r₁',
      @Repr.shows I' hI' _ _ _ _ _ _ _ _ (@Repr.perm I' hI' _ _ _ _ _ _ _ _ _ r₂' hperm)⟩

/-- the exception of `iter`: a lone left item is visited, a lone right item is not -/
example : ∃ m₁ m₂ m₁' m₂', @exec tidyRaw Nat Nat _ _ (@withHasher tidyRaw Nat Nat _ _ spreadHash) (.insertLeft 1) = .ok (.entry .neither, m₁) ∧
    @exec tidyRaw Nat Nat _ _ m₁ .iter = .ok (.entries [.someLeft 1], m₂) ∧
    @exec messyRaw Nat Nat _ _ (@withHasher messyRaw Nat Nat _ _ constHash) (.insertRight 1) = .ok (.entry .neither, m₁') ∧
    @exec messyRaw Nat Nat _ _ m₁' .iter = .ok (.entries [], m₂') :=
  ⟨_, _, _, _, rfl, rfl, rfl, rfl⟩

/-- an empty map and its mirror image: no call is an exception -/
example (op : Op Nat Bool)
    (hs : Safe ⟨fun n => n.toUInt64, fun _ => 0, by simp, by simp⟩ [] op) (hs' : Safe ⟨fun _ => 5, fun _ => 5, by simp, by simp⟩ [] op.mirror)
    (ho : OrderFree op) :
    ∃ o m₁ o' m₁', @exec tidyRaw Nat Bool _ _ (@withHasher tidyRaw Nat Bool _ _ ⟨fun n => n.toUInt64, fun _ => 0, by simp, by simp⟩) op =
      .ok (o, m₁) ∧ @exec messyRaw Bool Nat _ _ (@withHasher messyRaw Bool Nat _ _ ⟨fun _ => 5, fun _ => 5, by simp, by simp⟩) op.mirror =
      .ok (o', m₁') ∧ SameOut o.mirror o' := by
  obtain ⟨o, m₁, o', m₁', h1, h2, h3, _⟩ :=
    (C147_exact tidyRaw messyRaw tidyRaw_lawful messyRaw_lawful (@Reachable.new tidyRaw Nat Bool _ _ _)
      (@C58_new tidyRaw tidyRaw_lawful Nat Bool _ _ _ _ _ 0).1 (@Reachable.new messyRaw Bool Nat _ _ _)
      (@C58_new messyRaw messyRaw_lawful Bool Nat _ _ _ _ _ 0).1 hs hs' ho).2 (by cases op <;> simp [Even, hasPair])
  exact ⟨o, m₁, o', m₁', h1, h2, h3⟩

end Verif.PartialMap
