import Verif.CycleMap.Mirror
import Verif.Props.CycleTraits
/-!
C147 (`CycleMap`): left and right are interchangeable.

The functions for the left side and those for the right side are written out separately in the crate.  Here a map
`CycleMap<L, R>` and a map `CycleMap<R, L>` with the pairs turned round are used side by side, the second one with the
functions of the other side.
-/
namespace Verif.CycleMap
open CycleSpec OptionalPair
variable {L R : Type} [BEq L] [BEq R] [EquivBEq L] [EquivBEq R]

/-- C147: a history and its mirror image, on a map and a map with mirrored contents, return mirrored results, call by
call (visited items up to order), and leave mirrored contents. -/
theorem C147_mirror (I I' : RawImpl) (hI : @LawfulRaw I) (hI' : @LawfulRaw I') {m : CycleMap L R} {m' : CycleMap R L}
    {c : List (L × R)} (hm : @Reachable I L R _ _ m) (hc : @Shows I L R _ _ m c) (hm' : @Reachable I' R L _ _ m')
    (hc' : @Shows I' R L _ _ m' (c.map Prod.swap)) {ops : List (Op L R)} (hs : SafeRun c ops) (he : EvenRun c ops)
    (ho : ∀ op ∈ ops, OrderFree op) :
    ∃ os m₁ os' m₁', @run I L R _ _ m ops = .ok (os, m₁) ∧ @run I' R L _ _ m' (ops.map Op.mirror) = .ok (os', m₁') ∧
      List.Forall₂ (fun o o' => SameOut o.mirror o') os os' ∧
      ∃ d, @Shows I L R _ _ m₁ d ∧ @Shows I' R L _ _ m₁' (d.map Prod.swap) := by
  suffices key : ∀ (ops : List (Op L R)) (m : CycleMap L R) (m' : CycleMap R L) (c : List (L × R)), Repr m c →
      Repr m' (c.map Prod.swap) → SafeRun c ops → EvenRun c ops → (∀ op ∈ ops, OrderFree op) →
      ∃ os m₁ os' m₁', @run I L R _ _ m ops = .ok (os, m₁) ∧ @run I' R L _ _ m' (ops.map Op.mirror) = .ok (os', m₁') ∧
        List.Forall₂ (fun o o' => SameOut o.mirror o') os os' ∧ ∃ d, Repr m₁ d ∧ Repr m₁' (d.map Prod.swap) by
    obtain ⟨os, m₁, os', m₁', e₁, e₂, h, d, r₁, r₂⟩ := key ops m m' c (@Reachable.repr_of_shows I hI _ _ _ _ _ _ _ _ hm hc)
      (@Reachable.repr_of_shows I' hI' _ _ _ _ _ _ _ _ hm' hc') hs he ho
    exact ⟨os, m₁, os', m₁', e₁, e₂, h, d, @Repr.shows I hI _ _ _ _ _ _ _ _ r₁, @Repr.shows I' hI' _ _ _ _ _ _ _ _ r₂⟩
  intro ops
  induction ops with
  | nil => intro m m' c r₁ r₂ _ _ _; exact ⟨[], m, [], m', rfl, rfl, .nil, c, r₁, r₂⟩
  | cons op ops ih =>
    intro m m' c r₁ r₂ hs he ho
    obtain ⟨o₁, m₁, c₁, e₁, s₁, r₁'⟩ := @exec_simulates I hI _ _ _ _ _ _ _ _ r₁ op hs.1
    obtain ⟨o₂, m₂, c₂, e₂, s₂, r₂'⟩ := @exec_simulates I' hI' _ _ _ _ _ _ _ _ r₂ op.mirror (safe_mirror hs.1 he.1)
    have s₁' := step_mirror (@Shows.oneToOne I _ _ _ _ _ _ (@Repr.shows I hI _ _ _ _ _ _ _ _ r₁)) he.1 s₁
    obtain ⟨hso, hperm⟩ := step_det (orderFree_mirror (ho op (by simp))) s₁' s₂
    obtain ⟨os, m₁', os', m₂', f₁, f₂, hos, rest⟩ := ih m₁ m₂ c₁ r₁' (@Repr.perm I' hI' _ _ _ _ _ _ _ _ _ r₂' hperm.symm)
      (hs.2 _ _ s₁) (he.2 _ _ s₁) (fun op h => ho op (by simp [h]))
    refine ⟨o₁ :: os, m₁', o₂ :: os', m₂', ?_, ?_, .cons hso hos, rest⟩
    · simp only [run, e₁, f₁, bind, Except.bind, pure, Except.pure]
    · simp only [List.map_cons, run, e₂, f₂, bind, Except.bind, pure, Except.pure]

/-- numbers on the left and booleans on the right, and the other way round -/
example : ∃ os m₁ os' m₁',
    @run tidyRaw Nat Bool _ _ (@withHasher tidyRaw Nat Bool _ _ ⟨fun n => n.toUInt64, fun _ => 0, by simp, by simp⟩)
      [.insert 1 true, .insert 2 false, .swapLeft 2 3, .removeViaRight true, .getLeft false, .iter] = .ok (os, m₁) ∧
    @run messyRaw Bool Nat _ _ (@withHasher messyRaw Bool Nat _ _ ⟨fun _ => 5, fun _ => 5, by simp, by simp⟩)
      [.insert true 1, .insert false 2, .swapRight 2 3, .removeViaLeft true, .getRight false, .iter] = .ok (os', m₁') ∧
    List.Forall₂ (fun o o' => SameOut (Out.mirror o) o') os os' := by
  obtain ⟨os, m₁, os', m₁', h1, h2, h3, _⟩ := C147_mirror (L := Nat) (R := Bool) tidyRaw messyRaw tidyRaw_lawful messyRaw_lawful
    (@Reachable.new tidyRaw Nat Bool _ _ ⟨fun n => n.toUInt64, fun _ => 0, by simp, by simp⟩)
    (@C26_new tidyRaw tidyRaw_lawful Nat Bool _ _ _ _ _ 0).1
    (@Reachable.new messyRaw Bool Nat _ _ ⟨fun _ => 5, fun _ => 5, by simp, by simp⟩)
    (@C26_new messyRaw messyRaw_lawful Bool Nat _ _ _ _ _ 0).1
    (ops := [.insert 1 true, .insert 2 false, .swapLeft 2 3, .removeViaRight true, .getLeft false, .iter])
    (by simp [SafeRun, Safe])
    (by simp [EvenRun, Even, Step, hasPair, CycleSpec.insert]) (by simp [OrderFree])
  exact ⟨os, m₁, os', m₁', h1, h2, h3⟩

/-- C147: the exceptions of `Even` are real.  For a call that does not panic on a map, the mirrored call on the mirrored
map returns the mirrored result if and only if the call is not one of them. -/
theorem C147_exact (I I' : RawImpl) (hI : @LawfulRaw I) (hI' : @LawfulRaw I') {m : CycleMap L R} {m' : CycleMap R L}
    {c : List (L × R)} (hm : @Reachable I L R _ _ m) (hc : @Shows I L R _ _ m c) (hm' : @Reachable I' R L _ _ m')
    (hc' : @Shows I' R L _ _ m' (c.map Prod.swap)) {op : Op L R} (hs : Safe c op) (ho : OrderFree op) :
    (∃ o m₁ o' m₁', @exec I L R _ _ m op = .ok (o, m₁) ∧ @exec I' R L _ _ m' op.mirror = .ok (o', m₁') ∧
      SameOut o.mirror o') ↔ Even c op := by
  have r₁ := @Reachable.repr_of_shows I hI _ _ _ _ _ _ _ _ hm hc
  have r₂ := @Reachable.repr_of_shows I' hI' _ _ _ _ _ _ _ _ hm' hc'
  obtain ⟨o₁, m₁, c₁, e₁, s₁, -⟩ := @exec_simulates I hI _ _ _ _ _ _ _ _ r₁ op hs
  constructor
  · rintro ⟨o, _, o', m₁', h1, h2, h3⟩
    rw [e₁] at h1
    obtain ⟨rfl, rfl⟩ : o₁ = o ∧ m₁ = _ := by simpa using h1
    have hs' : Safe (c.map Prod.swap) op.mirror := by
      cases op <;> try exact trivial
      case swapLeftOrInsert old new r =>
        refine Classical.byContradiction fun hn => ?_
        simp only [Op.mirror, Safe, findR_mirror, findL_mirror, Option.isSome_map, Option.map_eq_none_iff, not_or] at hn
        obtain ⟨e, he⟩ := (@C18_panics I' hI' _ _ _ _ _ _ _ _ hm' hc' old new r).2 ⟨by
            have := hn.1
            rw [findL_isSome_eq] at this
            simp only [List.any_eq_true, not_exists, not_and, Bool.not_eq_true] at this
            intro p hp
            obtain ⟨q, hq, rfl⟩ := List.mem_map.1 hp
            exact this q hq, by
            cases hf : findR c r with
            | none => exact absurd hf hn.2
            | some p => exact ⟨p.swap, List.mem_map.2 ⟨p, (findR_mem hf).1, rfl⟩, (findR_mem hf).2⟩⟩
        simp [Op.mirror, exec, he, bind, Except.bind] at h2
      case drain n => simpa [Op.mirror, Safe] using hs
      case clone => exact ⟨hs.2, hs.1⟩
    obtain ⟨o₂, m₂, c₂, e₂, s₂, -⟩ := @exec_simulates I' hI' _ _ _ _ _ _ _ _ r₂ op.mirror hs'
    rw [h2] at e₂
    obtain ⟨rfl, rfl⟩ : o' = o₂ ∧ m₁' = m₂ := by simpa using e₂
    exact even_of_step s₁ s₂ h3
  · intro he
    obtain ⟨o₂, m₂, c₂, e₂, s₂, -⟩ := @exec_simulates I' hI' _ _ _ _ _ _ _ _ r₂ op.mirror (safe_mirror hs he)
    exact ⟨_, _, _, _, e₁, e₂, (step_det (orderFree_mirror ho) (step_mirror (@Shows.oneToOne I _ _ _ _ _ _ hc) he s₁) s₂).1⟩

/-- inserting a pair again: `SomeLeft` from both sides -/
example : ∃ m₁ m₂ m₁' m₂', @exec tidyRaw Nat Nat _ _ (@withHasher tidyRaw Nat Nat _ _ spreadHash) (.insert 1 10) = .ok (.inserted .neither, m₁) ∧
    @exec tidyRaw Nat Nat _ _ m₁ (.insert 1 10) = .ok (.inserted (.someLeft (1, 10)), m₂) ∧
    @exec messyRaw Nat Nat _ _ (@withHasher messyRaw Nat Nat _ _ constHash) (.insert 10 1) = .ok (.inserted .neither, m₁') ∧
    @exec messyRaw Nat Nat _ _ m₁' (.insert 10 1) = .ok (.inserted (.someLeft (10, 1)), m₂') :=
  ⟨_, _, _, _, rfl, rfl, rfl, rfl⟩

/-- an empty map and its mirror image: no call is an exception -/
example (op : Op Nat Bool) (hs : Safe [] op) (ho : OrderFree op) :
    ∃ o m₁ o' m₁', @exec tidyRaw Nat Bool _ _ (@withHasher tidyRaw Nat Bool _ _ ⟨fun n => n.toUInt64, fun _ => 0, by simp, by simp⟩) op =
      .ok (o, m₁) ∧ @exec messyRaw Bool Nat _ _ (@withHasher messyRaw Bool Nat _ _ ⟨fun _ => 5, fun _ => 5, by simp, by simp⟩) op.mirror =
      .ok (o', m₁') ∧ SameOut o.mirror o' :=
  (C147_exact tidyRaw messyRaw tidyRaw_lawful messyRaw_lawful (@Reachable.new tidyRaw Nat Bool _ _ _)
    (@C26_new tidyRaw tidyRaw_lawful Nat Bool _ _ _ _ _ 0).1 (@Reachable.new messyRaw Bool Nat _ _ _)
    (@C26_new messyRaw messyRaw_lawful Bool Nat _ _ _ _ _ 0).1 hs ho).2 (by cases op <;> simp [Even, findL, findR, hasPair])

end Verif.CycleMap
