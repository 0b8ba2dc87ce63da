import Verif.GroupMap.Relate
import Verif.Props.ParametricCycle
import Verif.Props.GroupTraits
/-! C146 (`GroupMap`): a map looks at its items only through `==`. -/
namespace Verif.GroupMap
open GroupSpec
variable {L R L' R' : Type} [BEq L] [BEq R] [BEq L'] [BEq R'] [EquivBEq L] [EquivBEq R] [EquivBEq L'] [EquivBEq R']

/-- C146: related histories on maps with related contents return related results, call by call, and leave related
contents. -/
theorem C146_parametric (I I' : RawImpl) (hI : @LawfulRaw I) (hI' : @LawfulRaw I') {ρ : L → L' → Prop} {σ : R → R' → Prop}
    (hρ : Keeps ρ) (hσ : Keeps σ) {m : GroupMap L R} {m' : GroupMap L' R'} {c : Contents L R} {d : Contents L' R'}
    (hm : @Reachable I L R _ _ m) (hc : @Shows I L R _ _ m c) (hm' : @Reachable I' L' R' _ _ m')
    (hd : @Shows I' L' R' _ _ m' d) (hcd : c.Alike ρ σ d) {ops : List (Op L R)} {ops' : List (Op L' R')}
    (hops : List.Forall₂ (RelOp ρ σ) ops ops') (hs : SafeRun c ops) :
    ∃ os m₁ os' m₁', @run I L R _ _ m ops = .ok (os, m₁) ∧ @run I' L' R' _ _ m' ops' = .ok (os', m₁') ∧
      List.Forall₂ (RelOut ρ σ) os os' ∧
      ∃ c₁ d₁, @Shows I L R _ _ m₁ c₁ ∧ @Shows I' L' R' _ _ m₁' d₁ ∧ c₁.Alike ρ σ d₁ := by
  suffices key : ∀ {ops : List (Op L R)} {ops' : List (Op L' R')}, List.Forall₂ (RelOp ρ σ) ops ops' →
      ∀ (m : GroupMap L R) (m' : GroupMap L' R') (c : Contents L R) (d : Contents L' R'), Repr m c → Repr m' d →
      c.Rel ρ σ d → SafeRun c ops →
      ∃ os m₁ os' m₁', @run I L R _ _ m ops = .ok (os, m₁) ∧ @run I' L' R' _ _ m' ops' = .ok (os', m₁') ∧
        List.Forall₂ (RelOut ρ σ) os os' ∧ ∃ c₁ d₁, Repr m₁ c₁ ∧ Repr m₁' d₁ ∧ c₁.Rel ρ σ d₁ by
    obtain ⟨e, he, hce⟩ := hcd.rel
    obtain ⟨os, m₁, os', m₁', e₁, e₂, ho, c₁, d₁, r₁, r₂, hr⟩ := key hops m m' c e
      (@Reachable.repr_of_shows I hI _ _ _ _ _ _ _ _ hm hc)
      ((@Reachable.repr_of_shows I' hI' _ _ _ _ _ _ _ _ hm' hd).same ⟨he.rights.symm, he.pairs.symm⟩) hce hs
    exact ⟨os, m₁, os', m₁', e₁, e₂, ho, c₁, d₁, @ReprG.shows I hI _ _ _ _ _ _ _ _ r₁,
      @ReprG.shows I' hI' _ _ _ _ _ _ _ _ r₂, hr.alike⟩
  intro ops ops' hops
  induction hops with
  | nil => intro m m' c d r₁ r₂ hcd _; exact ⟨[], m, [], m', rfl, rfl, .nil, c, d, r₁, r₂, hcd⟩
  | cons ho _ ih =>
    intro m m' c d r₁ r₂ hcd hs
    obtain ⟨o₁, m₁, c₁, e₁, s₁, r₁', _⟩ := @exec_simulates I hI _ _ _ _ _ _ _ _ r₁ _ hs.1
    obtain ⟨o₂, m₂, d₁, e₂, s₂, r₂', _⟩ := @exec_simulates I' hI' _ _ _ _ _ _ _ _ r₂ _ (safe_rel hρ hσ hcd ho hs.1)
    obtain ⟨hout, hal⟩ := step_rel hρ hσ hcd ho s₁ s₂
    obtain ⟨e, he, hce⟩ := hal.rel
    obtain ⟨os, m₁', os', m₂', f₁, f₂, hos, rest⟩ :=
      ih m₁ m₂ c₁ e r₁' (r₂'.same ⟨he.rights.symm, he.pairs.symm⟩) hce (hs.2 _ _ s₁)
    refine ⟨o₁ :: os, m₁', o₂ :: os', m₂', ?_, ?_, .cons hout hos, rest⟩
    · simp only [run, e₁, f₁, bind, Except.bind, pure, Except.pure]
    · simp only [run, e₂, f₂, bind, Except.bind, pure, Except.pure]

/-- a history with numbers, and the same history with negative numbers on the left and booleans on the right -/
example : ∃ os m₁ os' m₁', @run tidyRaw Nat Nat _ _ (@withHasher tidyRaw Nat Nat _ _ spreadHash)
      [.insertRight 10, .insertLeft 1 10, .insertLeft 2 10, .getLeftIter 10, .insertRemove 3 10] = .ok (os, m₁) ∧
    @run messyRaw Int Bool _ _ (@withHasher messyRaw Int Bool _ _ ⟨fun _ => 0, fun _ => 0, by simp, by simp⟩)
      [.insertRight true, .insertLeft (-1) true, .insertLeft (-2) true, .getLeftIter true, .insertRemove (-3) true] =
        .ok (os', m₁') ∧
    List.Forall₂ (RelOut (fun (x : Nat) (y : Int) => y = -x) (fun (x : Nat) (y : Bool) => x = if y then 10 else 20)) os os' := by
  obtain ⟨os, m₁, os', m₁', h1, h2, h3, _⟩ := C146_parametric (ρ := fun (x : Nat) (y : Int) => y = -x)
    (σ := fun (x : Nat) (y : Bool) => x = if y then 10 else 20) tidyRaw messyRaw tidyRaw_lawful messyRaw_lawful
    (by rintro x _ y _ rfl rfl; rw [Bool.eq_iff_iff, beq_iff_eq, beq_iff_eq]; omega)
    (by rintro _ x _ y rfl rfl; cases x <;> cases y <;> rfl)
    (@Reachable.new tidyRaw Nat Nat _ _ spreadHash) (@ReprG.shows tidyRaw tidyRaw_lawful _ _ _ _ _ _ _ _
      (@withHasher_repr tidyRaw tidyRaw_lawful _ _ _ _ _ _ _ spreadHash))
    (@Reachable.new messyRaw Int Bool _ _ ⟨fun _ => 0, fun _ => 0, by simp, by simp⟩)
    (@ReprG.shows messyRaw messyRaw_lawful _ _ _ _ _ _ _ _ (@withHasher_repr messyRaw messyRaw_lawful _ _ _ _ _ _ _
      ⟨fun _ => 0, fun _ => 0, by simp, by simp⟩)) ⟨.of .nil, .of .nil⟩
    (ops := [.insertRight 10, .insertLeft 1 10, .insertLeft 2 10, .getLeftIter 10, .insertRemove 3 10])
    (ops' := [.insertRight true, .insertLeft (-1) true, .insertLeft (-2) true, .getLeftIter true, .insertRemove (-3) true])
    (.cons (.insertRight rfl) (.cons (.insertLeft rfl rfl) (.cons (.insertLeft rfl rfl) (.cons (.getLeftIter rfl)
      (.cons (.insertRemove rfl rfl) .nil))))) (by simp [SafeRun, Safe])
  exact ⟨os, m₁, os', m₁', h1, h2, h3⟩

/-- C83: a history on a clone returns results equal (`==`) to those of the same history on the original, for every
`Clone` that returns an equal item. -/
theorem C83_clone_history_eq [RawImpl] [LawfulRaw] {m : GroupMap L R} {c : Contents L R} (hm : Reachable m)
    (hc : Shows m c) {cl : L → L} {cr : R → R} (hl : ∀ x, (cl x == x) = true) (hr : ∀ x, (cr x == x) = true)
    {ops : List (Op L R)} (hops : ∀ op ∈ ops, RelOp (fun x y => (x == y) = true) (fun x y => (x == y) = true) op op)
    (hs : SafeRun c ops) :
    ∃ os m₁ os' m₁', m.run ops = .ok (os, m₁) ∧ (m.clone cl cr).run ops = .ok (os', m₁') ∧
      List.Forall₂ (RelOut (fun x y => (x == y) = true) (fun x y => (x == y) = true)) os os' ∧
      ∃ c₁ d₁, Shows m₁ c₁ ∧ Shows m₁' d₁ ∧ c₁.Alike (fun x y => (x == y) = true) (fun x y => (x == y) = true) d₁ := by
  refine C146_parametric (m' := m.clone cl cr) _ _ ‹_› ‹_› Keeps.eq Keeps.eq hm hc
    (.step hm (op := .clone cl cr) (o := .unit) ⟨hl, hr⟩ rfl)
    (C83_clone_eq hm hc cl cr hl hr).1 ⟨.of ?_, .of ?_⟩ (List.forall₂_same.2 hops) hs
  · exact List.forall₂_map_right_iff.2 (List.forall₂_same.2 fun _ _ => BEq.symm (hr _))
  · exact List.forall₂_map_right_iff.2 (List.forall₂_same.2 fun _ _ => ⟨BEq.symm (hl _), BEq.symm (hr _)⟩)

open CycleMap.Demo in
/-- a clone that loses the tags, used like the original: the results are equal, though not identical -/
example : ∃ m : GroupMap Tagged Tagged, ∃ os m₁ os' m₁',
    @exec tidyRaw _ _ _ _ (@withHasher tidyRaw _ _ _ _ taggedHash) (.insert ⟨1, 5⟩ ⟨2, 6⟩) = .ok (.unit, m) ∧
    @run tidyRaw _ _ _ _ m [.insertLeft ⟨1, 7⟩ ⟨2, 8⟩, .iter] = .ok (os, m₁) ∧
    @run tidyRaw _ _ _ _ (m.clone Tagged.fresh Tagged.fresh) [.insertLeft ⟨1, 7⟩ ⟨2, 8⟩, .iter] = .ok (os', m₁') ∧
    List.Forall₂ (RelOut (fun x y => (x == y) = true) (fun x y => (x == y) = true)) os os' := by
  let _ := tidyRaw
  have := tidyRaw_lawful
  have e : ∃ m, (withHasher taggedHash).exec (.insert ⟨1, 5⟩ ⟨2, 6⟩) = .ok (.unit, m) := ⟨_, rfl⟩
  obtain ⟨m, e⟩ := e
  have hr : Reachable m := .step (op := .insert ⟨1, 5⟩ ⟨2, 6⟩) (.new taggedHash) (show (withHasher taggedHash).arePaired _ _ = false from rfl) e
  obtain ⟨c, hc⟩ := hr.repr
  obtain ⟨os, m₁, os', m₁', h1, h2, h3, _⟩ := C83_clone_history_eq hr hc.shows Tagged.fresh_eq Tagged.fresh_eq
    (ops := [.insertLeft ⟨1, 7⟩ ⟨2, 8⟩, .iter])
    (by
      simp only [List.mem_cons, List.not_mem_nil, or_false]
      rintro op (rfl | rfl)
      · exact .insertLeft BEq.rfl BEq.rfl
      · exact .iter) (by simp [SafeRun, Safe])
  exact ⟨m, os, m₁, os', m₁', e, h1, h2, h3⟩

end Verif.GroupMap
