import Verif.PartialMap.Relate
import Verif.Props.ParametricCycle
import Verif.Props.PartialTraits
/-!
C146 (`PartialCycleMap`): a map looks at its items only through `==`; `unpair` compares hashes instead (C41), so the
second hash builder must not have more collisions than the first.
-/
namespace Verif.PartialMap
open PartialSpec OptionalPair
variable {L R L' R' : Type} [BEq L] [BEq R] [BEq L'] [BEq R'] [EquivBEq L] [EquivBEq R] [EquivBEq L'] [EquivBEq R']

/-- C146: related histories on maps with related contents return related results, call by call, and leave related
contents. -/
theorem C146_parametric (I I' : RawImpl) (hI : @LawfulRaw I) (hI' : @LawfulRaw I') {ρ : L → L' → Prop} {σ : R → R' → Prop}
    (hρ : Keeps ρ) (hσ : Keeps σ) {m : PartialMap L R} {m' : PartialMap L' R'}
    (hhl : ∀ x x' y y', ρ x x' → ρ y y' → m'.hb.hl x' = m'.hb.hl y' → m.hb.hl x = m.hb.hl y)
    (hhr : ∀ x x' y y', σ x x' → σ y y' → m'.hb.hr x' = m'.hb.hr y' → m.hb.hr x = m.hb.hr y)
    {c : List (OptionalPair L R)} {d : List (OptionalPair L' R')}
    (hm : @Reachable I L R _ _ m) (hc : @Shows I L R _ _ m c) (hm' : @Reachable I' L' R' _ _ m')
    (hd : @Shows I' L' R' _ _ m' d) (hcd : Matches (OptionalPair.Rel ρ σ) c d) {ops : List (Op L R)}
    {ops' : List (Op L' R')} (hops : List.Forall₂ (RelOp ρ σ) ops ops') (hs : SafeRun m.hb c ops) :
    ∃ os m₁ os' m₁', @run I L R _ _ m ops = .ok (os, m₁) ∧ @run I' L' R' _ _ m' ops' = .ok (os', m₁') ∧
      List.Forall₂ (RelOut ρ σ) os os' ∧
      ∃ c₁ d₁, @Shows I L R _ _ m₁ c₁ ∧ @Shows I' L' R' _ _ m₁' d₁ ∧ Matches (OptionalPair.Rel ρ σ) c₁ d₁ := by
  generalize hhb : m.hb = hb at hhl hhr hs
  generalize hhb' : m'.hb = hb' at hhl hhr
  suffices key : ∀ {ops : List (Op L R)} {ops' : List (Op L' R')}, List.Forall₂ (RelOp ρ σ) ops ops' →
      ∀ (m : PartialMap L R) (m' : PartialMap L' R') (c : List (OptionalPair L R)) (d : List (OptionalPair L' R')),
      m.hb = hb → m'.hb = hb' → Repr m c → Repr m' d →
      List.Forall₂ (OptionalPair.Rel ρ σ) c d → SafeRun hb c ops →
      ∃ os m₁ os' m₁', @run I L R _ _ m ops = .ok (os, m₁) ∧ @run I' L' R' _ _ m' ops' = .ok (os', m₁') ∧
        List.Forall₂ (RelOut ρ σ) os os' ∧ ∃ c₁ d₁, Repr m₁ c₁ ∧ Repr m₁' d₁ ∧
          List.Forall₂ (OptionalPair.Rel ρ σ) c₁ d₁ by
    obtain ⟨e, he, hce⟩ := hcd
    obtain ⟨os, m₁, os', m₁', e₁, e₂, ho, c₁, d₁, r₁, r₂, hr⟩ := key hops m m' c e hhb hhb'
      (@Reachable.repr_of_shows I hI _ _ _ _ _ _ _ _ hm hc)
      (@Repr.perm I' hI' _ _ _ _ _ _ _ _ _ (@Reachable.repr_of_shows I' hI' _ _ _ _ _ _ _ _ hm' hd) he.symm) hce hs
    exact ⟨os, m₁, os', m₁', e₁, e₂, ho, c₁, d₁, @Repr.shows I hI _ _ _ _ _ _ _ _ r₁,
      @Repr.shows I' hI' _ _ _ _ _ _ _ _ r₂, .of hr⟩
  intro ops ops' hops
  induction hops with
  | nil => intro m m' c d _ _ r₁ r₂ hcd _; exact ⟨[], m, [], m', rfl, rfl, .nil, c, d, r₁, r₂, hcd⟩
  | cons ho _ ih =>
    intro m m' c d b₁ b₂ r₁ r₂ hcd hs
    obtain ⟨o₁, m₁, c₁, e₁, s₁, r₁', b₁'⟩ := @exec_simulates I hI _ _ _ _ _ _ _ _ r₁ _ (b₁ ▸ hs.1)
    obtain ⟨o₂, m₂, d₁, e₂, s₂, r₂', b₂'⟩ := @exec_simulates I' hI' _ _ _ _ _ _ _ _ r₂ _
      (b₂ ▸ safe_rel hρ hσ hcd hhl hhr ho hs.1)
    obtain ⟨hout, e, he, hce⟩ := step_rel hρ hσ hcd ho s₁ s₂
    obtain ⟨os, m₁', os', m₂', f₁, f₂, hos, rest⟩ :=
      ih m₁ m₂ c₁ e (b₁'.trans b₁) (b₂'.trans b₂) r₁' (@Repr.perm I' hI' _ _ _ _ _ _ _ _ _ r₂' he.symm) hce (hs.2 _ _ s₁)
    refine ⟨o₁ :: os, m₁', o₂ :: os', m₂', ?_, ?_, .cons hout hos, rest⟩
    · simp only [run, e₁, f₁, bind, Except.bind, pure, Except.pure]
    · simp only [run, e₂, f₂, bind, Except.bind, pure, Except.pure]

/-- a history with numbers, and the same history with negative numbers on the left and booleans on the right -/
example : ∃ os m₁ os' m₁', @run tidyRaw Nat Nat _ _ (@withHasher tidyRaw Nat Nat _ _ constHash)
      [.insertLeft 1, .insert 2 10, .pairForced 1 10, .retain Unit (fun s e => (e.getLeft == some 2, s)) (), .iter] =
        .ok (os, m₁) ∧
    @run messyRaw Int Bool _ _ (@withHasher messyRaw Int Bool _ _ ⟨fun _ => 0, fun _ => 0, by simp, by simp⟩)
      [.insertLeft (-1), .insert (-2) true, .pairForced (-1) true,
        .retain Unit (fun s e => (e.getLeft == some (-2), s)) (), .iter] = .ok (os', m₁') ∧
    List.Forall₂ (RelOut (fun (x : Nat) (y : Int) => y = -x) (fun (x : Nat) (y : Bool) => x = if y then 10 else 20)) os os' := by
  obtain ⟨os, m₁, os', m₁', h1, h2, h3, _⟩ := C146_parametric (ρ := fun (x : Nat) (y : Int) => y = -x)
    (σ := fun (x : Nat) (y : Bool) => x = if y then 10 else 20) tidyRaw messyRaw tidyRaw_lawful messyRaw_lawful
    (by rintro x _ y _ rfl rfl; rw [Bool.eq_iff_iff, beq_iff_eq, beq_iff_eq]; omega)
    (by rintro _ x _ y rfl rfl; cases x <;> cases y <;> rfl)
    (m := @withHasher tidyRaw Nat Nat _ _ constHash)
    (m' := @withHasher messyRaw Int Bool _ _ ⟨fun _ => 0, fun _ => 0, by simp, by simp⟩)
    (fun _ _ _ _ _ _ _ => rfl) (fun _ _ _ _ _ _ _ => rfl)
    (@Reachable.new tidyRaw Nat Nat _ _ constHash) (@Repr.shows tidyRaw tidyRaw_lawful _ _ _ _ _ _ _ _
      (@withHasher_repr tidyRaw tidyRaw_lawful _ _ _ _ _ _ constHash))
    (@Reachable.new messyRaw Int Bool _ _ ⟨fun _ => 0, fun _ => 0, by simp, by simp⟩)
    (@Repr.shows messyRaw messyRaw_lawful _ _ _ _ _ _ _ _ (@withHasher_repr messyRaw messyRaw_lawful _ _ _ _ _ _
      ⟨fun _ => 0, fun _ => 0, by simp, by simp⟩)) (.of .nil)
    (ops := [.insertLeft 1, .insert 2 10, .pairForced 1 10, .retain Unit (fun s e => (e.getLeft == some 2, s)) (), .iter])
    (ops' := [.insertLeft (-1), .insert (-2) true, .pairForced (-1) true,
        .retain Unit (fun s e => (e.getLeft == some (-2), s)) (), .iter])
    (.cons (.insertLeft rfl) (.cons (.insert rfl rfl) (.cons (.pairForced rfl rfl) (.cons (.retain fun _ _ e e' h => by
      cases h with
      | neither => rfl
      | right _ => rfl
      | left h => subst h; simp only [OptionalPair.getLeft]; rw [Bool.eq_iff_iff]; simp; omega
      | both h _ => subst h; simp only [OptionalPair.getLeft]; rw [Bool.eq_iff_iff]; simp; omega)
      (.cons .iter .nil))))) (by simp [SafeRun, Safe])
  exact ⟨os, m₁, os', m₁', h1, h2, h3⟩

/-- C81: a history on a clone returns results equal (`==`) to those of the same history on the original, for every
`Clone` that returns an equal item. -/
theorem C81_clone_history_eq [RawImpl] [LawfulRaw] {m : PartialMap L R} {c : List (OptionalPair L R)} (hm : Reachable m)
    (hc : Shows m c) {cl : L → L} {cr : R → R} (hl : ∀ x, (cl x == x) = true) (hr : ∀ x, (cr x == x) = true)
    {ops : List (Op L R)} (hops : ∀ op ∈ ops, RelOp (fun x y => (x == y) = true) (fun x y => (x == y) = true) op op)
    (hs : SafeRun m.hb c ops) :
    ∃ os m₁ os' m₁', m.run ops = .ok (os, m₁) ∧ (m.clone cl cr).run ops = .ok (os', m₁') ∧
      List.Forall₂ (RelOut (fun x y => (x == y) = true) (fun x y => (x == y) = true)) os os' ∧
      ∃ c₁ d₁, Shows m₁ c₁ ∧ Shows m₁' d₁ ∧
        Matches (OptionalPair.Rel (fun x y => (x == y) = true) (fun x y => (x == y) = true)) c₁ d₁ := by
  refine C146_parametric (m' := m.clone cl cr) _ _ ‹_› ‹_› Keeps.eq Keeps.eq
    (fun x x' y y' h1 h2 e => (m.hb.hl_congr _ _ h1).trans (Eq.trans e (m.hb.hl_congr _ _ h2).symm))
    (fun x x' y y' h1 h2 e => (m.hb.hr_congr _ _ h1).trans (Eq.trans e (m.hb.hr_congr _ _ h2).symm)) hm hc
    (.step hm (op := .clone cl cr) (o := .unit) (by simp) (by simp) (by rintro _ _ ⟨⟩; exact ⟨hl, hr⟩) rfl)
    (clone_refines (hm.repr_of_shows hc) hl hr).shows (.of ?_) (List.forall₂_same.2 hops) hs
  refine List.forall₂_map_right_iff.2 (List.forall₂_same.2 fun e _ => ?_)
  cases e with
  | neither => exact .neither
  | someLeft _ => exact .left (BEq.symm (hl _))
  | someRight _ => exact .right (BEq.symm (hr _))
  | someBoth _ _ => exact .both (BEq.symm (hl _)) (BEq.symm (hr _))

open CycleMap.Demo in
/-- a clone that loses the tags, used like the original: the results are equal, though not identical -/
example : ∃ m : PartialMap Tagged Tagged, ∃ os m₁ os' m₁',
    @exec tidyRaw _ _ _ _ (@withHasher tidyRaw _ _ _ _ taggedHash) (.insertLeft ⟨1, 5⟩) = .ok (.entry .neither, m) ∧
    @run tidyRaw _ _ _ _ m [.insert ⟨1, 7⟩ ⟨3, 8⟩, .iter] = .ok (os, m₁) ∧
    @run tidyRaw _ _ _ _ (m.clone Tagged.fresh Tagged.fresh) [.insert ⟨1, 7⟩ ⟨3, 8⟩, .iter] = .ok (os', m₁') ∧
    List.Forall₂ (RelOut (fun x y => (x == y) = true) (fun x y => (x == y) = true)) os os' := by
  let _ := tidyRaw
  have := tidyRaw_lawful
  have e : ∃ m, (withHasher taggedHash).exec (.insertLeft ⟨1, 5⟩) = .ok (.entry .neither, m) := ⟨_, rfl⟩
  obtain ⟨m, e⟩ := e
  have hr : Reachable m := .step (.new _) (by simp) (by simp) (by simp) e
  obtain ⟨c, hc⟩ := hr.repr
  obtain ⟨os, m₁, os', m₁', h1, h2, h3, _⟩ := C81_clone_history_eq hr hc.shows Tagged.fresh_eq Tagged.fresh_eq
    (ops := [.insert ⟨1, 7⟩ ⟨3, 8⟩, .iter])
    (by
      simp only [List.mem_cons, List.not_mem_nil, or_false]
      rintro op (rfl | rfl)
      · exact .insert BEq.rfl BEq.rfl
      · exact .iter) (by simp [SafeRun, Safe])
  exact ⟨m, os, m₁, os', m₁', e, h1, h2, h3⟩

end Verif.PartialMap
