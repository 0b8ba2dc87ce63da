import Verif.Props.CycleIter
import Verif.Props.PartialIter
/-! Property C104: the `size_hint` of `drain_filter`, `(0, Some(n))`. -/
set_option linter.unusedSectionVars false
set_option linter.unusedSimpArgs false

namespace Verif.CycleMap
open CycleSpec OptionalPair Demo

variable [RawImpl] {L R : Type} [BEq L] [BEq R]

theorem drainFilter_next_le {σ : Type} (f : σ → L → R → Bool × σ) (kept todo : List (UInt64 × MappingPair L))
    (right : RawTable (MappingPair R)) (st : σ) (o : Option (L × R)) (it' : DrainFilter σ L R)
    (e : DrainFilter.next f kept todo right st = .ok (o, it')) : o.toList.length + it'.todo.length ≤ todo.length := by
  induction todo generalizing kept st with
  | nil => simp only [DrainFilter.next] at e; cases e; simp
  | cons x rest ih =>
    simp only [DrainFilter.next] at e
    split at e
    · cases e
    · split at e
      · cases e; simp; omega
      · have := ih _ _ e; simp at this ⊢; omega

/-- C104 for `CycleMap`: from any state of a `drain_filter` iterator, the items it goes on to yield are at most as many
as the upper bound of its `size_hint`, also together with the bound it gives afterwards. -/
theorem C104_size_hint {σ : Type} (f : σ → L → R → Bool × σ) (it it' : DrainFilter σ L R) (k : Nat) (qs : List (L × R))
    (e : DrainFilter.take f k it = .ok (qs, it')) : qs.length + it'.sizeHint ≤ it.sizeHint := by
  induction k generalizing it qs with
  | zero => simp only [DrainFilter.take] at e; cases e; simp
  | succ k ih =>
    simp only [DrainFilter.take, bind, Except.bind, pure, Except.pure] at e
    split at e
    · cases e
    · rename_i v e1
      obtain ⟨o, it1⟩ := v
      have h1 := drainFilter_next_le _ _ _ _ _ _ _ e1
      cases o with
      | none => cases e; simp [DrainFilter.sizeHint] at h1 ⊢; exact h1
      | some p =>
        simp only at e
        split at e
        · cases e
        · rename_i v e2
          obtain ⟨ps, it2⟩ := v
          cases e
          have h2 := ih _ _ e2
          simp [DrainFilter.sizeHint] at h1 h2 ⊢; omega

/-- At the start the bound is the number of pairs. -/
theorem C104_start [LawfulRaw] [EquivBEq L] [EquivBEq R] {m : CycleMap L R} {c : List (L × R)} {σ : Type} (hc : Shows m c)
    (s : σ) : (DrainFilter.sizeHint { kept := [], todo := m.left.entries, right := m.right, st := s }) = c.length := by
  rw [← hc.len]; rfl

example [LawfulRaw] : (DrainFilter.sizeHint { kept := [], todo := demo.left.entries, right := demo.right, st := () }) = 3 :=
  C104_start demo_shows ()

end Verif.CycleMap

namespace Verif.PartialMap
open PartialSpec OptionalPair Demo

variable [RawImpl] {L R : Type} [BEq L] [BEq R]

/-- C104 for `PartialCycleMap` in full: the same bound.  False, see `C104_false`. -/
def C104_full : Prop :=
  ∀ [RawImpl] [LawfulRaw] (L R : Type) [BEq L] [BEq R] [EquivBEq L] [EquivBEq R] (m : PartialMap L R) (σ : Type)
    (f : σ → OptionalPair L R → Bool × σ) (s : σ) (k : Nat) (qs : List (OptionalPair L R)) (it : DrainFilter σ L R),
    Reachable m →
    DrainFilter.take f k { keptL := [], todoL := m.left.entries, right := m.right, reset := true, keptR := [], todoR := [], st := s } =
      .ok (qs, it) →
    qs.length ≤ (DrainFilter.sizeHint
      { keptL := [], todoL := m.left.entries, right := m.right, reset := true, keptR := [], todoR := [], st := s })

theorem drainFilter_nextL_le {σ : Type} (f : σ → OptionalPair L R → Bool × σ) (kept todo : List (UInt64 × MappingPair L))
    (right : RawTable (MappingPair R)) (st : σ) {o kept' todo' right' st'}
    (e : DrainFilter.nextL f kept todo right st = .ok (o, kept', todo', right', st')) :
    o.toList.length + todo'.length ≤ todo.length ∧ (o = none → todo' = []) ∧
      ∀ x, o = some x → (leftOf x).isSome = true := by
  induction todo generalizing kept st with
  | nil => simp only [DrainFilter.nextL] at e; cases e; simp
  | cons x rest ih =>
    simp only [DrainFilter.nextL] at e
    split at e
    · split at e
      · cases e
      · split at e
        · cases e; simp [leftOf]; omega
        · have := ih _ _ e; refine ⟨?_, this.2⟩; simp at this ⊢; omega
    · split at e
      · cases e; simp [leftOf]; omega
      · have := ih _ _ e; refine ⟨?_, this.2⟩; simp at this ⊢; omega

theorem drainFilter_nextR_right {σ : Type} (f : σ → OptionalPair L R → Bool × σ) (kept todo : List (UInt64 × MappingPair R))
    (st : σ) : ∀ x, (DrainFilter.nextR f kept todo st).1 = some x → leftOf x = none := by
  induction todo generalizing kept st with
  | nil => simp [DrainFilter.nextR]
  | cons x rest ih =>
    intro y hy
    simp only [DrainFilter.nextR] at hy
    split at hy
    · cases hy; rfl
    · exact ih _ _ y hy

/-- C104 for `PartialCycleMap`, what holds: the bound is one on the items *with a left item* that are still to be
yielded.  Missing: items without one. -/
theorem C104_partial {σ : Type} (f : σ → OptionalPair L R → Bool × σ) (it it' : DrainFilter σ L R) (k : Nat)
    (qs : List (OptionalPair L R)) (e : DrainFilter.take f k it = .ok (qs, it')) :
    (qs.filter fun o => (leftOf o).isSome).length + it'.sizeHint ≤ it.sizeHint := by
  induction k generalizing it qs with
  | zero => simp only [DrainFilter.take] at e; cases e; simp
  | succ k ih =>
    simp only [DrainFilter.take, bind, Except.bind, pure, Except.pure] at e
    split at e
    · cases e
    · rename_i v e1
      obtain ⟨o, it1⟩ := v
      have h1 : (o.toList.filter fun o => (leftOf o).isSome).length + it1.todoL.length ≤ it.todoL.length := by
        simp only [DrainFilter.next, bind, Except.bind, pure, Except.pure] at e1
        split at e1
        · cases e1
        · rename_i v e0
          obtain ⟨o', keptL, todoL, right, st⟩ := v
          have h0 := drainFilter_nextL_le _ _ _ _ _ e0
          cases o' with
          | some x =>
            cases e1
            have := h0.2.2 x rfl
            simp [List.filter, this] at h0 ⊢; exact h0
          | none =>
            simp only at e1
            cases e1
            have : ∀ b kr tr, ((DrainFilter.nextR f kr tr b).1.toList.filter fun o => (leftOf o).isSome) = [] := by
              intro b kr tr
              cases hx : (DrainFilter.nextR f kr tr b).1 with
              | none => rfl
              | some x => simp [drainFilter_nextR_right f kr tr b x hx]
            rw [this]; simp
      cases o with
      | none => cases e; simp [DrainFilter.sizeHint] at h1 ⊢; exact h1
      | some p =>
        simp only at e
        split at e
        · cases e
        · rename_i v e2
          obtain ⟨ps, it2⟩ := v
          cases e
          have h2 := ih _ _ e2
          simp only [DrainFilter.sizeHint, Option.toList_some] at h1 h2 ⊢
          rw [show p :: ps = [p] ++ ps from rfl, List.filter_append, List.length_append]
          omega

/-- What the bound is at the start: the number of left items, whatever may come from the right. -/
theorem C104_actual [LawfulRaw] [EquivBEq L] [EquivBEq R] {m : PartialMap L R} {c : List (OptionalPair L R)} {σ : Type}
    (hc : Shows m c) (s : σ) :
    (DrainFilter.sizeHint { keptL := [], todoL := m.left.entries, right := m.right, reset := true, keptR := [], todoR := [], st := s }) =
      (c.filterMap leftOf).length := by
  have := hc.iterLeft.length_eq
  simp only [iterLeft, List.length_map, RawTable.toList] at this
  exact this

example [LawfulRaw] : (DrainFilter.sizeHint
    { keptL := [], todoL := demo.left.entries, right := demo.right, reset := true, keptR := [], todoR := [], st := () }) = 3 :=
  C104_actual demo_shows ()

omit [RawImpl] in
/-- the witness: one lone right item, all of which `drain_filter(|_| true)` yields, with the bound 0 -/
theorem C104_false : ¬ C104_full := by
  intro h
  letI := messyRaw; haveI := messyRaw_lawful
  obtain ⟨m, e, hr, _⟩ := extend_refines (withHasher_repr constHash) [(someRight 7 : OptionalPair Nat Nat)]
  have hm : Reachable m := .step (op := .extend [someRight 7]) (o := .unit) (.new constHash) (by simp) (by simp) (by simp) (by
    simp only [exec, e]; rfl)
  have h0 := C104_actual hr.shows ()
  have h2 := h Nat Nat m Unit (fun _ _ => (true, ())) () 1 _ _ hm (by cases e; rfl)
  rw [h0] at h2
  revert h2; decide

end Verif.PartialMap
