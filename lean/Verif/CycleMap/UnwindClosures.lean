import Verif.CycleMap.UnwindFollows
/-
The two models of closures that panic agree: `retainU` and `drainFilterU` (with panics of `Hash` and `Eq`) do what
`retainP` and `drainFilterP` (C80) say.
-/
set_option linter.unusedSectionVars false
set_option linter.unusedSimpArgs false
namespace Verif.CycleMap
open Unw

variable [RawImpl] {L R : Type} [BEq L] [BEq R] {m : CycleMap L R}

theorem nextU_obeys_none {β : Type} {l : MappingPair L} (h : m.getRight l.value = none) {g : L × R → Unw (CycleMap L R) β} :
    Obeys (nextU l >>= g) m (.error .unwrapNone) := by
  have h0 : Follows (nextU l : Unw (CycleMap L R) (L × R)) m (.error .unwrapNone) := by
    refine .user <| .user <| .get ?_
    rw [h]; exact .fail
  exact h0.obeys.bind (r' := fun _ => .error .unwrapNone) (by rintro a m' ⟨⟩)

theorem nextU_obeys_some {β : Type} {l : MappingPair L} {r : R} (h : m.getRight l.value = some r)
    {g : L × R → Unw (CycleMap L R) β} {res : Res (Option β × CycleMap L R)} (h' : Obeys (g (l.value, r)) m res) :
    Obeys (nextU l >>= g) m res := by
  have h0 : Follows (nextU l : Unw (CycleMap L R) (L × R)) m (.ok ((l.value, r), m)) := by
    refine .user <| .user <| .get ?_
    rw [h]; exact .pure
  exact h0.obeys.bind (r' := fun _ => res) (by rintro a m' ⟨⟩; exact h')

theorem retainScanU_obeys {σ : Type} (f : σ → L → R → Option Bool × σ) (ls : List (MappingPair L)) (st : σ) :
    Obeys (retainScanU f ls st) m (do let (d, _) ← m.retainScanP f ls st; return (d, m)) := by
  induction ls generalizing st with
  | nil => exact .pure
  | cons l rest ih =>
    simp only [retainScanU, retainScanP, Iter.next]
    cases h : m.getRight l.value with
    | none => exact nextU_obeys_none h
    | some r =>
      refine nextU_obeys_some h ?_
      cases h2 : f st l.value r with
      | mk b st' =>
        match b with
        | none =>
          simp only [pure, Except.pure, bind, Except.bind, h2]
          exact .closure
        | some true =>
          simp only [pure, Except.pure, bind, Except.bind, h2]
          exact ih st'
        | some false =>
          simp only [pure, Except.pure, bind, Except.bind, h2]
          refine .user <| .user <| .user <| .user <| .get ?_
          cases h3 : m.getLeftInner l.value with
          | none => exact .fail
          | some lp =>
            have h4 := Obeys.bind (g := fun d => (pure ((m.hb.hl l.value, m.hb.hr r, lp.id) :: d) : Unw (CycleMap L R) _))
              (r' := fun y => .ok (some ((m.hb.hl l.value, m.hb.hr r, lp.id) :: y.1), y.2)) (ih st') (fun a m' _ => .pure)
            simp only [bind, Except.bind, pure, Except.pure] at h4 ⊢
            cases h5 : m.retainScanP f rest st' with
            | error p => rw [h5] at h4; exact h4
            | ok x =>
              obtain ⟨d, s⟩ := x
              rw [h5] at h4
              cases d <;> exact h4

theorem retainU_obeys {σ : Type} (f : σ → L → R → Option Bool × σ) (st : σ) :
    Obeys (retainU f st) m (do
      let (e, _, m') ← m.retainP f st
      return (if e = .returned then some () else none, m')) := by
  refine .get ?_
  have := Obeys.bind (g := fun d => retainDropU d) (retainScanU_obeys (m := m) f m.iter.todo st)
    (r' := fun x => do return (some (), ← x.2.retainDrop x.1)) (fun a m' _ => by
      have := (retainDropU_follows (m := m') a).obeys
      simp only [bind, Except.bind, pure, Except.pure] at this ⊢
      cases h : m'.retainDrop a <;> rw [h] at this <;> exact this)
  simp only [retainP, bind, Except.bind, pure, Except.pure] at this ⊢
  cases h : m.retainScanP f m.iter.todo st with
  | error p => rw [h] at this; exact this
  | ok x =>
    obtain ⟨d, s⟩ := x
    rw [h] at this
    cases d with
    | none => exact this
    | some d =>
      simp only at this ⊢
      cases h' : m.retainDrop d <;> rw [h'] at this <;> exact this

/-- what `next` ends with, in the other model -/
def Next.toU : Next L R → NextU L R
  | .done => .done
  | .item p => .item p
  | .panic => .panic none

theorem DrainFilter.nextU_eq {σ : Type} {f : σ → L → R → Option Bool × σ} {kept todo : List (UInt64 × MappingPair L)}
    {right : RawTable (MappingPair R)} {st : σ} {o : Next L R} {it : DrainFilter σ L R}
    (e : DrainFilter.nextP f kept todo right st = .ok (o, it)) : DrainFilter.nextU f kept todo right st = (o.toU, it) := by
  induction todo generalizing kept st with
  | nil => cases e; rfl
  | cons x rest ih =>
    simp only [DrainFilter.nextP] at e
    simp only [DrainFilter.nextU]
    cases h : right.removeEntry x.2.hash (justId x.2.id) with
    | none => rw [h] at e; cases e
    | some y =>
      obtain ⟨r, right'⟩ := y
      rw [h] at e
      simp only at e ⊢
      cases h2 : f st x.2.value r.value with
      | mk b st' =>
        rw [h2] at e
        match b with
        | none => cases e; rfl
        | some true => cases e; rfl
        | some false => exact ih e

theorem DrainFilter.takeU_eq {σ : Type} {f : σ → L → R → Option Bool × σ} {n : Nat} {it it' : DrainFilter σ L R}
    {ps : List (L × R)} {b : Bool} (e : DrainFilter.takeP f n it = .ok (ps, b, it')) :
    DrainFilter.takeU f n it = (ps, if b then some none else none, it') := by
  induction n generalizing it ps with
  | zero => cases e; rfl
  | succ n ih =>
    simp only [DrainFilter.takeP] at e
    simp only [DrainFilter.takeU]
    cases h : DrainFilter.nextP f it.kept it.todo it.right it.st with
    | error p => rw [h] at e; cases e
    | ok x =>
      obtain ⟨o, it1⟩ := x
      rw [DrainFilter.nextU_eq h]
      simp only [h, bind, Except.bind, pure, Except.pure] at e
      cases o with
      | done => cases e; rfl
      | panic => cases e; rfl
      | item p =>
        simp only at e
        cases h2 : DrainFilter.takeP f n it1 with
        | error p => rw [h2] at e; cases e
        | ok y =>
          obtain ⟨qs, b', it2⟩ := y
          rw [h2] at e
          cases e
          simp only [Next.toU, ih h2]

theorem drainFilterU_eq {σ : Type} {f : σ → L → R → Option Bool × σ} {st st' : σ} {n : Nat} {e : Ending}
    {ps : List (L × R)} {m' : CycleMap L R} (h : m.drainFilterP f st n = .ok (e, ps, st', m')) (fate : Fate) :
    drainFilterU f st n fate m = match e with
      | .returned => .done ps fate m'
      | .panicked => .panic none m'
      | .aborted => .abort := by
  simp only [drainFilterP, bind, Except.bind, pure, Except.pure] at h
  simp only [drainFilterU]
  cases h1 : DrainFilter.takeP f n ⟨[], m.left.entries, m.right, st⟩ with
  | error p => rw [h1] at h; cases h
  | ok x =>
    obtain ⟨qs, b, it⟩ := x
    simp only [h1] at h
    simp only [DrainFilter.takeU_eq h1]
    cases h2 : DrainFilter.takeP f (it.todo.length + 1) it with
    | error p => rw [h2] at h; cases h
    | ok y =>
      obtain ⟨q2, b', it'⟩ := y
      simp only [h2] at h
      simp only [DrainFilter.takeU_eq h2]
      cases h
      cases b <;> cases b' <;> rfl

end Verif.CycleMap
