import Verif.GroupMap.UnwindFollows
/-
The two models of closures that panic agree: `retainPairedU` and `retainUnpairedU` (with panics of `Hash` and `Eq`) do
what `retainPairedP` and `retainUnpairedP` (C93) say.
-/
set_option linter.unusedSectionVars false
set_option linter.unusedSimpArgs false
namespace Verif.GroupMap
open Unw
open CycleMap (Ending)

variable [RawImpl] {L R : Type} [BEq L] [BEq R] {m : GroupMap L R}

theorem retainPairedScanU_obeys {σ : Type} (f : σ → L → R → Option Bool × σ) (ls : List (LeftItem L)) (st : σ) (n : Nat)
    (hn : ls.length < n) {ps : List (L × R)} {it} (hps : PairedIter.take m n ⟨ls⟩ = .ok (ps, it)) :
    Obeys (retainPairedScanU f ls st) m (do
      let (d, _) ← m.retainPairedScanP (fun s p => f s p.1 p.2) ps st
      return (d, m)) := by
  induction ls generalizing st n ps it with
  | nil =>
    cases n with
    | zero => cases hn
    | succ n => cases hps; exact .pure
  | cons l rest ih =>
    cases n with
    | zero => cases hn
    | succ n =>
      simp only [PairedIter.take, PairedIter.next] at hps
      simp only [retainPairedScanU]
      refine .get ?_
      cases h : m.right.get l.hash (rightWithRightId l.rid) with
      | none => rw [h] at hps; cases hps
      | some r =>
        simp only [h, bind, Except.bind, pure, Except.pure] at hps
        cases h0 : PairedIter.take m n ⟨rest⟩ with
        | error p => rw [h0] at hps; cases hps
        | ok x =>
          obtain ⟨qs, it'⟩ := x
          rw [h0] at hps
          cases hps
          have ih := fun st => ih st n (by simpa using hn) h0
          simp only [retainPairedScanP]
          cases h2 : f st l.value r.value with
          | mk b st' =>
            match b with
            | none => exact .closure
            | some false => exact ih st'
            | some true =>
              refine .user <| .user ?_
              simp only
              cases h3 : m.getLeftInnerWithHash l.value (m.hb.hl l.value) with
              | none => exact .fail
              | some lp =>
                have h4 := Obeys.bind (g := fun d => (pure ((m.hb.hl l.value, lp.id) :: d) : Unw (GroupMap L R) _))
                  (r' := fun y => .ok (some ((m.hb.hl l.value, lp.id) :: y.1), y.2)) (ih st') (fun a m' _ => .pure)
                simp only [bind, Except.bind, pure, Except.pure] at h4 ⊢
                cases h5 : m.retainPairedScanP (fun s p => f s p.1 p.2) qs st' with
                | error p => rw [h5] at h4; exact h4
                | ok x =>
                  obtain ⟨d, s⟩ := x
                  rw [h5] at h4
                  cases d <;> exact h4

theorem retainPairedU_obeys {σ : Type} (f : σ → L → R → Option Bool × σ) (st : σ) {ps : List (L × R)}
    (hps : m.iterPairedList = .ok ps) :
    Obeys (retainPairedU f st) m (do
      let (e, _, m') ← m.retainPairedP (fun s p => f s p.1 p.2) st
      return (if e = .returned then some () else none, m')) := by
  refine .get ?_
  obtain ⟨it, hit⟩ : ∃ it, PairedIter.take m (m.left.len + 1) m.iterPaired = .ok (ps, it) := by
    simp only [iterPairedList, bind, Except.bind, pure, Except.pure] at hps
    cases h : PairedIter.take m (m.left.len + 1) m.iterPaired with
    | error p => rw [h] at hps; cases hps
    | ok x => rw [h] at hps; cases hps; exact ⟨x.2, rfl⟩
  have h2 := Obeys.bind (g := fun d => Unw.set { m with left := retainPairedDrop m.left d })
    (retainPairedScanU_obeys (m := m) f m.iterPaired.todo st _ (by simp [iterPaired, RawTable.toList, RawTable.len]) hit)
    (r' := fun x => .ok (some (), { m with left := retainPairedDrop m.left x.1 }))
    (fun a m' _ => Follows.obeys (r := .ok ((), { m with left := retainPairedDrop m.left a })) follows_set)
  simp only [retainPairedP, hps, bind, Except.bind, pure, Except.pure] at h2 ⊢
  cases h' : m.retainPairedScanP (fun s p => f s p.1 p.2) ps st with
  | error p => rw [h'] at h2; exact h2
  | ok x =>
    obtain ⟨d, s⟩ := x
    rw [h'] at h2
    cases d <;> exact h2

theorem retainUnpairedScanU_obeys {σ : Type} (f : σ → R → Option Bool × σ) (ls : List R) (st : σ) :
    Obeys (retainUnpairedScanU f ls st) m (do let (d, _) ← m.retainUnpairedScanP f ls st; return (d, m)) := by
  induction ls generalizing st with
  | nil => exact .pure
  | cons r rest ih =>
    simp only [retainUnpairedScanU, retainUnpairedScanP]
    cases h2 : f st r with
    | mk b st' =>
      match b with
      | none => exact .closure
      | some false => exact ih st'
      | some true =>
        refine .user <| .user <| .get ?_
        simp only
        cases h3 : m.getRightInnerWithHash r (m.hb.hr r) with
        | none => exact .fail
        | some lp =>
          have h4 := Obeys.bind (g := fun d => (pure ((m.hb.hr r, lp.id) :: d) : Unw (GroupMap L R) _))
            (r' := fun y => .ok (some ((m.hb.hr r, lp.id) :: y.1), y.2)) (ih st') (fun a m' _ => .pure)
          simp only [bind, Except.bind, pure, Except.pure] at h4 ⊢
          cases h5 : m.retainUnpairedScanP f rest st' with
          | error p => rw [h5] at h4; exact h4
          | ok x =>
            obtain ⟨d, s⟩ := x
            rw [h5] at h4
            cases d <;> exact h4

theorem retainUnpairedU_obeys {σ : Type} (f : σ → R → Option Bool × σ) (st : σ) :
    Obeys (retainUnpairedU f st) m (do
      let (e, _, m') ← m.retainUnpairedP f st
      return (if e = .returned then some () else none, m')) := by
  refine .get ?_
  have := Obeys.bind (g := fun d => retainUnpairedDropU d) (retainUnpairedScanU_obeys (m := m) f m.iterUnpairedList st)
    (r' := fun x => do return (some (), ← x.2.retainUnpairedDrop x.1)) (fun a m' _ => by
      have := (retainUnpairedDropU_follows (m := m') a).obeys
      simp only [bind, Except.bind, pure, Except.pure] at this ⊢
      cases h : m'.retainUnpairedDrop a <;> rw [h] at this <;> exact this)
  simp only [retainUnpairedP, bind, Except.bind, pure, Except.pure] at this ⊢
  cases h : m.retainUnpairedScanP f m.iterUnpairedList st with
  | error p => rw [h] at this; exact this
  | ok x =>
    obtain ⟨d, s⟩ := x
    rw [h] at this
    cases d with
    | none => exact this
    | some d =>
      simp only at this ⊢
      cases h' : m.retainUnpairedDrop d <;> rw [h'] at this <;> exact this

end Verif.GroupMap
