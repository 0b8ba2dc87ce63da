import Verif.PartialMap.UnwindFollows
/-
The two models of closures that panic agree: the `retain…U`s and `drainFilterU` (with panics of `Hash` and `Eq`) do what
the `retain…P`s and `drainFilterP` (C92) say.
-/
set_option linter.unusedSectionVars false
set_option linter.unusedSimpArgs false
namespace Verif.PartialMap
open OptionalPair Unw
open CycleMap (Ending)

variable [RawImpl] {L R : Type} [BEq L] [BEq R] {m : PartialMap L R}

theorem nextU_obeys {β : Type} {l : MappingPair L} {g : OptionalPair L R → Unw (PartialMap L R) β}
    {res : Res (Option β × PartialMap L R)} (h : Obeys (g (ofPair (some l.value, m.getRight l.value))) m res) :
    Obeys (nextU l >>= g) m res := by
  have h0 : Follows (nextU l : Unw (PartialMap L R) _) m (.ok (ofPair (some l.value, m.getRight l.value), m)) :=
    .user <| .user <| .get .pure
  exact h0.obeys.bind (r' := fun _ => res) (by rintro a m' ⟨⟩; exact h)

theorem retainScanU_obeys {σ : Type} (f : σ → OptionalPair L R → Option Bool × σ) (ls : List (MappingPair L)) (st : σ) :
    Obeys (retainScanU f ls st) m (do let (d, _) ← m.retainScanP f ls st; return (d, m)) := by
  induction ls generalizing st with
  | nil => exact .pure
  | cons l rest ih =>
    simp only [retainScanU, retainScanP, Iter.next]
    refine nextU_obeys ?_
    cases hg : m.getRight l.value with
    | none =>
      simp only [ofPair]
      cases h2 : f st (someLeft l.value) with
      | mk b st' =>
        match b with
        | none => exact .closure
        | some false => exact ih st'
        | some true =>
          refine .user <| .user <| .user <| .get ?_
          simp only [toPair, Option.map, OptionalPair.getRight]
          cases h3 : m.getLeftInner l.value with
          | none => exact .fail
          | some p =>
            have h4 := Obeys.bind (g := fun d => (pure ((some (m.hb.hl l.value), none, p.id) :: d) : Unw (PartialMap L R) _))
              (r' := fun y => .ok (some ((some (m.hb.hl l.value), none, p.id) :: y.1), y.2)) (ih st') (fun a m' _ => .pure)
            simp only [bind, Except.bind, pure, Except.pure] at h4 ⊢
            cases h5 : m.retainScanP f rest st' with
            | error p => rw [h5] at h4; exact h4
            | ok x =>
              obtain ⟨d, s⟩ := x
              rw [h5] at h4
              cases d <;> exact h4
    | some r =>
      simp only [ofPair]
      cases h2 : f st (someBoth l.value r) with
      | mk b st' =>
        match b with
        | none => exact .closure
        | some false => exact ih st'
        | some true =>
          refine .user <| .user <| .user <| .user <| .get ?_
          simp only [toPair, Option.map, OptionalPair.getRight]
          cases h3 : m.getLeftInner l.value with
          | none => exact .fail
          | some p =>
            have h4 := Obeys.bind
              (g := fun d => (pure ((some (m.hb.hl l.value), some (m.hb.hr r), p.id) :: d) : Unw (PartialMap L R) _))
              (r' := fun y => .ok (some ((some (m.hb.hl l.value), some (m.hb.hr r), p.id) :: y.1), y.2)) (ih st') (fun a m' _ => .pure)
            simp only [bind, Except.bind, pure, Except.pure] at h4 ⊢
            cases h5 : m.retainScanP f rest st' with
            | error p => rw [h5] at h4; exact h4
            | ok x =>
              obtain ⟨d, s⟩ := x
              rw [h5] at h4
              cases d <;> exact h4

theorem retainU_obeys {σ : Type} (f : σ → OptionalPair L R → Option Bool × σ) (st : σ) :
    Obeys (retainU f st) m (do
      let (e, _, m') ← m.retainP f st
      return (if e = .returned then some () else none, m')) := by
  refine .get ?_
  have := Obeys.bind (g := fun d => retainDropU true d) (retainScanU_obeys (m := m) f m.iter.todo st)
    (r' := fun x => do return (some (), ← x.2.retainDrop x.1)) (fun a m' _ => by
      have := (retainDropU_follows (m := m') a).obeys
      simp only [bind, Except.bind, pure, Except.pure] at this ⊢
      cases h : m'.retainDrop a <;> rw [h] at this <;> exact this)
  simp only [retainP, bind, Except.bind, pure, Except.pure] at this ⊢
  cases h : m.retainScanP f m.iter.todo st with
  | error p => rw [h] at this; exact this
  | ok x =>
    obtain ⟨d, s⟩ := x
    rw [h] at this
    cases d with
    | none => exact this
    | some d =>
      simp only at this ⊢
      cases h' : m.retainDrop d <;> rw [h'] at this <;> exact this

theorem retainPairedScanU_obeys {σ : Type} (f : σ → L → R → Option Bool × σ) (ls : List (MappingPair L)) (st : σ)
    {ps : List (L × R)} (hps : pairedOf m ls = .ok ps) :
    Obeys (retainPairedScanU f ls st) m (do
      let (d, _) ← m.retainPairedScanP (fun s p => f s p.1 p.2) ps st
      return (d, m)) := by
  induction ls generalizing st ps with
  | nil => cases hps; exact .pure
  | cons l rest ih =>
    simp only [retainPairedScanU]
    simp only [pairedOf] at hps
    cases hl : l.hash with
    | none => rw [hl] at hps; exact ih st hps
    | some hash =>
      rw [hl] at hps
      refine .user <| .get ?_
      simp only at hps ⊢
      cases hv : m.getViaHashesAndId (m.hb.hl l.value) hash l.id with
      | error p => rw [hv] at hps; cases hps
      | ok o =>
        rw [hv] at hps
        cases o with
        | none => cases hps; exact .pure
        | some p =>
          obtain ⟨a, b⟩ := p
          simp only [bind, Except.bind, pure, Except.pure] at hps ⊢
          cases h5 : pairedOf m rest with
          | error q => rw [h5] at hps; cases hps
          | ok qs =>
            rw [h5] at hps
            cases hps
            simp only [retainPairedScanP]
            cases h2 : f st a b with
            | mk t st' =>
              match t with
              | none => exact .closure
              | some false => exact ih st' h5
              | some true =>
                refine .user <| .user <| .user <| .user ?_
                cases h3 : m.getLeftInner a with
                | none => exact .fail
                | some p =>
                  have h4 := Obeys.bind
                    (g := fun d => (pure ((m.hb.hl a, m.hb.hr b, p.id) :: d) : Unw (PartialMap L R) _))
                    (r' := fun y => .ok (some ((m.hb.hl a, m.hb.hr b, p.id) :: y.1), y.2)) (ih st' h5) (fun a m' _ => .pure)
                  simp only [bind, Except.bind, pure, Except.pure] at h4 ⊢
                  cases h6 : m.retainPairedScanP (fun s p => f s p.1 p.2) qs st' with
                  | error p => rw [h6] at h4; exact h4
                  | ok x =>
                    obtain ⟨d, s⟩ := x
                    rw [h6] at h4
                    cases d <;> exact h4

theorem retainPairedU_obeys {σ : Type} (f : σ → L → R → Option Bool × σ) (st : σ) {ps : List (L × R)}
    (hps : m.iterPairedList = .ok ps) :
    Obeys (retainPairedU f st) m (do
      let (e, _, m') ← m.retainPairedP (fun s p => f s p.1 p.2) st
      return (if e = .returned then some () else none, m')) := by
  refine .get ?_
  rw [iterPairedList_pairedOf] at hps
  have h0 : Obeys (retainPairedScanU f m.iterPaired.todo st >>= fun d => Unw.get >>= fun m => Unw.set (retainPairedDrop m d))
      m _ := Obeys.bind (retainPairedScanU_obeys (m := m) f m.iterPaired.todo st hps)
    (r' := fun x => .ok (some (), retainPairedDrop x.2 x.1))
    (fun a m' _ => Follows.obeys (r := .ok ((), retainPairedDrop m' a)) ⟨fun _ => rfl, 0, fun _ _ => ⟨rfl, Nat.le_refl _⟩⟩)
  simp only [retainPairedP, iterPairedList_pairedOf, hps, bind, Except.bind, pure, Except.pure] at h0 ⊢
  cases h' : m.retainPairedScanP (fun s p => f s p.1 p.2) ps st with
  | error p => rw [h'] at h0; exact h0
  | ok x =>
    obtain ⟨d, s⟩ := x
    rw [h'] at h0
    cases d <;> exact h0

theorem retainUnpairedScanU_obeys {σ : Type} (f : σ → OptionalPair L R → Option Bool × σ) (os : List (OptionalPair L R)) (st : σ) :
    Obeys (retainUnpairedScanU f os st) m (do let (d, _) ← m.retainUnpairedScanP f os st; return (d, m)) := by
  induction os generalizing st with
  | nil => exact .pure
  | cons o rest ih =>
    simp only [retainUnpairedScanU, retainUnpairedScanP]
    cases h2 : f st o with
    | mk b st' =>
      match b with
      | none => exact .closure
      | some false => exact ih st'
      | some true =>
        cases o with
        | neither => exact .fail
        | someBoth => exact .fail
        | someLeft l =>
          refine .user <| .user <| .get ?_
          simp only
          cases h3 : m.left.get (m.hb.hl l) (equivalentKey l) with
          | none => exact .fail
          | some p =>
            have h4 := Obeys.bind (g := fun d => (pure ((some (m.hb.hl l), none, p.id) :: d) : Unw (PartialMap L R) _))
              (r' := fun y => .ok (some ((some (m.hb.hl l), none, p.id) :: y.1), y.2)) (ih st') (fun a m' _ => .pure)
            simp only [bind, Except.bind, pure, Except.pure] at h4 ⊢
            cases h5 : m.retainUnpairedScanP f rest st' with
            | error p => rw [h5] at h4; exact h4
            | ok x =>
              obtain ⟨d, s⟩ := x
              rw [h5] at h4
              cases d <;> exact h4
        | someRight r =>
          refine .user <| .user <| .get ?_
          simp only
          cases h3 : m.right.get (m.hb.hr r) (equivalentKey r) with
          | none => exact .fail
          | some p =>
            have h4 := Obeys.bind (g := fun d => (pure ((none, some (m.hb.hr r), p.id) :: d) : Unw (PartialMap L R) _))
              (r' := fun y => .ok (some ((none, some (m.hb.hr r), p.id) :: y.1), y.2)) (ih st') (fun a m' _ => .pure)
            simp only [bind, Except.bind, pure, Except.pure] at h4 ⊢
            cases h5 : m.retainUnpairedScanP f rest st' with
            | error p => rw [h5] at h4; exact h4
            | ok x =>
              obtain ⟨d, s⟩ := x
              rw [h5] at h4
              cases d <;> exact h4

theorem retainUnpairedU_obeys {σ : Type} (f : σ → OptionalPair L R → Option Bool × σ) (st : σ) :
    Obeys (retainUnpairedU f st) m (do
      let (e, _, m') ← m.retainUnpairedP f st
      return (if e = .returned then some () else none, m')) := by
  refine .get ?_
  have := Obeys.bind (g := fun d => retainDropU false d) (retainUnpairedScanU_obeys (m := m) f m.iterUnpairedList st)
    (r' := fun x => do return (some (), ← x.2.retainUnpairedDrop x.1)) (fun a m' _ => by
      have := (retainUnpairedDropU_follows (m := m') a).obeys
      simp only [bind, Except.bind, pure, Except.pure] at this ⊢
      cases h : m'.retainUnpairedDrop a <;> rw [h] at this <;> exact this)
  simp only [retainUnpairedP, bind, Except.bind, pure, Except.pure] at this ⊢
  cases h : m.retainUnpairedScanP f m.iterUnpairedList st with
  | error p => rw [h] at this; exact this
  | ok x =>
    obtain ⟨d, s⟩ := x
    rw [h] at this
    cases d with
    | none => exact this
    | some d =>
      simp only at this ⊢
      cases h' : m.retainUnpairedDrop d <;> rw [h'] at this <;> exact this

/-- what `next` ends with, in the other model -/
def Next.toU : Next L R → NextU L R
  | .done => .done
  | .item p => .item p
  | .panic => .panic none

theorem DrainFilter.nextLU_eq {σ : Type} {f : σ → OptionalPair L R → Option Bool × σ} {kept todo : List (UInt64 × MappingPair L)}
    {right : RawTable (MappingPair R)} {st : σ} {o : Next L R} {x}
    (e : DrainFilter.nextLP f kept todo right st = .ok (o, x)) : DrainFilter.nextLU f kept todo right st = (o.toU, x) := by
  induction todo generalizing kept st with
  | nil => cases e; rfl
  | cons y rest ih =>
    simp only [DrainFilter.nextLP] at e
    simp only [DrainFilter.nextLU]
    cases hh : y.2.hash with
    | none =>
      rw [hh] at e
      simp only at e ⊢
      cases h2 : f st (someLeft y.2.value) with
      | mk b st' =>
        rw [h2] at e
        match b with
        | none => cases e; rfl
        | some true => cases e; rfl
        | some false => exact ih e
    | some hash =>
      rw [hh] at e
      simp only at e ⊢
      cases h : right.removeEntry hash (justId y.2.id) with
      | none => rw [h] at e; cases e
      | some z =>
        obtain ⟨r, right'⟩ := z
        rw [h] at e
        simp only at e ⊢
        cases h2 : f st (someBoth y.2.value r.value) with
        | mk b st' =>
          rw [h2] at e
          match b with
          | none => cases e; rfl
          | some true => cases e; rfl
          | some false => exact ih e

theorem DrainFilter.nextRU_eq {σ : Type} (f : σ → OptionalPair L R → Option Bool × σ) (kept todo : List (UInt64 × MappingPair R))
    (st : σ) : DrainFilter.nextRU f kept todo st =
      ((DrainFilter.nextRP f kept todo st).1.toU, (DrainFilter.nextRP f kept todo st).2) := by
  induction todo generalizing kept st with
  | nil => rfl
  | cons y rest ih =>
    simp only [DrainFilter.nextRU, DrainFilter.nextRP]
    cases h2 : f st (someRight y.2.value) with
    | mk b st' =>
      match b with
      | none => rfl
      | some true => rfl
      | some false => exact ih _ _

theorem DrainFilter.nextU_eq {σ : Type} {f : σ → OptionalPair L R → Option Bool × σ} {it it' : DrainFilter σ L R} {o : Next L R}
    (e : DrainFilter.nextP f it = .ok (o, it')) : DrainFilter.nextU f it = (o.toU, it') := by
  simp only [DrainFilter.nextP, bind, Except.bind, pure, Except.pure] at e
  simp only [DrainFilter.nextU]
  cases h : DrainFilter.nextLP f it.keptL it.todoL it.right it.st with
  | error p => rw [h] at e; cases e
  | ok x =>
    obtain ⟨o1, keptL, todoL, right, st⟩ := x
    rw [DrainFilter.nextLU_eq h]
    rw [h] at e
    cases o1 with
    | item p => cases e; rfl
    | panic => cases e; rfl
    | done =>
      simp only [Next.toU] at e ⊢
      rw [DrainFilter.nextRU_eq]
      cases e
      rfl

theorem DrainFilter.takeU_eq {σ : Type} {f : σ → OptionalPair L R → Option Bool × σ} {n : Nat} {it it' : DrainFilter σ L R}
    {ps : List (OptionalPair L R)} {b : Bool} (e : DrainFilter.takeP f n it = .ok (ps, b, it')) :
    DrainFilter.takeU f n it = (ps, if b then some none else none, it') := by
  induction n generalizing it ps with
  | zero => cases e; rfl
  | succ n ih =>
    simp only [DrainFilter.takeP] at e
    simp only [DrainFilter.takeU]
    cases h : DrainFilter.nextP f it with
    | error p => rw [h] at e; cases e
    | ok x =>
      obtain ⟨o, it1⟩ := x
      rw [DrainFilter.nextU_eq h]
      simp only [h, bind, Except.bind, pure, Except.pure] at e
      cases o with
      | done => cases e; rfl
      | panic => cases e; rfl
      | item p =>
        simp only at e
        cases h2 : DrainFilter.takeP f n it1 with
        | error p => rw [h2] at e; cases e
        | ok y =>
          obtain ⟨qs, b', it2⟩ := y
          rw [h2] at e
          cases e
          simp only [Next.toU, ih h2]

theorem drainFilterU_eq {σ : Type} {f : σ → OptionalPair L R → Option Bool × σ} {st st' : σ} {n : Nat} {e : Ending}
    {ps : List (OptionalPair L R)} {m' : PartialMap L R} (h : m.drainFilterP f st n = .ok (e, ps, st', m')) (fate : Fate) :
    drainFilterU f st n fate m = match e with
      | .returned => .done ps fate m'
      | .panicked => .panic none m'
      | .aborted => .abort := by
  simp only [drainFilterP, bind, Except.bind, pure, Except.pure] at h
  simp only [drainFilterU]
  cases h1 : DrainFilter.takeP f n ⟨[], m.left.entries, m.right, true, [], [], st⟩ with
  | error p => rw [h1] at h; cases h
  | ok x =>
    obtain ⟨qs, b, it⟩ := x
    simp only [h1] at h
    simp only [DrainFilter.takeU_eq h1]
    cases h2 : DrainFilter.takeP f (it.todoL.length + it.right.len + it.todoR.length + 1) it with
    | error p => rw [h2] at h; cases h
    | ok y =>
      obtain ⟨q2, b', it'⟩ := y
      simp only [h2] at h
      simp only [DrainFilter.takeU_eq h2]
      cases h
      cases b <;> cases b' <;> rfl

end Verif.PartialMap
