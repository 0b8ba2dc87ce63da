import Verif.GroupMap.Unwind
/-! The calls with panics that unwind do what the main model says unless the items' own code panics. -/
set_option linter.unusedSectionVars false
set_option linter.unusedSimpArgs false
namespace Verif.GroupMap
open GroupSpec Unw

variable [RawImpl] {L R : Type} [BEq L] [BEq R] {m : GroupMap L R}

/-- a call of the main model seen as one that keeps the map -/
theorem follows_map {α β : Type} {x : Unw (GroupMap L R) α} {r : Res (α × GroupMap L R)} {g : α → β} (h : Follows x m r) :
    Follows (do return g (← x)) m (do let (o, m) ← r; return (g o, m)) :=
  h.bind fun _ _ _ => Follows.pure

theorem follows_set {n : GroupMap L R} : Follows (Unw.set n) m (.ok ((), n)) :=
  ⟨fun _ => rfl, 0, fun _ _ => ⟨rfl, by simp [Unw.set, Halt.rest]⟩⟩

theorem arePairedU_follows (l : L) (r : R) : Follows (arePairedU l r) m (.ok (m.arePaired l r, m)) :=
  .user <| .user <| .user <| .user <| .get .pure

theorem arePairedU_bind {α : Type} {l : L} {r : R} {g : Bool → Unw (GroupMap L R) α} {x : Res (α × GroupMap L R)}
    (h : Follows (g (m.arePaired l r)) m x) : Follows (arePairedU l r >>= g) m x :=
  Follows.bind (r' := fun _ => x) (arePairedU_follows l r) (by rintro a m' ⟨⟩; exact h)

theorem removeLeftU_follows (l : L) : Follows (removeLeftU l) m (m.removeLeft l) := by
  refine .user <| .user <| .get ?_
  simp only [removeLeft]
  cases m.left.removeEntry (m.hb.hl l) (equivalentKeyLeft l) with
  | none => exact .pure
  | some x =>
    refine .set ?_
    simp only
    cases m.right.getMut x.1.hash (rightWithLeftPair (m.hb.hl l, x.1.id)) with
    | none => exact .fail
    | some y => exact .set .pure

theorem removeAllU_follows (hashing : Bool) (ks : List (UInt64 × Nat)) :
    Follows (removeAllU hashing ks) m (do let (ls, t) ← removeAll m.left ks; return (ls, { m with left := t })) := by
  induction ks generalizing m with
  | nil => exact .pure
  | cons k ks ih =>
    simp only [removeAllU, removeAll]
    refine .get ?_
    cases h1 : m.left.removeEntry k.1 (leftWithLeftId k.2) with
    | none => exact .fail
    | some x =>
      have h2 := Follows.bind (g := fun ls => (pure (x.1.value :: ls) : Unw (GroupMap L R) _))
        (r' := fun y => .ok (x.1.value :: y.1, y.2)) (ih (m := { m with left := x.2 })) (fun a m' _ => .pure)
      refine .set ?_
      cases hashing
      · rw [if_neg (by simp)]
        simp only [bind, Except.bind, pure, Except.pure] at h2 ⊢
        cases h3 : removeAll x.2 ks <;> rw [h3] at h2 <;> exact h2
      · rw [if_pos rfl]
        refine .user <| .user ?_
        simp only [bind, Except.bind, pure, Except.pure] at h2 ⊢
        cases h3 : removeAll x.2 ks <;> rw [h3] at h2 <;> exact h2

theorem removeRightU_follows (r : R) : Follows (removeRightU r) m (m.removeRight r) := by
  refine .user <| .user <| .get ?_
  simp only [removeRight]
  cases m.right.removeEntry (m.hb.hr r) (equivalentKeyRight r) with
  | none => exact .pure
  | some x =>
    refine .set ?_
    have h2 := Follows.bind (g := fun ls => (pure (some (collectSet ls, x.1.value)) : Unw (GroupMap L R) _))
        (r' := fun y => .ok (some (collectSet y.1, x.1.value), y.2))
        (removeAllU_follows (m := { m with right := x.2 }) true x.1.pairs.entries) (fun a m' _ => .pure)
    simp only [bind, Except.bind, pure, Except.pure] at h2 ⊢
    cases h3 : removeAll m.left x.1.pairs.entries <;> rw [h3] at h2 <;> exact h2

theorem removeViaHashAndIdU_follows (a : UInt64) (i : Nat) :
    Follows (removeViaHashAndIdU a i) m (m.removeViaHashAndId a i) := by
  refine .get ?_
  simp only [removeViaHashAndId]
  cases m.right.removeEntry a (rightWithRightId i) with
  | none => exact .pure
  | some x =>
    refine .set ?_
    have h2 := Follows.bind (g := fun ls => (pure (some (ls, x.1.value)) : Unw (GroupMap L R) _))
        (r' := fun y => .ok (some (y.1, x.1.value), y.2))
        (removeAllU_follows (m := { m with right := x.2 }) false x.1.pairs.entries) (fun a m' _ => .pure)
    simp only [bind, Except.bind, pure, Except.pure] at h2 ⊢
    cases h3 : removeAll m.left x.1.pairs.entries <;> rw [h3] at h2 <;> exact h2

theorem removeU_follows (l : L) (r : R) : Follows (removeU l r) m (m.remove l r) := by
  refine arePairedU_bind ?_
  simp only [remove]
  split
  · exact removeRightU_follows r
  · exact .pure

theorem insertU_follows (l : L) (r : R) : Follows (insertU l r) m (do return ((), ← m.insert l r)) := by
  refine .user <| .user <| .user <| .user <| .get ?_
  simp only [insert]
  cases h1 : m.left.getMut (m.hb.hl l) (equivalentKeyLeft l) with
  | none =>
    cases h2 : m.right.getMut (m.hb.hr r) (equivalentKeyRight r) with
    | none =>
      exact RawTable.follows_grow_bind <| .get <| RawTable.follows_grow_bind <| .get follows_set
    | some y => exact .set <| RawTable.follows_grow_bind <| .get follows_set
  | some x =>
    cases h2 : m.right.getMut (m.hb.hr r) (equivalentKeyRight r) with
    | none =>
      simp only
      cases h3 : m.right.getMut x.1.hash (rightWithLeftPair (m.hb.hl l, x.1.id)) with
      | none => exact .fail
      | some y => exact .set <| RawTable.follows_grow_bind <| .get follows_set
    | some y =>
      refine .set ?_
      simp only
      cases h3 : (y.2 { y.1 with pairs := y.1.pairs.insert (m.hb.hl l, x.1.id) }).getMut x.1.hash (rightWithRightId x.1.rid) with
      | none => exact .fail
      | some z => exact follows_set

theorem insertRemoveU_follows (l : L) (r : R) : Follows (insertRemoveU l r) m (m.insertRemove l r) := by
  refine (removeLeftU_follows l).bind fun a m1 _ => ?_
  refine (removeRightU_follows r).bind fun b m2 _ => ?_
  exact .user <| .user <| .get <| RawTable.follows_grow_bind <| .get <| RawTable.follows_grow_bind .pure

theorem insertLeftU_follows (l : L) (r : R) : Follows (insertLeftU l r) m (m.insertLeft l r) := by
  refine .user <| .user <| .get ?_
  simp only [insertLeft]
  cases m.right.getMut (m.hb.hr r) (equivalentKeyRight r) with
  | none => exact .pure
  | some y =>
    refine .user <| .set <| (removeLeftU_follows l).bind fun a m1 _ => ?_
    exact .get <| RawTable.follows_grow_bind .pure

theorem insertRightU_follows (r : R) : Follows (insertRightU r) m (m.insertRight r) := by
  refine (removeRightU_follows r).bind fun a m1 _ => ?_
  exact .user <| .get <| RawTable.follows_grow_bind .pure

theorem rehashAllU_follows (a : UInt64) (ks : List (UInt64 × Nat)) :
    Follows (rehashAllU a ks) m (do let t ← rehashAll a m.left ks; return ((), { m with left := t })) := by
  induction ks generalizing m with
  | nil => exact .pure
  | cons k ks ih =>
    simp only [rehashAllU, rehashAll]
    refine .get ?_
    cases h1 : m.left.getMut k.1 (leftWithLeftId k.2) with
    | none => exact .fail
    | some x => exact .set <| ih (m := { m with left := x.2 { x.1 with hash := a } })

theorem swapRightU_follows (a b : R) : Follows (swapRightU a b) m (do return ((), ← m.swapRight a b)) := by
  refine .user <| .user <| .get ?_
  simp only [swapRight]
  cases m.right.getMut (m.hb.hr a) (equivalentKeyRight a) with
  | none =>
    have := Follows.bind (g := fun _ => (pure () : Unw (GroupMap L R) _)) (insertRightU_follows (m := m) b)
      (r' := fun x => .ok ((), x.2)) (fun a m' _ => .pure)
    simp only [bind, Except.bind, pure, Except.pure] at this ⊢
    cases h : m.insertRight b <;> rw [h] at this <;> exact this
  | some y =>
    refine .set <| .user <| RawTable.follows_grow_bind <| .get <| .set ?_
    have := rehashAllU_follows (m := { m with
      right := (y.2 { y.1 with pairs := y.1.pairs.clear }).insert (m.hb.hr b) ⟨b, y.1.pairs.collect, m.rightCounter⟩ (·.hashWith m.hb.hr),
      rightCounter := m.rightCounter + 1 }) (m.hb.hr b) y.1.pairs.collect.entries
    simp only [bind, Except.bind, pure, Except.pure] at this ⊢
    cases h : rehashAll (m.hb.hr b) m.left y.1.pairs.collect.entries <;> rw [h] at this <;> exact this

theorem swapRightRemoveU_follows (a b : R) : Follows (swapRightRemoveU a b) m (m.swapRightRemove a b) := by
  refine .user <| .user <| .get ?_
  simp only [swapRightRemove]
  cases m.right.removeEntry (m.hb.hr a) (equivalentKeyRight a) with
  | none =>
    have := Follows.bind (g := fun _ => (pure none : Unw (GroupMap L R) (Option R))) (insertRightU_follows (m := m) b)
      (r' := fun x => .ok (none, x.2)) (fun a m' _ => .pure)
    simp only [bind, Except.bind, pure, Except.pure] at this ⊢
    cases h : m.insertRight b <;> rw [h] at this <;> exact this
  | some y =>
    refine .set <| .user <| RawTable.follows_grow_bind <| .get <| .set ?_
    have := Follows.bind (g := fun _ => (pure (some y.1.value) : Unw (GroupMap L R) _))
      (rehashAllU_follows (m := { m with
      right := y.2.insert (m.hb.hr b) ⟨b, y.1.pairs.collect, m.rightCounter⟩ (·.hashWith m.hb.hr),
      rightCounter := m.rightCounter + 1 }) (m.hb.hr b) y.1.pairs.collect.entries)
      (r' := fun x => .ok (some y.1.value, x.2)) (fun a m' _ => .pure)
    simp only [bind, Except.bind, pure, Except.pure] at this ⊢
    cases h : rehashAll (m.hb.hr b) m.left y.1.pairs.collect.entries <;> rw [h] at this <;> exact this

theorem pairU_follows (l : L) (r : R) : Follows (pairU l r) m (m.pair l r) := by
  refine .user <| .user <| .user <| .user <| .get ?_
  simp only [pair]
  cases m.left.getMut (m.hb.hl l) (equivalentKeyLeft l) with
  | none => exact .pure
  | some x =>
    cases m.right.get (m.hb.hr r) (equivalentKeyRight r) with
    | none => exact .pure
    | some y =>
      refine .set ?_
      simp only
      cases m.right.getMut x.1.hash (rightWithRightId x.1.rid) with
      | none => exact .fail
      | some z =>
        refine .set <| .user ?_
        simp only
        cases (z.2 { z.1 with pairs := z.1.pairs.remove (m.hb.hl l, x.1.id) }).getMut (m.hb.hr r) (equivalentKeyRight r) with
        | none => exact .fail
        | some w => exact .set .pure

/-- what `retain_paired` does with the pairs still to come, the iterator and the closure taking turns -/
def pairedScan {σ : Type} (m : GroupMap L R) (f : σ → L → R → Bool × σ) :
    List (LeftItem L) → σ → Res (List (UInt64 × Nat) × σ)
  | [], st => .ok ([], st)
  | l :: rest, st =>
    match m.right.get l.hash (rightWithRightId l.rid) with
    | none => .error .unwrapNone
    | some r =>
      match f st l.value r.value with
      | (true, st') =>
        match m.getLeftInnerWithHash l.value (m.hb.hl l.value) with
        | none => .error .unwrapNone
        | some item => do
          let (d, st'') ← pairedScan m f rest st'
          return ((m.hb.hl l.value, item.id) :: d, st'')
      | (false, st') => pairedScan m f rest st'

/-- taking turns or one after the other is the same -/
theorem pairedScan_eq {σ : Type} (f : σ → L → R → Bool × σ) (ls : List (LeftItem L)) (st : σ) (n : Nat) (hn : ls.length < n) :
    (do let (ps, _) ← PairedIter.take m n ⟨ls⟩; m.retainPairedScan f ps st) = m.pairedScan f ls st := by
  induction ls generalizing st n with
  | nil =>
    cases n with
    | zero => cases hn
    | succ n => rfl
  | cons l ls ih =>
    cases n with
    | zero => cases hn
    | succ n =>
      simp only [PairedIter.take, PairedIter.next, pairedScan]
      cases h1 : m.right.get l.hash (rightWithRightId l.rid) with
      | none => rfl
      | some r =>
        have h2 := fun st => ih st n (by simpa using hn)
        simp only [bind, Except.bind, pure, Except.pure] at h2 ⊢
        cases h3 : PairedIter.take m n ⟨ls⟩ with
        | error p =>
          simp only [h3] at h2
          cases h4 : f st l.value r.value with
          | mk b st' =>
            have hp : p = .unwrapNone := by
              cases p
              · rfl
              · exfalso
                clear h2 ih h4 hn h1
                induction n generalizing ls with
                | zero => cases h3
                | succ n ih =>
                  cases ls with
                  | nil => cases h3
                  | cons k ls =>
                    simp only [PairedIter.take, PairedIter.next, bind, Except.bind] at h3
                    cases h5 : m.right.get k.hash (rightWithRightId k.rid) with
                    | none => rw [h5] at h3; cases h3
                    | some q =>
                      rw [h5] at h3
                      simp only at h3
                      cases h6 : PairedIter.take m n ⟨ls⟩ with
                      | error p => simp only [h6] at h3; cases h3; exact ih ls h6
                      | ok v => simp only [h6] at h3; cases h3
            subst hp
            cases b
            · simp only; exact h2 st'
            · simp only [← h2 st']
              cases m.getLeftInnerWithHash l.value (m.hb.hl l.value) <;> rfl
        | ok v =>
          simp only [h3] at h2
          simp only [retainPairedScan]
          cases h4 : f st l.value r.value with
          | mk b st' =>
            cases b
            · simp only; exact h2 st'
            · simp only [bind, Except.bind, pure, Except.pure, h2 st']
              cases m.getLeftInnerWithHash l.value (m.hb.hl l.value) <;> rfl

theorem retainPairedScanU_follows {σ : Type} (f : σ → L → R → Bool × σ) (ls : List (LeftItem L)) (st : σ) :
    Follows (retainPairedScanU (sure f) ls st) m (do let (d, _) ← m.pairedScan f ls st; return (d, m)) := by
  induction ls generalizing st with
  | nil => exact .pure
  | cons l rest ih =>
    simp only [retainPairedScanU, pairedScan]
    refine .get ?_
    cases h : m.right.get l.hash (rightWithRightId l.rid) with
    | none => exact .fail
    | some r =>
      simp only [sure]
      cases h2 : f st l.value r.value with
      | mk b st' =>
        cases b
        · exact ih st'
        · refine .user <| .user ?_
          simp only
          cases h3 : m.getLeftInnerWithHash l.value (m.hb.hl l.value) with
          | none => exact .fail
          | some lp =>
            have h4 := Follows.bind (g := fun d => (pure ((m.hb.hl l.value, lp.id) :: d) : Unw (GroupMap L R) _))
              (r' := fun y => .ok ((m.hb.hl l.value, lp.id) :: y.1, y.2)) (ih st') (fun a m' _ => .pure)
            simp only [bind, Except.bind, pure, Except.pure] at h4 ⊢
            cases h5 : m.pairedScan f rest st' <;> rw [h5] at h4 <;> exact h4

theorem retainPairedU_follows {σ : Type} (f : σ → L → R → Bool × σ) (st : σ) :
    Follows (retainPairedU (sure f) st) m (do let (_, m) ← m.retainPaired f st; return ((), m)) := by
  refine .get ?_
  have h1 := pairedScan_eq (m := m) f m.iterPaired.todo st (m.left.len + 1) (by simp [iterPaired, RawTable.toList, RawTable.len])
  have h2 := Follows.bind (g := fun d => Unw.set { m with left := retainPairedDrop m.left d })
    (retainPairedScanU_follows (m := m) f m.iterPaired.todo st)
    (r' := fun x => .ok ((), { m with left := retainPairedDrop m.left x.1 })) (fun a m' _ => follows_set)
  rw [← h1] at h2
  simp only [retainPaired, iterPairedList, bind, Except.bind, pure, Except.pure] at h2 ⊢
  simp only [iterPaired] at h2 ⊢
  cases h3 : PairedIter.take m (m.left.len + 1) ⟨m.left.toList⟩ with
  | error p => simp only [h3] at h2 ⊢; exact h2
  | ok v =>
    simp only [h3] at h2 ⊢
    cases h4 : m.retainPairedScan f v.1 st <;> simp only [h4] at h2 ⊢ <;> exact h2

theorem retainUnpairedScanU_follows {σ : Type} (f : σ → R → Bool × σ) (ls : List R) (st : σ) :
    Follows (retainUnpairedScanU (sure1 f) ls st) m (do let (d, _) ← m.retainUnpairedScan f ls st; return (d, m)) := by
  induction ls generalizing st with
  | nil => exact .pure
  | cons r rest ih =>
    simp only [retainUnpairedScanU, retainUnpairedScan, sure1]
    cases h2 : f st r with
    | mk b st' =>
      cases b
      · exact ih st'
      · refine .user <| .user <| .get ?_
        simp only
        cases h3 : m.getRightInnerWithHash r (m.hb.hr r) with
        | none => exact .fail
        | some lp =>
          have h4 := Follows.bind (g := fun d => (pure ((m.hb.hr r, lp.id) :: d) : Unw (GroupMap L R) _))
            (r' := fun y => .ok ((m.hb.hr r, lp.id) :: y.1, y.2)) (ih st') (fun a m' _ => .pure)
          simp only [bind, Except.bind, pure, Except.pure] at h4 ⊢
          cases h5 : m.retainUnpairedScan f rest st' <;> rw [h5] at h4 <;> exact h4

theorem retainUnpairedDropU_follows (ks : List (UInt64 × Nat)) :
    Follows (retainUnpairedDropU ks) m (do return ((), ← m.retainUnpairedDrop ks)) := by
  induction ks generalizing m with
  | nil => exact .pure
  | cons k ks ih =>
    simp only [retainUnpairedDropU, retainUnpairedDrop]
    have := Follows.bind (g := fun _ => retainUnpairedDropU ks) (removeViaHashAndIdU_follows (m := m) k.1 k.2)
      (r' := fun x => do return ((), ← x.2.retainUnpairedDrop ks)) (fun a m' _ => ih)
    simp only [bind, Except.bind, pure, Except.pure] at this ⊢
    cases h : m.removeViaHashAndId k.1 k.2 <;> rw [h] at this <;> exact this

theorem retainUnpairedU_follows {σ : Type} (f : σ → R → Bool × σ) (st : σ) :
    Follows (retainUnpairedU (sure1 f) st) m (do let (_, m) ← m.retainUnpaired f st; return ((), m)) := by
  refine .get ?_
  have := Follows.bind (g := fun d => retainUnpairedDropU d) (retainUnpairedScanU_follows (m := m) f m.iterUnpairedList st)
    (r' := fun x => do return ((), ← x.2.retainUnpairedDrop x.1)) (fun a m' _ => retainUnpairedDropU_follows a)
  simp only [retainUnpaired, bind, Except.bind, pure, Except.pure] at this ⊢
  cases h : m.retainUnpairedScan f m.iterUnpairedList st with
  | error p => rw [h] at this; exact this
  | ok x =>
    rw [h] at this
    simp only at this ⊢
    cases h' : m.retainUnpairedDrop x.1 <;> rw [h'] at this <;> exact this

theorem user_follows : Follows (Unw.user : Unw (GroupMap L R) Unit) m (.ok ((), m)) := by
  have h := Follows.user (m := m) (g := fun _ => pure ()) Follows.pure
  refine ⟨fun f => ?_, ?_⟩
  · have := h.agrees f
    simp only [bind, user] at this ⊢
    cases e : f.fuse <;> rw [e] at this <;> exact this
  · obtain ⟨k, hk⟩ := h.calm
    refine ⟨k, fun f hf => ?_⟩
    have := hk f hf
    simp only [bind, user] at this ⊢
    cases e : f.fuse <;> rw [e] at this <;> exact this

theorem extendU_follows (xs : List (L × R)) : Follows (extendU xs) m (do return ((), ← m.extend xs)) := by
  induction xs generalizing m with
  | nil => exact user_follows
  | cons x xs ih =>
    refine .user ?_
    have := Follows.bind (g := fun _ => extendU xs) (insertU_follows (m := m) x.1 x.2)
      (r' := fun x => do return ((), ← x.2.extend xs)) (fun a m' _ => ih)
    simp only [extend, bind, Except.bind, pure, Except.pure] at this ⊢
    cases h : m.insert x.1 x.2 <;> rw [h] at this <;> exact this

theorem extendOptU_follows (xs : List (Option L × R)) : Follows (extendOptU xs) m (do return ((), ← m.extendOpt xs)) := by
  induction xs generalizing m with
  | nil => exact user_follows
  | cons x xs ih =>
    obtain ⟨o, r⟩ := x
    cases o with
    | some l =>
      refine .user ?_
      have := Follows.bind (g := fun _ => extendOptU xs) (insertU_follows (m := m) l r)
        (r' := fun x => do return ((), ← x.2.extendOpt xs)) (fun a m' _ => ih)
      simp only [extendOpt, bind, Except.bind, pure, Except.pure] at this ⊢
      cases h : m.insert l r <;> rw [h] at this <;> exact this
    | none =>
      refine .user ?_
      have := Follows.bind (g := fun _ => extendOptU xs) (insertRightU_follows (m := m) r)
        (r' := fun x => do return ((), ← x.2.extendOpt xs)) (fun a m' _ => ih)
      simp only [extendOpt, bind, Except.bind, pure, Except.pure] at this ⊢
      cases h : m.insertRight r <;> rw [h] at this <;> exact this

theorem quiet_follows {α : Type} (r : GroupMap L R → Res α) : Follows (quiet r) m (do return (← r m, m)) := by
  refine .get ?_
  simp only [bind, Except.bind, pure, Except.pure]
  cases r m
  · exact .fail
  · exact .pure

/-- the result of a call that returns nothing -/
theorem follows_void {β : Type} {x : Unw (GroupMap L R) Unit} {r : Res (GroupMap L R)} {b : β}
    (h : Follows x m (do return ((), ← r))) : Follows (do x; return b) m (do let m ← r; return (b, m)) := by
  have := Follows.bind (g := fun _ => (pure b : Unw (GroupMap L R) β)) h (r' := fun y => .ok (b, y.2)) fun _ _ _ => Follows.pure
  simp only [bind, Except.bind, pure, Except.pure] at this ⊢
  cases r <;> exact this

theorem follows_quiet {α : Type} {r : GroupMap L R → Res α} {g : α → Out L R} :
    Follows (do return g (← quiet r)) m (do return (g (← r m), m)) := by
  have := follows_map (g := g) (quiet_follows (m := m) r)
  simp only [bind, Except.bind, pure, Except.pure] at this ⊢
  cases h : r m <;> rw [h] at this <;> exact this

theorem execU_follows (op : Op L R) : Follows (execU op) m (m.exec op) := by
  cases op
  case insert l r => exact follows_void (insertU_follows l r)
  case insertRemove l r => exact follows_map (g := fun o => Out.leftAndGroup o.1 o.2) (insertRemoveU_follows l r)
  case insertLeft l r => exact follows_map (insertLeftU_follows l r)
  case insertRight r => exact follows_map (insertRightU_follows r)
  case swapRight a b => exact follows_void (swapRightU_follows a b)
  case swapRightRemove a b => exact follows_map (swapRightRemoveU_follows a b)
  case pair l r => exact follows_map (pairU_follows l r)
  case remove l r => exact follows_map (removeU_follows l r)
  case removeLeft l => exact follows_map (removeLeftU_follows l)
  case removeRight r => exact follows_map (removeRightU_follows r)
  case getRight => exact .user <| .user <| .get .pure
  case getLeftIter r => exact .user <| .user <| follows_quiet
  case containsLeft => exact .user <| .user <| .get .pure
  case containsRight => exact .user <| .user <| .get .pure
  case isRightPaired => exact .user <| .user <| .get .pure
  case arePaired => exact arePairedU_bind .pure
  case lenLeft => exact .get .pure
  case lenRight => exact .get .pure
  case isEmpty => exact .get .pure
  case clear => exact .get <| .set .pure
  case iter => exact follows_quiet
  case iterPaired => exact follows_quiet
  case iterUnpaired => exact .get .pure
  case iterLeft => exact .get .pure
  case iterRight => exact .get .pure
  case retainPaired σ f s =>
    have := Follows.bind (g := fun _ => (pure .unit : Unw (GroupMap L R) (Out L R))) (retainPairedU_follows (m := m) f s)
      (r' := fun x => .ok (.unit, x.2)) (fun a m' _ => .pure)
    simp only [exec, execU, bind, Except.bind, pure, Except.pure] at this ⊢
    cases h : m.retainPaired f s <;> rw [h] at this <;> exact this
  case retainUnpaired σ f s =>
    have := Follows.bind (g := fun _ => (pure .unit : Unw (GroupMap L R) (Out L R))) (retainUnpairedU_follows (m := m) f s)
      (r' := fun x => .ok (.unit, x.2)) (fun a m' _ => .pure)
    simp only [exec, execU, bind, Except.bind, pure, Except.pure] at this ⊢
    cases h : m.retainUnpaired f s <;> rw [h] at this <;> exact this
  case extend xs => exact follows_void (extendU_follows xs)
  case extendOpt xs => exact follows_void (extendOptU_follows xs)
  case clone => exact .user <| .get <| .set .pure

end Verif.GroupMap
