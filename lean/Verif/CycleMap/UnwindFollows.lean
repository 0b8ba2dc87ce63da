import Verif.CycleMap.Unwind
/-! The calls with panics that unwind do what the main model says unless the items' own code panics. -/
set_option linter.unusedSectionVars false
set_option linter.unusedSimpArgs false
namespace Verif.CycleMap
open CycleSpec OptionalPair Unw

variable [RawImpl] {L R : Type} [BEq L] [BEq R] {m : CycleMap L R}

/-- a call of the main model seen as one that keeps the map -/
theorem follows_map {α β : Type} {x : Unw (CycleMap L R) α} {r : Res (α × CycleMap L R)} {g : α → β} (h : Follows x m r) :
    Follows (do return g (← x)) m (do let (o, m) ← r; return (g o, m)) :=
  h.bind fun _ _ _ => Follows.pure

theorem arePairedU_follows (l : L) (r : R) : Follows (arePairedU l r) m (.ok (m.arePaired l r, m)) :=
  .user <| .user <| .user <| .user <| .get .pure

theorem removeViaLeftU_follows (l : L) : Follows (removeViaLeftU l) m (m.removeViaLeft l) := by
  refine .user <| .user <| .get ?_
  simp only [removeViaLeft]
  cases m.left.removeEntry (m.hb.hl l) (equivalentKey l) with
  | none => exact .pure
  | some x =>
    refine .set ?_
    simp only
    cases m.right.removeEntry x.1.hash (hashAndId (m.hb.hl l) x.1.id) with
    | none => exact .fail
    | some y => exact .set .pure

theorem removeViaRightU_follows (r : R) : Follows (removeViaRightU r) m (m.removeViaRight r) := by
  refine .user <| .user <| .get ?_
  simp only [removeViaRight]
  cases m.right.removeEntry (m.hb.hr r) (equivalentKey r) with
  | none => exact .pure
  | some x =>
    refine .set ?_
    simp only
    cases m.left.removeEntry x.1.hash (hashAndId (m.hb.hr r) x.1.id) with
    | none => exact .fail
    | some y => exact .set .pure

theorem removeViaHashesAndIdU_follows (a b : UInt64) (i : Nat) :
    Follows (removeViaHashesAndIdU a b i) m (m.removeViaHashesAndId a b i) := by
  refine .get ?_
  simp only [removeViaHashesAndId]
  cases m.left.removeEntry a (hashAndId b i) with
  | none => exact .pure
  | some x =>
    refine .set ?_
    simp only
    cases m.right.removeEntry b (hashAndId a i) with
    | none => exact .fail
    | some y => exact .set .pure

theorem arePairedU_bind {α : Type} {l : L} {r : R} {g : Bool → Unw (CycleMap L R) α} {x : Res (α × CycleMap L R)}
    (h : Follows (g (m.arePaired l r)) m x) : Follows (arePairedU l r >>= g) m x :=
  Follows.bind (r' := fun _ => x) (arePairedU_follows l r) (by rintro a m' ⟨⟩; exact h)

theorem removeU_follows (l : L) (r : R) : Follows (removeU l r) m (m.remove l r) := by
  refine arePairedU_bind ?_
  simp only [remove]
  split
  · exact removeViaLeftU_follows l
  · exact .pure

theorem insertU_follows (l : L) (r : R) : Follows (insertU l r) m (m.insert l r) := by
  refine (removeViaLeftU_follows l).bind fun a m1 _ => ?_
  refine (removeViaRightU_follows r).bind fun b m2 _ => ?_
  exact .user <| .user <| .get <| RawTable.follows_grow_bind <| .get <| RawTable.follows_grow_bind .pure

theorem swapLeftEqCheckU_follows (a b : L) (h : UInt64) : Follows (swapLeftEqCheckU a b h) m (m.swapLeftEqCheck a b h) := by
  refine .user <| .get ?_
  simp only [swapLeftEqCheck]
  cases m.left.get h (equivalentKey b) with
  | none => exact .pure
  | some x =>
    refine .user ?_
    simp only
    split
    · exact removeViaLeftU_follows b
    · exact .pure

theorem swapRightEqCheckU_follows (a b : R) (h : UInt64) : Follows (swapRightEqCheckU a b h) m (m.swapRightEqCheck a b h) := by
  refine .user <| .get ?_
  simp only [swapRightEqCheck]
  cases m.right.get h (equivalentKey b) with
  | none => exact .pure
  | some x =>
    refine .user ?_
    simp only
    split
    · exact removeViaRightU_follows b
    · exact .pure

theorem swapLeftU_follows (a b : L) : Follows (swapLeftU a b) m (m.swapLeft a b) := by
  refine .user <| .get <| (swapLeftEqCheckU_follows a b _).bind fun o m1 _ => ?_
  refine .user <| .user <| .get ?_
  simp only
  cases m1.left.get (m1.hb.hl a) (equivalentKey a) with
  | none => exact .pure
  | some x =>
    simp only
    cases m1.right.getMut x.hash (hashAndId (m1.hb.hl a) x.id) with
    | none => exact .fail
    | some y =>
      refine .set <| .get <| .user ?_
      simp only
      cases m1.left.removeEntry (m1.hb.hl a) (equivalentKey a) with
      | none => exact .fail
      | some z => exact .set <| RawTable.follows_grow_bind .pure

theorem swapRightU_follows (a b : R) : Follows (swapRightU a b) m (m.swapRight a b) := by
  refine .user <| .get <| (swapRightEqCheckU_follows a b _).bind fun o m1 _ => ?_
  refine .user <| .user <| .get ?_
  simp only
  cases m1.right.get (m1.hb.hr a) (equivalentKey a) with
  | none => exact .pure
  | some x =>
    simp only
    cases m1.left.getMut x.hash (hashAndId (m1.hb.hr a) x.id) with
    | none => exact .fail
    | some y =>
      refine .user <| .set <| .get <| .user ?_
      simp only
      cases m1.right.removeEntry (m1.hb.hr a) (equivalentKey a) with
      | none => exact .fail
      | some z => exact .set <| RawTable.follows_grow_bind .pure

theorem swapLeftCheckedU_follows (a : L) (e : R) (b : L) :
    Follows (swapLeftCheckedU a e b) m (m.swapLeftChecked a e b) := by
  refine arePairedU_bind ?_
  simp only [swapLeftChecked]
  split
  · exact .pure
  · exact swapLeftU_follows a b

theorem swapRightCheckedU_follows (a : R) (e : L) (b : R) :
    Follows (swapRightCheckedU a e b) m (m.swapRightChecked a e b) := by
  refine arePairedU_bind ?_
  simp only [swapRightChecked]
  split
  · exact .pure
  · exact swapRightU_follows a b

theorem swapLeftOrInsertU_follows (a b : L) (r : R) :
    Follows (swapLeftOrInsertU a b r) m (m.swapLeftOrInsert a b r) := by
  refine .user <| .user <| .get ?_
  simp only [swapLeftOrInsert]
  split
  · exact swapLeftU_follows a b
  · exact follows_map (insertU_follows b r)

theorem swapRightOrInsertU_follows (a b : R) (l : L) :
    Follows (swapRightOrInsertU a b l) m (m.swapRightOrInsert a b l) := by
  refine .user <| .user <| .get ?_
  simp only [swapRightOrInsert]
  split
  · exact swapRightU_follows a b
  · refine (insertU_follows l b).bind fun o m' _ => ?_
    cases o
    · exact .pure
    · exact .fail
    · exact .pure
    · exact .fail

theorem nextU_none {α : Type} {l : MappingPair L} {g : L × R → Unw (CycleMap L R) α} (h : m.getRight l.value = none) :
    Follows (nextU l >>= g) m (.error .unwrapNone) := by
  have h1 : Follows (nextU l) m (.error .unwrapNone) := .user <| .user <| .get <| by rw [h]; exact .fail
  exact h1.bind (r' := fun _ => .error .unwrapNone) (by rintro a m' ⟨⟩)

theorem nextU_some {α : Type} {l : MappingPair L} {r : R} {g : L × R → Unw (CycleMap L R) α} {x : Res (α × CycleMap L R)}
    (h : m.getRight l.value = some r) (h' : Follows (g (l.value, r)) m x) : Follows (nextU l >>= g) m x := by
  have h1 : Follows (nextU l) m (.ok ((l.value, r), m)) := .user <| .user <| .get <| by rw [h]; exact .pure
  exact h1.bind (r' := fun _ => x) (by rintro a m' ⟨⟩; exact h')

theorem collectU_follows (ls : List (MappingPair L)) :
    Follows (collectU ls) m (do return (← Iter.collect m ls, m)) := by
  induction ls with
  | nil => exact .pure
  | cons l rest ih =>
    simp only [collectU, Iter.collect, Iter.next]
    cases h : m.getRight l.value with
    | none => exact nextU_none h
    | some r =>
      refine nextU_some h ?_
      have h1 := Follows.bind (g := fun ps => (pure ((l.value, r) :: ps) : Unw (CycleMap L R) _))
        (r' := fun y => .ok ((l.value, r) :: y.1, y.2)) ih (fun a m' _ => .pure)
      simp only [bind, Except.bind, pure, Except.pure] at h1 ⊢
      cases h2 : Iter.collect m rest <;> rw [h2] at h1 <;> exact h1

theorem drainLoopU_follows (n : Nat) (ls : List (MappingPair L)) :
    Follows (drainLoopU n ls) m (do
      let (ps, it) ← DrainIter.take n ⟨ls, m.right⟩
      return (ps, { m with right := it.right })) := by
  induction n generalizing ls m with
  | zero => exact .pure
  | succ n ih =>
    cases ls with
    | nil => exact .pure
    | cons l rest =>
      simp only [drainLoopU, DrainIter.take, DrainIter.next]
      refine .get ?_
      cases h1 : m.right.removeEntry l.hash (justId l.id) with
      | none => exact .fail
      | some x =>
        refine .set ?_
        have h2 := Follows.bind (g := fun ps => (pure ((l.value, x.1.value) :: ps) : Unw (CycleMap L R) _))
          (r' := fun y => .ok ((l.value, x.1.value) :: y.1, y.2))
          (ih (m := { m with right := x.2 }) rest) (fun a m' _ => .pure)
        simp only [bind, Except.bind, pure, Except.pure] at h2 ⊢
        cases h3 : DrainIter.take n ⟨rest, x.2⟩ <;> rw [h3] at h2 <;> exact h2

theorem drainU_follows (n : Nat) : Follows (drainU n) m (m.drainTake n) :=
  .get <| .set <| drainLoopU_follows n m.left.toList

/-- `next` of `drain_filter` with a closure that does not panic is that of the main model -/
theorem nextU_sure {σ : Type} (f : σ → L → R → Bool × σ) (kept todo : List (UInt64 × MappingPair L)) (right st) :
    match DrainFilter.nextU (sure f) kept todo right st with
    | (.done, it) => DrainFilter.next f kept todo right st = .ok (none, it)
    | (.item p, it) => DrainFilter.next f kept todo right st = .ok (some p, it)
    | (.panic why, _) => ∃ p, why = some p ∧ DrainFilter.next f kept todo right st = .error p := by
  induction todo generalizing kept st with
  | nil => rfl
  | cons e rest ih =>
    simp only [DrainFilter.nextU, DrainFilter.next]
    cases h1 : right.removeEntry e.2.hash (justId e.2.id) with
    | none => exact ⟨_, rfl, rfl⟩
    | some x =>
      simp only [sure]
      cases h2 : f st e.2.value x.1.value with
      | mk b st' =>
        cases b
        · exact ih _ _
        · rfl

theorem takeU_sure {σ : Type} (f : σ → L → R → Bool × σ) (n : Nat) (it : DrainFilter σ L R) :
    match DrainFilter.takeU (sure f) n it with
    | (ps, none, it') => DrainFilter.take f n it = .ok (ps, it')
    | (_, some why, _) => ∃ p, why = some p ∧ DrainFilter.take f n it = .error p := by
  induction n generalizing it with
  | zero => rfl
  | succ n ih =>
    simp only [DrainFilter.takeU, DrainFilter.take]
    have h1 := nextU_sure f it.kept it.todo it.right it.st
    cases h2 : DrainFilter.nextU (sure f) it.kept it.todo it.right it.st with
    | mk o it' =>
      rw [h2] at h1
      cases o with
      | done => simp only at h1; simp only [h1]; rfl
      | panic why => obtain ⟨p, rfl, h1⟩ := h1; exact ⟨p, rfl, by simp only [h1]; rfl⟩
      | item p =>
        simp only at h1
        have h3 := ih it'
        cases h4 : DrainFilter.takeU (sure f) n it' with
        | mk ps x =>
          obtain ⟨w, it''⟩ := x
          rw [h4] at h3
          cases w with
          | none => simp only at h3; simp only [h1, h3, h4, bind, Except.bind]; rfl
          | some why =>
            obtain ⟨q, rfl, h3⟩ := h3
            simp only [h1, h3, h4, bind, Except.bind]
            exact ⟨q, rfl, rfl⟩

theorem drainFilterU_run {σ : Type} (f : σ → L → R → Bool × σ) (st : σ) (n : Nat) (fate : Fate) :
    (drainFilterU (sure f) st n fate m).agrees
        (do let (ps, _, m) ← m.drainFilterTake f st n; return (ps, m)) ∧
      (drainFilterU (sure f) st n fate m).interrupted = false ∧
      fate.fuse ≤ (drainFilterU (sure f) st n fate m).rest fate.fuse + 0 := by
  have h1 := takeU_sure f n { kept := [], todo := m.left.entries, right := m.right, st := st }
  cases h2 : DrainFilter.takeU (sure f) n { kept := [], todo := m.left.entries, right := m.right, st := st } with
  | mk ps x =>
    obtain ⟨w, it⟩ := x
    rw [h2] at h1
    have h3 := takeU_sure f (it.todo.length + 1) it
    cases h4 : DrainFilter.takeU (sure f) (it.todo.length + 1) it with
    | mk qs y =>
      obtain ⟨w', it'⟩ := y
      rw [h4] at h3
      simp only [drainFilterU, h2, h4]
      cases w with
      | none =>
        cases w' with
        | none =>
          simp only at h1 h3
          refine ⟨?_, rfl, ?_⟩
          · simp only [Halt.agrees, drainFilterTake, h1, h3, bind, Except.bind, pure, Except.pure]
          · simp [Halt.rest]
        | some why =>
          obtain ⟨p, rfl, h3⟩ := h3
          simp only at h1
          refine ⟨?_, rfl, ?_⟩
          · simp only [Halt.agrees, drainFilterTake, h1, h3, bind, Except.bind, pure, Except.pure]
          · simp [Halt.rest]
      | some why =>
        obtain ⟨p, rfl, h1⟩ := h1
        cases w' with
        | none =>
          refine ⟨?_, rfl, ?_⟩
          · simp only [Halt.agrees, drainFilterTake, h1, h3, bind, Except.bind, pure, Except.pure]
          · simp [Halt.rest]
        | some why =>
          refine ⟨⟨p, ?_⟩, rfl, ?_⟩
          · simp only [Halt.agrees, drainFilterTake, h1, h3, bind, Except.bind, pure, Except.pure]
          · simp [Halt.rest]

theorem drainFilterU_follows {σ : Type} (f : σ → L → R → Bool × σ) (st : σ) (n : Nat) :
    Follows (drainFilterU (sure f) st n) m (do let (ps, _, m) ← m.drainFilterTake f st n; return (ps, m)) :=
  ⟨fun fate => (drainFilterU_run f st n fate).1, 0, fun fate _ => (drainFilterU_run f st n fate).2⟩

theorem retainScanU_follows {σ : Type} (f : σ → L → R → Bool × σ) (ls : List (MappingPair L)) (st : σ) :
    Follows (retainScanU (sure f) ls st) m (do let (d, _) ← m.retainScan f ls st; return (d, m)) := by
  induction ls generalizing st with
  | nil => exact .pure
  | cons l rest ih =>
    simp only [retainScanU, retainScan, Iter.next]
    cases h : m.getRight l.value with
    | none => exact nextU_none h
    | some r =>
      refine nextU_some h ?_
      simp only [sure]
      cases h2 : f st l.value r with
      | mk b st' =>
        cases b
        · simp only [pure, Except.pure, bind, Except.bind, h2]
          refine .user <| .user <| .user <| .user <| .get ?_
          cases h3 : m.getLeftInner l.value with
          | none => exact .fail
          | some lp =>
            have h4 := Follows.bind (g := fun d => (pure ((m.hb.hl l.value, m.hb.hr r, lp.id) :: d) : Unw (CycleMap L R) _))
              (r' := fun y => .ok ((m.hb.hl l.value, m.hb.hr r, lp.id) :: y.1, y.2)) (ih st') (fun a m' _ => .pure)
            simp only [bind, Except.bind, pure, Except.pure] at h4 ⊢
            cases h5 : m.retainScan f rest st' <;> rw [h5] at h4 <;> exact h4
        · simp only [pure, Except.pure, bind, Except.bind, h2]
          exact ih st'

theorem retainDropU_follows (ks : List (UInt64 × UInt64 × Nat)) :
    Follows (retainDropU ks) m (do return ((), ← m.retainDrop ks)) := by
  induction ks generalizing m with
  | nil => exact .pure
  | cons k ks ih =>
    simp only [retainDropU, retainDrop]
    have := Follows.bind (g := fun _ => retainDropU ks) (removeViaHashesAndIdU_follows (m := m) k.1 k.2.1 k.2.2)
      (r' := fun x => do return ((), ← x.2.retainDrop ks)) (fun a m' _ => ih)
    simp only [bind, Except.bind, pure, Except.pure] at this ⊢
    cases h : m.removeViaHashesAndId k.1 k.2.1 k.2.2 <;> rw [h] at this <;> exact this

theorem retainU_follows {σ : Type} (f : σ → L → R → Bool × σ) (st : σ) :
    Follows (retainU (sure f) st) m (do let (_, m) ← m.retain f st; return ((), m)) := by
  refine .get ?_
  have := Follows.bind (g := fun d => retainDropU d) (retainScanU_follows (m := m) f m.iter.todo st)
    (r' := fun x => do return ((), ← x.2.retainDrop x.1)) (fun a m' _ => retainDropU_follows a)
  simp only [retain, bind, Except.bind, pure, Except.pure] at this ⊢
  cases h : m.retainScan f m.iter.todo st with
  | error p => rw [h] at this; exact this
  | ok x =>
    rw [h] at this
    simp only at this ⊢
    cases h' : m.retainDrop x.1 <;> rw [h'] at this <;> exact this

theorem extendU_follows (xs : List (L × R)) : Follows (extendU xs) m (do return ((), ← m.extend xs)) := by
  induction xs generalizing m with
  | nil =>
    have h := Follows.user (m := m) (g := fun _ => pure ()) Follows.pure
    refine ⟨fun f => ?_, ?_⟩
    · have := h.agrees f
      simp only [bind, user, extendU] at this ⊢
      cases e : f.fuse <;> rw [e] at this <;> exact this
    · obtain ⟨k, hk⟩ := h.calm
      refine ⟨k, fun f hf => ?_⟩
      have := hk f hf
      simp only [bind, user, extendU] at this ⊢
      cases e : f.fuse <;> rw [e] at this <;> exact this
  | cons x xs ih =>
    refine .user ?_
    have := Follows.bind (g := fun _ => extendU xs) (insertU_follows (m := m) x.1 x.2)
      (r' := fun x => do return ((), ← x.2.extend xs)) (fun a m' _ => ih)
    simp only [extend, bind, Except.bind, pure, Except.pure] at this ⊢
    cases h : m.insert x.1 x.2 <;> rw [h] at this <;> exact this

theorem follows_unit {β : Type} {x : Unw (CycleMap L R) Unit} {m' : CycleMap L R} {b : β} (h : Follows x m (.ok ((), m'))) :
    Follows (do x; return b) m (.ok (b, m')) :=
  h.bind (r' := fun y => .ok (b, y.2)) fun _ _ _ => Follows.pure

theorem execU_follows (op : Op L R) : Follows (execU op) m (m.exec op) := by
  cases op
  case insert l r => exact follows_map (insertU_follows l r)
  case remove l r => exact follows_map (removeU_follows l r)
  case removeViaLeft l => exact follows_map (removeViaLeftU_follows l)
  case removeViaRight r => exact follows_map (removeViaRightU_follows r)
  case swapLeft a b => exact follows_map (swapLeftU_follows a b)
  case swapLeftChecked a e b => exact follows_map (swapLeftCheckedU_follows a e b)
  case swapLeftOrInsert a b r => exact follows_map (swapLeftOrInsertU_follows a b r)
  case swapRight a b => exact follows_map (swapRightU_follows a b)
  case swapRightChecked a e b => exact follows_map (swapRightCheckedU_follows a e b)
  case swapRightOrInsert a b l => exact follows_map (swapRightOrInsertU_follows a b l)
  case getLeft => exact .user <| .user <| .get .pure
  case getRight => exact .user <| .user <| .get .pure
  case containsLeft => exact .user <| .user <| .get .pure
  case containsRight => exact .user <| .user <| .get .pure
  case arePaired => exact arePairedU_bind .pure
  case len => exact .get .pure
  case isEmpty => exact .get .pure
  case clear => exact .get <| .set .pure
  case iter =>
    refine .get ?_
    have := follows_map (g := Out.pairs) (collectU_follows (m := m) m.iter.todo)
    simp only [exec, iterList, bind, Except.bind, pure, Except.pure] at this ⊢
    cases h : Iter.collect m m.iter.todo <;> rw [h] at this <;> exact this
  case iterLeft => exact .get .pure
  case iterRight => exact .get .pure
  case drain n => exact follows_map (drainU_follows n)
  case drainFilter σ f s n =>
    have := follows_map (g := Out.pairs) (drainFilterU_follows (m := m) f s n)
    simp only [exec, bind, Except.bind, pure, Except.pure] at this ⊢
    cases h : m.drainFilterTake f s n <;> rw [h] at this <;> exact this
  case drainFilterAll σ f s =>
    refine .get ?_
    have := follows_map (g := Out.pairs) (drainFilterU_follows (m := m) f s (m.len + 1))
    simp only [exec, bind, Except.bind, pure, Except.pure] at this ⊢
    cases h : m.drainFilterTake f s (m.len + 1) <;> rw [h] at this <;> exact this
  case retain σ f s =>
    have := Follows.bind (g := fun _ => (pure .unit : Unw (CycleMap L R) (Out L R))) (retainU_follows (m := m) f s)
      (r' := fun x => .ok (.unit, x.2)) (fun a m' _ => .pure)
    simp only [exec, execU, bind, Except.bind, pure, Except.pure] at this ⊢
    cases h : m.retain f s <;> rw [h] at this <;> exact this
  case extend xs =>
    have := Follows.bind (g := fun _ => (pure .unit : Unw (CycleMap L R) (Out L R))) (extendU_follows (m := m) xs)
      (r' := fun x => .ok (.unit, x.2)) (fun a m' _ => .pure)
    simp only [exec, execU, bind, Except.bind, pure, Except.pure] at this ⊢
    cases h : m.extend xs <;> rw [h] at this <;> exact this
  case reserve n =>
    exact follows_unit <| .get <| RawTable.follows_grow_bind <| .get <| RawTable.follows_grow
  case tryReserve n a b =>
    simp only [execU, exec, tryReserveU, tryReserve]
    cases a
    · exact .pure
    · cases b
      · exact follows_map (r := .ok _) <| .get <| RawTable.follows_grow_bind .pure
      · exact follows_map (r := .ok _) <| .get <| RawTable.follows_grow_bind <| .get <| RawTable.follows_grow_bind .pure
  case shrinkTo n =>
    exact follows_unit <| .get <| RawTable.follows_grow_bind <| .get <| RawTable.follows_grow
  case shrinkToFit =>
    exact follows_unit <| .get <| RawTable.follows_grow_bind <| .get <| RawTable.follows_grow
  case clone => exact .user <| .get <| .set .pure

end Verif.CycleMap
