import Verif.PartialMap.Unwind
/-! The calls with panics that unwind do what the main model says unless the items' own code panics. -/
set_option linter.unusedSectionVars false
set_option linter.unusedSimpArgs false
namespace Verif.PartialMap
open PartialSpec OptionalPair Unw

variable [RawImpl] {L R : Type} [BEq L] [BEq R] {m : PartialMap L R}

/-- a call of the main model seen as one that keeps the map -/
theorem follows_map {α β : Type} {x : Unw (PartialMap L R) α} {r : Res (α × PartialMap L R)} {g : α → β} (h : Follows x m r) :
    Follows (do return g (← x)) m (do let (o, m) ← r; return (g o, m)) :=
  h.bind fun _ _ _ => Follows.pure

theorem ok_bind {α β : Type} (a : α) (f : α → Res β) : ((Except.ok a : Res α) >>= f) = f a := rfl

theorem pure_bind {α β : Type} (a : α) (f : α → Res β) : ((pure a : Res α) >>= f) = f a := rfl

theorem arePairedU_follows (l : L) (r : R) : Follows (arePairedU l r) m (.ok (m.arePaired l r, m)) :=
  .user <| .user <| .user <| .user <| .get .pure

theorem arePairedU_bind {α : Type} {l : L} {r : R} {g : Bool → Unw (PartialMap L R) α} {x : Res (α × PartialMap L R)}
    (h : Follows (g (m.arePaired l r)) m x) : Follows (arePairedU l r >>= g) m x :=
  Follows.bind (r' := fun _ => x) (arePairedU_follows l r) (by rintro a m' ⟨⟩; exact h)

theorem removeViaLeftU_follows (l : L) : Follows (removeViaLeftU l) m (m.removeViaLeft l) := by
  refine .user <| .user <| .get ?_
  simp only [removeViaLeft]
  cases m.left.removeEntry (m.hb.hl l) (equivalentKey l) with
  | none => exact .pure
  | some x =>
    refine .set ?_
    simp only
    cases x.1.hash with
    | none => exact .pure
    | some h =>
      simp only
      cases m.right.removeEntry h (hashAndId (m.hb.hl l) x.1.id) with
      | none => exact .fail
      | some y => exact .set .pure

theorem removeViaRightU_follows (r : R) : Follows (removeViaRightU r) m (m.removeViaRight r) := by
  refine .user <| .user <| .get ?_
  simp only [removeViaRight]
  cases m.right.removeEntry (m.hb.hr r) (equivalentKey r) with
  | none => exact .pure
  | some x =>
    refine .set ?_
    simp only
    cases x.1.hash with
    | none => exact .pure
    | some h =>
      simp only
      cases m.left.removeEntry h (hashAndId (m.hb.hr r) x.1.id) with
      | none => exact .fail
      | some y => exact .set .pure

theorem removeU_follows (l : L) (r : R) : Follows (removeU l r) m (m.remove l r) := by
  refine arePairedU_bind ?_
  simp only [remove]
  split
  · refine (removeViaLeftU_follows l).bind fun o m' _ => ?_
    cases o <;> first | exact .pure | exact .fail
  · exact .pure

theorem removeLeftU_follows (l : L) : Follows (removeLeftU l) m (m.removeLeft l) := by
  refine .user <| .user <| .get ?_
  simp only [removeLeft]
  cases m.left.removeEntry (m.hb.hl l) (equivalentKey l) with
  | none => exact .pure
  | some x =>
    refine .set ?_
    simp only
    cases x.1.hash with
    | none => exact .pure
    | some h =>
      simp only
      cases m.right.getMut h (justId x.1.id) with
      | none => exact .fail
      | some y => exact .set .pure

theorem removeRightU_follows (r : R) : Follows (removeRightU r) m (m.removeRight r) := by
  refine .user <| .user <| .get ?_
  simp only [removeRight]
  cases m.right.removeEntry (m.hb.hr r) (equivalentKey r) with
  | none => exact .pure
  | some x =>
    refine .set ?_
    simp only
    cases x.1.hash with
    | none => exact .pure
    | some h =>
      simp only
      cases m.left.getMut h (justId x.1.id) with
      | none => exact .fail
      | some y => exact .set .pure

theorem insertU_follows (l : L) (r : R) : Follows (insertU l r) m (m.insert l r) := by
  refine (removeViaLeftU_follows l).bind fun a m1 _ => ?_
  refine (removeViaRightU_follows r).bind fun b m2 _ => ?_
  exact .user <| .user <| .get <| RawTable.follows_grow_bind <| .get <| RawTable.follows_grow_bind .pure

theorem insertLeftU_follows (l : L) : Follows (insertLeftU l) m (m.insertLeft l) := by
  refine (removeViaLeftU_follows l).bind fun a m1 _ => ?_
  exact .user <| .get <| RawTable.follows_grow_bind .pure

theorem insertRightU_follows (r : R) : Follows (insertRightU r) m (m.insertRight r) := by
  refine (removeViaRightU_follows r).bind fun a m1 _ => ?_
  exact .user <| .get <| RawTable.follows_grow_bind .pure

theorem pairU_follows (l : L) (r : R) : Follows (pairU l r) m (.ok ((m.pair l r).1, (m.pair l r).2)) :=
  .user <| .user <| .user <| .user <| .get <| .set .pure

theorem unpairU_follows (l : L) (r : R) : Follows (unpairU l r) m (.ok ((m.unpair l r).1, (m.unpair l r).2)) :=
  .user <| .user <| .user <| .user <| .get <| .set .pure

theorem pairForcedU_follows (l : L) (r : R) : Follows (pairForcedU l r) m (m.pairForced l r) := by
  refine arePairedU_bind ?_
  simp only [pairForced]
  split
  · exact .pure
  · refine .user <| .user <| .user <| .user <| .get ?_
    cases m.left.getMut (m.hb.hl l) (equivalentKey l) with
    | none => exact .pure
    | some x =>
      cases m.right.getMut (m.hb.hr r) (equivalentKey r) with
      | none => exact .pure
      | some y =>
        obtain ⟨x, wx⟩ := x
        obtain ⟨y, wy⟩ := y
        simp only
        cases hx : x.hash with
        | none =>
          cases hy : y.hash with
          | none => exact .set .pure
          | some b =>
            refine .set ?_
            simp only
            split
            · rename_i e; simp only [e]; exact .fail
            · rename_i e; simp only [e]; refine .set ?_
              split
              · rename_i e; simp only [e]; exact .fail
              · rename_i e; simp only [e]; exact .pure
        | some a =>
          cases hy : y.hash with
          | none =>
            refine .set ?_
            simp only
            split
            · rename_i e; simp only [e]; exact .fail
            · rename_i e; simp only [e]; refine .set ?_
              split
              · rename_i e; simp only [e]; exact .fail
              · rename_i e; simp only [e]; exact .pure
          | some b =>
            refine .set ?_
            simp only
            split
            · rename_i e; simp only [e]; exact .fail
            · rename_i e; simp only [e]; refine .set ?_
              split
              · rename_i e; simp only [e]; exact .fail
              · rename_i e; simp only [e]; refine .set ?_
                split
                · rename_i e1 e2; simp only [e1, e2]; exact .pure
                · rename_i e; simp only [e]; exact .fail

theorem pairForcedRemoveU_follows (l : L) (r : R) : Follows (pairForcedRemoveU l r) m (m.pairForcedRemove l r) := by
  refine arePairedU_bind ?_
  simp only [pairForcedRemove]
  split
  · exact .pure
  · refine .user <| .user <| .user <| .user <| .get ?_
    cases m.left.getMut (m.hb.hl l) (equivalentKey l) with
    | none => exact .pure
    | some x =>
      cases m.right.getMut (m.hb.hr r) (equivalentKey r) with
      | none => exact .pure
      | some y =>
        obtain ⟨x, wx⟩ := x
        obtain ⟨y, wy⟩ := y
        simp only
        cases hx : x.hash with
        | none =>
          cases hy : y.hash with
          | none => exact .set .pure
          | some b =>
            refine .set ?_
            simp only
            split
            · rename_i e; simp only [e]; exact .fail
            · rename_i e; simp only [e]; exact .set .pure
        | some a =>
          cases hy : y.hash with
          | none =>
            refine .set ?_
            simp only
            split
            · rename_i e; simp only [e]; exact .fail
            · rename_i e; simp only [e]; exact .set .pure
          | some b =>
            refine .set ?_
            simp only
            split
            · rename_i e; simp only [e]; exact .fail
            · rename_i e; simp only [e]; refine .set ?_
              split
              · rename_i e; simp only [e]; exact .fail
              · rename_i e; simp only [e]; exact .set .pure

theorem swapLeftEqCheckU_follows (a b : L) (h : UInt64) : Follows (swapLeftEqCheckU a b h) m (m.swapLeftEqCheck a b h) := by
  refine .user <| .get ?_
  simp only [swapLeftEqCheck]
  cases m.left.get h (equivalentKey b) with
  | none => exact .pure
  | some x =>
    refine .user ?_
    simp only [Option.isSome_some, Bool.true_and]
    split
    · exact removeViaLeftU_follows b
    · exact .pure

theorem swapRightEqCheckU_follows (a b : R) (h : UInt64) : Follows (swapRightEqCheckU a b h) m (m.swapRightEqCheck a b h) := by
  refine .user <| .get ?_
  simp only [swapRightEqCheck]
  cases m.right.get h (equivalentKey b) with
  | none => exact .pure
  | some x =>
    refine .user ?_
    simp only [Option.isSome_some, Bool.true_and]
    split
    · exact removeViaRightU_follows b
    · exact .pure

theorem swapLeftU_follows (a b : L) : Follows (swapLeftU a b) m (m.swapLeft a b) := by
  refine .user <| .get <| (swapLeftEqCheckU_follows a b _).bind fun o m1 _ => ?_
  refine .user <| .user <| .get ?_
  simp only
  cases m1.left.get (m1.hb.hl a) (equivalentKey a) with
  | none => exact .pure
  | some x =>
    simp only
    cases x.hash with
    | none =>
      refine .get <| .user ?_
      simp only [ok_bind, pure_bind]
      cases m1.left.removeEntry (m1.hb.hl a) (equivalentKey a) with
      | none => exact .fail
      | some z =>
        refine .set ?_
        exact RawTable.follows_grow_bind (by split <;> exact .pure)
    | some h =>
      simp only
      cases m1.right.getMut h (hashAndId (m1.hb.hl a) x.id) with
      | none => exact .fail
      | some y =>
        refine .set <| .get <| .user ?_
        simp only [ok_bind, pure_bind]
        cases m1.left.removeEntry (m1.hb.hl a) (equivalentKey a) with
        | none => exact .fail
        | some z =>
          refine .set ?_
          exact RawTable.follows_grow_bind (by split <;> exact .pure)

theorem swapRightU_follows (a b : R) : Follows (swapRightU a b) m (m.swapRight a b) := by
  refine .user <| .get <| (swapRightEqCheckU_follows a b _).bind fun o m1 _ => ?_
  refine .user <| .user <| .get ?_
  simp only
  cases m1.right.get (m1.hb.hr a) (equivalentKey a) with
  | none => exact .pure
  | some x =>
    simp only
    cases x.hash with
    | none =>
      refine .get <| .user ?_
      simp only [ok_bind, pure_bind]
      cases m1.right.removeEntry (m1.hb.hr a) (equivalentKey a) with
      | none => exact .fail
      | some z =>
        refine .set ?_
        exact RawTable.follows_grow_bind (by split <;> exact .pure)
    | some h =>
      simp only
      cases m1.left.getMut h (hashAndId (m1.hb.hr a) x.id) with
      | none => exact .fail
      | some y =>
        refine .set <| .get <| .user ?_
        simp only [ok_bind, pure_bind]
        cases m1.right.removeEntry (m1.hb.hr a) (equivalentKey a) with
        | none => exact .fail
        | some z =>
          refine .set ?_
          exact RawTable.follows_grow_bind (by split <;> exact .pure)

theorem swapLeftCheckedU_follows (a : L) (e : R) (b : L) :
    Follows (swapLeftCheckedU a e b) m (m.swapLeftChecked a e b) := by
  refine arePairedU_bind ?_
  simp only [swapLeftChecked]
  split
  · exact .pure
  · exact swapLeftU_follows a b

theorem swapRightCheckedU_follows (a : R) (e : L) (b : R) :
    Follows (swapRightCheckedU a e b) m (m.swapRightChecked a e b) := by
  refine arePairedU_bind ?_
  simp only [swapRightChecked]
  split
  · exact .pure
  · exact swapRightU_follows a b

theorem swapLeftOrInsertU_follows (a b : L) (r : R) :
    Follows (swapLeftOrInsertU a b r) m (m.swapLeftOrInsert a b r) := by
  refine .user <| .user <| .get ?_
  simp only [swapLeftOrInsert]
  split
  · exact swapLeftU_follows a b
  · refine (insertU_follows b r).bind fun o m' _ => ?_
    obtain ⟨x, y⟩ := o
    cases x <;> cases y <;> first | exact .pure | exact .fail

theorem swapRightOrInsertU_follows (a b : R) (l : L) :
    Follows (swapRightOrInsertU a b l) m (m.swapRightOrInsert a b l) := by
  refine .user <| .user <| .get ?_
  simp only [swapRightOrInsert]
  split
  · exact swapRightU_follows a b
  · refine (insertU_follows l b).bind fun o m' _ => ?_
    obtain ⟨x, y⟩ := o
    cases x <;> cases y <;> first | exact .pure | exact .fail

theorem nextU_bind {α : Type} {l : MappingPair L} {g : OptionalPair L R → Unw (PartialMap L R) α}
    {x : Res (α × PartialMap L R)} (h : Follows (g (ofPair (some l.value, m.getRight l.value))) m x) :
    Follows (nextU l >>= g) m x := by
  have h1 : Follows (nextU l) m (.ok (ofPair (some l.value, m.getRight l.value), m)) := .user <| .user <| .get .pure
  exact h1.bind (r' := fun _ => x) (by rintro a m' ⟨⟩; exact h)

theorem collectU_follows (ls : List (MappingPair L)) : Follows (collectU ls) m (.ok (Iter.collect m ls, m)) := by
  induction ls with
  | nil => exact .pure
  | cons l rest ih =>
    refine nextU_bind ?_
    exact Follows.bind (r' := fun y => .ok (_ :: y.1, y.2)) ih (fun a m' _ => .pure)

/-- `iter_paired()` to its end, in the main model -/
def pairedOf (m : PartialMap L R) : List (MappingPair L) → Res (List (L × R))
  | [] => .ok []
  | l :: rest =>
    match l.hash with
    | none => pairedOf m rest
    | some hash =>
      match m.getViaHashesAndId (m.hb.hl l.value) hash l.id with
      | .error p => .error p
      | .ok none => .ok []
      | .ok (some p) => do return p :: (← pairedOf m rest)

theorem pairedOf_cases (ls : List (MappingPair L)) : pairedOf m ls = .error .unwrapNone ∨ ∃ ps, pairedOf m ls = .ok ps := by
  induction ls with
  | nil => exact .inr ⟨[], rfl⟩
  | cons l rest ih =>
    simp only [pairedOf]
    cases l.hash with
    | none => exact ih
    | some hash =>
      simp only [getViaHashesAndId]
      cases m.left.get (m.hb.hl l.value) (hashAndId hash l.id) with
      | none => exact .inr ⟨[], rfl⟩
      | some a =>
        simp only
        cases m.right.get hash (hashAndId (m.hb.hl l.value) l.id) with
        | none => exact .inl rfl
        | some b =>
          rcases ih with ih | ⟨ps, ih⟩
          · exact .inl (by simp only [ih]; rfl)
          · exact .inr ⟨_, by simp only [ih]; rfl⟩

theorem take_pairedOf (ls : List (MappingPair L)) (n : Nat) (hn : ls.length < n) :
    (do let (ps, _) ← PairedIter.take m n ⟨ls⟩; return ps : Res (List (L × R))) = pairedOf m ls := by
  induction ls generalizing n with
  | nil =>
    cases n with
    | zero => cases hn
    | succ n => rfl
  | cons l rest ih =>
    cases n with
    | zero => cases hn
    | succ n =>
      have hn : rest.length < n := by simpa using hn
      cases hl : l.hash with
      | none =>
        have h1 := ih (n + 1) (by omega)
        simp only [pairedOf, hl, PairedIter.take, PairedIter.next] at h1 ⊢
        exact h1
      | some hash =>
        simp only [pairedOf, hl, PairedIter.take, PairedIter.next, bind, Except.bind, pure, Except.pure]
        cases hg : m.getViaHashesAndId (m.hb.hl l.value) hash l.id with
        | error p => rfl
        | ok o =>
          cases o with
          | none => rfl
          | some p =>
            have h1 := ih n hn
            simp only [bind, Except.bind, pure, Except.pure] at h1 ⊢
            rw [← h1]
            cases PairedIter.take m n ⟨rest⟩ <;> rfl

theorem iterPairedList_pairedOf : m.iterPairedList = pairedOf m m.left.toList :=
  take_pairedOf m.left.toList (m.left.len + 1) (by simp [RawTable.len, RawTable.toList])

theorem collectPairedU_follows (ls : List (MappingPair L)) :
    Follows (collectPairedU ls) m (do return (← pairedOf m ls, m)) := by
  induction ls with
  | nil => exact .pure
  | cons l rest ih =>
    simp only [collectPairedU, pairedOf]
    cases l.hash with
    | none => exact ih
    | some hash =>
      refine .user <| .get ?_
      simp only
      cases m.getViaHashesAndId (m.hb.hl l.value) hash l.id with
      | error p => exact .fail
      | ok o =>
        cases o with
        | none => exact .pure
        | some p =>
          have h1 := Follows.bind (g := fun ps => (pure (p :: ps) : Unw (PartialMap L R) _))
            (r' := fun y => .ok (p :: y.1, y.2)) ih (fun a m' _ => .pure)
          simp only [bind, Except.bind, pure, Except.pure] at h1 ⊢
          cases h2 : pairedOf m rest <;> rw [h2] at h1 <;> exact h1

theorem DrainIter.nextU_next (it : DrainIter L R) :
    match DrainIter.nextU it with
    | (.done, it') => it.next = .ok (none, it')
    | (.item p, it') => it.next = .ok (some p, it')
    | (.panic why, _) => ∃ p, why = some p ∧ it.next = .error p := by
  obtain ⟨todo, right⟩ := it
  cases todo with
  | nil =>
    simp only [DrainIter.nextU, DrainIter.next]
    cases right.toList.head? <;> rfl
  | cons l rest =>
    simp only [DrainIter.nextU, DrainIter.next]
    cases l.hash with
    | none => rfl
    | some hash =>
      simp only
      cases right.removeEntry hash (justId l.id) with
      | none => exact ⟨_, rfl, rfl⟩
      | some x => rfl

theorem DrainIter.takeU_take (n : Nat) (it : DrainIter L R) :
    match DrainIter.takeU n it with
    | (ps, none, it') => DrainIter.take n it = .ok (ps, it')
    | (_, some why, _) => ∃ p, why = some p ∧ DrainIter.take n it = .error p := by
  induction n generalizing it with
  | zero => rfl
  | succ n ih =>
    simp only [DrainIter.takeU, DrainIter.take]
    have h1 := DrainIter.nextU_next it
    cases h2 : DrainIter.nextU it with
    | mk o it' =>
      rw [h2] at h1
      cases o with
      | done => simp only at h1; simp only [h1]; rfl
      | panic why => obtain ⟨p, rfl, h1⟩ := h1; exact ⟨p, rfl, by simp only [h1]; rfl⟩
      | item p =>
        simp only at h1
        have h3 := ih it'
        cases h4 : DrainIter.takeU n it' with
        | mk ps x =>
          obtain ⟨w, it''⟩ := x
          rw [h4] at h3
          cases w with
          | none => simp only at h3; simp only [h1, h3, h4, bind, Except.bind]; rfl
          | some why =>
            obtain ⟨q, rfl, h3⟩ := h3
            simp only [h1, h3, h4, bind, Except.bind]
            exact ⟨q, rfl, rfl⟩

/-- how a call with a draining iterator compares with the main model -/
theorem ended_agrees {α : Type} {a : α} {w w' : Option (Option Panic)} {m' : PartialMap L R} {r : Res (α × PartialMap L R)}
    (h : ∀ why, w = some why → ∃ p, why = some p ∧ r = .error p)
    (h' : w = none → ∀ why, w' = some why → ∃ p, why = some p ∧ r = .error p)
    (h'' : w = none → w' = none → r = .ok (a, m')) (fate : Fate) :
    (ended a w w' m' fate).agrees r ∧ (ended a w w' m' fate).interrupted = false ∧
      fate.fuse ≤ (ended a w w' m' fate).rest fate.fuse + 0 := by
  cases w with
  | none =>
    cases w' with
    | none => exact ⟨h'' rfl rfl, rfl, by simp [ended, Halt.rest]⟩
    | some why => obtain ⟨p, rfl, h1⟩ := h' rfl why rfl; exact ⟨h1, rfl, by simp [ended, Halt.rest]⟩
  | some why =>
    obtain ⟨p, rfl, h1⟩ := h why rfl
    cases w' with
    | none => exact ⟨h1, rfl, by simp [ended, Halt.rest]⟩
    | some why => exact ⟨⟨p, h1⟩, rfl, by simp [ended, Halt.rest]⟩

theorem drainU_run (n : Nat) (fate : Fate) :
    (drainU n fate m).agrees (m.drainTake n) ∧ (drainU n fate m).interrupted = false ∧
      fate.fuse ≤ (drainU n fate m).rest fate.fuse + 0 := by
  have h1 := DrainIter.takeU_take n m.drain
  cases h2 : DrainIter.takeU n m.drain with
  | mk ps x =>
    obtain ⟨w, it⟩ := x
    rw [h2] at h1
    have h3 := DrainIter.takeU_take (it.todo.length + 2) it
    cases h4 : DrainIter.takeU (it.todo.length + 2) it with
    | mk qs y =>
      obtain ⟨w', it'⟩ := y
      rw [h4] at h3
      simp only [drainU, h2, h4]
      refine ended_agrees ?_ ?_ ?_ fate
      · rintro why rfl
        obtain ⟨p, rfl, h1⟩ := h1
        exact ⟨p, rfl, by simp only [drainTake, h1]; rfl⟩
      · rintro rfl why rfl
        obtain ⟨p, rfl, h3⟩ := h3
        exact ⟨p, rfl, by simp only [drainTake, h1, h3, bind, Except.bind]⟩
      · rintro rfl rfl
        simp only at h1 h3
        simp only [drainTake, h1, h3, bind, Except.bind, pure, Except.pure]

theorem drainU_follows (n : Nat) : Follows (drainU n) m (m.drainTake n) :=
  ⟨fun fate => (drainU_run n fate).1, 0, fun fate _ => (drainU_run n fate).2⟩

/-- the loops of `next` of `drain_filter` with a closure that does not panic are those of the main model -/
theorem nextLU_sure {σ : Type} (f : σ → OptionalPair L R → Bool × σ) (kept todo : List (UInt64 × MappingPair L)) (right st) :
    match DrainFilter.nextLU (sure f) kept todo right st with
    | (.done, it) => DrainFilter.nextL f kept todo right st = .ok (none, it)
    | (.item p, it) => DrainFilter.nextL f kept todo right st = .ok (some p, it) ∧ it.2.1.length < todo.length
    | (.panic why, _) => ∃ p, why = some p ∧ DrainFilter.nextL f kept todo right st = .error p := by
  induction todo generalizing kept st with
  | nil => rfl
  | cons e rest ih =>
    simp only [DrainFilter.nextLU, DrainFilter.nextL]
    have skip : ∀ st', match DrainFilter.nextLU (sure f) (kept ++ [e]) rest right st' with
      | (.done, it) => DrainFilter.nextL f (kept ++ [e]) rest right st' = .ok (none, it)
      | (.item p, it) => DrainFilter.nextL f (kept ++ [e]) rest right st' = .ok (some p, it) ∧ it.2.1.length < (e :: rest).length
      | (.panic why, _) => ∃ p, why = some p ∧ DrainFilter.nextL f (kept ++ [e]) rest right st' = .error p := by
      intro st'
      have h := ih (kept ++ [e]) st'
      split at h
      · exact h
      · exact ⟨h.1, by have := h.2; simp; omega⟩
      · exact h
    cases e.2.hash with
    | none =>
      simp only [sure]
      cases h2 : f st (someLeft e.2.value) with
      | mk b st' =>
        cases b
        · exact skip _
        · exact ⟨rfl, by simp⟩
    | some hash =>
      simp only
      cases right.removeEntry hash (justId e.2.id) with
      | none => exact ⟨_, rfl, rfl⟩
      | some x =>
        simp only [sure]
        cases h2 : f st (someBoth e.2.value x.1.value) with
        | mk b st' =>
          cases b
          · exact skip _
          · exact ⟨rfl, by simp⟩

theorem nextRU_sure {σ : Type} (f : σ → OptionalPair L R → Bool × σ) (kept todo : List (UInt64 × MappingPair R)) (st) :
    match DrainFilter.nextRU (sure f) kept todo st with
    | (.done, it) => DrainFilter.nextR f kept todo st = (none, it)
    | (.item p, it) => DrainFilter.nextR f kept todo st = (some p, it)
    | (.panic _, _) => False := by
  induction todo generalizing kept st with
  | nil => rfl
  | cons e rest ih =>
    simp only [DrainFilter.nextRU, DrainFilter.nextR, sure]
    cases h2 : f st (someRight e.2.value) with
    | mk b st' =>
      cases b
      · exact ih _ _
      · rfl

theorem nextU_sure {σ : Type} (f : σ → OptionalPair L R → Bool × σ) (it : DrainFilter σ L R) :
    match DrainFilter.nextU (sure f) it with
    | (.done, it') => DrainFilter.next f it = .ok (none, it') ∧ it'.reset = false
    | (.item p, it') => DrainFilter.next f it = .ok (some p, it') ∧
        (it'.reset = false ∨ it'.todoL.length < it.todoL.length)
    | (.panic why, _) => ∃ p, why = some p ∧ DrainFilter.next f it = .error p := by
  have h1 := nextLU_sure f it.keptL it.todoL it.right it.st
  simp only [DrainFilter.nextU, DrainFilter.next]
  cases h2 : DrainFilter.nextLU (sure f) it.keptL it.todoL it.right it.st with
  | mk o x =>
    obtain ⟨kl, tl, rt, s1⟩ := x
    rw [h2] at h1
    cases o with
    | item p => simp only at h1; simp only [h1.1, bind, Except.bind]; exact ⟨rfl, .inr h1.2⟩
    | panic why =>
      obtain ⟨p, rfl, h1⟩ := h1
      simp only [h1, bind, Except.bind]
      exact ⟨p, rfl, rfl⟩
    | done =>
      simp only at h1
      simp only [h1, bind, Except.bind]
      cases hr : it.reset with
      | true =>
        simp only [if_true]
        have h3 := nextRU_sure f [] rt.entries s1
        cases h4 : DrainFilter.nextRU (sure f) [] rt.entries s1 with
        | mk o y =>
          rw [h4] at h3
          cases o with
          | done => simp only at h3; simp only [h3]; exact ⟨rfl, trivial⟩
          | item p => simp only at h3; simp only [h3]; exact ⟨rfl, .inl trivial⟩
          | panic w => exact h3.elim
      | false =>
        simp only [Bool.false_eq_true, if_false]
        have h3 := nextRU_sure f it.keptR it.todoR s1
        cases h4 : DrainFilter.nextRU (sure f) it.keptR it.todoR s1 with
        | mk o y =>
          rw [h4] at h3
          cases o with
          | done => simp only at h3; simp only [h3]; exact ⟨rfl, trivial⟩
          | item p => simp only at h3; simp only [h3]; exact ⟨rfl, .inl trivial⟩
          | panic w => exact h3.elim

theorem nextU_reset {σ : Type} {f : σ → OptionalPair L R → Option Bool × σ} {it it' : DrainFilter σ L R} {o}
    (h : it.reset = false) (e : DrainFilter.nextU f it = (o, it')) : it'.reset = false := by
  simp only [DrainFilter.nextU] at e
  split at e
  · cases e; exact h
  · cases e; exact h
  · cases e; rfl

theorem takeU_sure {σ : Type} (f : σ → OptionalPair L R → Bool × σ) (n : Nat) (it : DrainFilter σ L R) :
    match DrainFilter.takeU (sure f) n it with
    | (ps, none, it') => DrainFilter.take f n it = .ok (ps, it') ∧ (it.reset = false ∨ it.todoL.length < n → it'.reset = false)
    | (_, some why, _) => ∃ p, why = some p ∧ DrainFilter.take f n it = .error p := by
  induction n generalizing it with
  | zero => exact ⟨rfl, by rintro (h | h); exact h; omega⟩
  | succ n ih =>
    simp only [DrainFilter.takeU, DrainFilter.take]
    have h1 := nextU_sure f it
    cases h2 : DrainFilter.nextU (sure f) it with
    | mk o it' =>
      rw [h2] at h1
      cases o with
      | done => simp only at h1; simp only [h1.1]; exact ⟨rfl, fun _ => h1.2⟩
      | panic why => obtain ⟨p, rfl, h1⟩ := h1; exact ⟨p, rfl, by simp only [h1]; rfl⟩
      | item p =>
        simp only at h1
        obtain ⟨h1, h1'⟩ := h1
        have h3 := ih it'
        cases h4 : DrainFilter.takeU (sure f) n it' with
        | mk ps x =>
          obtain ⟨w, it''⟩ := x
          rw [h4] at h3
          cases w with
          | none =>
            simp only at h3
            simp only [h1, h3.1, h4, bind, Except.bind]
            refine ⟨rfl, fun h => h3.2 ?_⟩
            rcases h with h | h
            · exact .inl (nextU_reset h h2)
            · rcases h1' with h1' | h1'
              · exact .inl h1'
              · exact .inr (by omega)
          | some why =>
            obtain ⟨q, rfl, h3⟩ := h3
            simp only [h1, h3, h4, bind, Except.bind]
            exact ⟨q, rfl, rfl⟩

theorem drainFilterU_run {σ : Type} (f : σ → OptionalPair L R → Bool × σ) (st : σ) (n : Nat) (fate : Fate) :
    (drainFilterU (sure f) st n fate m).agrees
        (do let (ps, _, m) ← m.drainFilterTake f st n; return (ps, m)) ∧
      (drainFilterU (sure f) st n fate m).interrupted = false ∧
      fate.fuse ≤ (drainFilterU (sure f) st n fate m).rest fate.fuse + 0 := by
  generalize hi : (DrainFilter.mk [] m.left.entries m.right true [] [] st : DrainFilter σ L R) = it0
  have h1 := takeU_sure f n it0
  cases h2 : DrainFilter.takeU (sure f) n it0 with
  | mk ps x =>
    obtain ⟨w, it⟩ := x
    rw [h2] at h1
    have h3 := takeU_sure f (it.todoL.length + it.right.len + it.todoR.length + 1) it
    cases h4 : DrainFilter.takeU (sure f) (it.todoL.length + it.right.len + it.todoR.length + 1) it with
    | mk qs y =>
      obtain ⟨w', it'⟩ := y
      rw [h4] at h3
      simp only [drainFilterU, drainFilterTake, hi, h2, h4]
      refine ended_agrees ?_ ?_ ?_ fate
      · rintro why rfl
        obtain ⟨p, rfl, h1⟩ := h1
        exact ⟨p, rfl, by simp only [h1]; rfl⟩
      · rintro rfl why rfl
        obtain ⟨p, rfl, h3⟩ := h3
        exact ⟨p, rfl, by simp only [h1.1, h3, bind, Except.bind]⟩
      · rintro rfl rfl
        have h5 := h3.2 (.inr (by omega))
        simp only at h1 h3
        simp only [h1.1, h3.1, bind, Except.bind, pure, Except.pure, DrainFilter.rightEntries, h5, Bool.false_eq_true,
          if_false]

theorem drainFilterU_follows {σ : Type} (f : σ → OptionalPair L R → Bool × σ) (st : σ) (n : Nat) :
    Follows (drainFilterU (sure f) st n) m (do let (ps, _, m) ← m.drainFilterTake f st n; return (ps, m)) :=
  ⟨fun fate => (drainFilterU_run f st n fate).1, 0, fun fate _ => (drainFilterU_run f st n fate).2⟩

theorem retainScanU_follows {σ : Type} (f : σ → OptionalPair L R → Bool × σ) (ls : List (MappingPair L)) (st : σ) :
    Follows (retainScanU (sure f) ls st) m (do let (d, _) ← m.retainScan f ls st; return (d, m)) := by
  induction ls generalizing st with
  | nil => exact .pure
  | cons l rest ih =>
    simp only [retainScanU, retainScan, Iter.next]
    refine nextU_bind ?_
    cases hg : m.getRight l.value with
    | none =>
      simp only [sure, ofPair]
      cases h2 : f st (someLeft l.value) with
      | mk b st' =>
        cases b
        · exact ih st'
        · refine .user <| .user <| .user <| .get ?_
          simp only [toPair, Option.map, OptionalPair.getRight]
          cases h3 : m.getLeftInner l.value with
          | none => exact .fail
          | some p =>
            have h4 := Follows.bind (g := fun d => (pure ((some (m.hb.hl l.value), none, p.id) :: d) : Unw (PartialMap L R) _))
              (r' := fun y => .ok ((some (m.hb.hl l.value), none, p.id) :: y.1, y.2)) (ih st') (fun a m' _ => .pure)
            simp only [bind, Except.bind, pure, Except.pure] at h4 ⊢
            cases h5 : m.retainScan f rest st' <;> rw [h5] at h4 <;> exact h4
    | some r =>
      simp only [sure, ofPair]
      cases h2 : f st (someBoth l.value r) with
      | mk b st' =>
        cases b
        · exact ih st'
        · refine .user <| .user <| .user <| .user <| .get ?_
          simp only [toPair, Option.map, OptionalPair.getRight]
          cases h3 : m.getLeftInner l.value with
          | none => exact .fail
          | some p =>
            have h4 := Follows.bind
              (g := fun d => (pure ((some (m.hb.hl l.value), some (m.hb.hr r), p.id) :: d) : Unw (PartialMap L R) _))
              (r' := fun y => .ok ((some (m.hb.hl l.value), some (m.hb.hr r), p.id) :: y.1, y.2)) (ih st') (fun a m' _ => .pure)
            simp only [bind, Except.bind, pure, Except.pure] at h4 ⊢
            cases h5 : m.retainScan f rest st' <;> rw [h5] at h4 <;> exact h4

theorem retainDropU_follows (ks : List (Option UInt64 × Option UInt64 × Nat)) :
    Follows (retainDropU true ks) m (do return ((), ← m.retainDrop ks)) := by
  induction ks generalizing m with
  | nil => exact .pure
  | cons k ks ih =>
    obtain ⟨a, b, i⟩ := k
    cases a <;> cases b <;> simp only [retainDrop]
    · exact .fail
    · exact .get <| .set ih
    · exact .get <| .set ih
    · exact .get <| .set ih

theorem retainUnpairedDropU_follows (ks : List (Option UInt64 × Option UInt64 × Nat)) :
    Follows (retainDropU false ks) m (do return ((), ← m.retainUnpairedDrop ks)) := by
  induction ks generalizing m with
  | nil => exact .pure
  | cons k ks ih =>
    obtain ⟨a, b, i⟩ := k
    cases a <;> cases b <;> simp only [retainUnpairedDrop]
    · exact .fail
    · exact .get <| .set ih
    · exact .get <| .set ih
    · exact .fail

theorem retainU_follows {σ : Type} (f : σ → OptionalPair L R → Bool × σ) (st : σ) :
    Follows (retainU (sure f) st) m (do let (_, m) ← m.retain f st; return ((), m)) := by
  refine .get ?_
  have := Follows.bind (g := fun d => retainDropU true d) (retainScanU_follows (m := m) f m.iter.todo st)
    (r' := fun x => do return ((), ← x.2.retainDrop x.1)) (fun a m' _ => retainDropU_follows a)
  simp only [retain, bind, Except.bind, pure, Except.pure] at this ⊢
  cases h : m.retainScan f m.iter.todo st with
  | error p => rw [h] at this; exact this
  | ok x =>
    rw [h] at this
    simp only at this ⊢
    cases h' : m.retainDrop x.1 <;> rw [h'] at this <;> exact this

theorem retainPairedScanU_follows {σ : Type} (f : σ → L → R → Bool × σ) (ls : List (MappingPair L)) (st : σ) :
    Follows (retainPairedScanU (sure₂ f) ls st) m (do
      let ps ← pairedOf m ls
      let (d, _) ← m.retainPairedScan f ps st
      return (d, m)) := by
  induction ls generalizing st with
  | nil => exact .pure
  | cons l rest ih =>
    simp only [retainPairedScanU, pairedOf]
    cases l.hash with
    | none => exact ih st
    | some hash =>
      refine .user <| .get ?_
      simp only
      cases m.getViaHashesAndId (m.hb.hl l.value) hash l.id with
      | error p => exact .fail
      | ok o =>
        cases o with
        | none => exact .pure
        | some p =>
          obtain ⟨a, b⟩ := p
          simp only [sure₂]
          cases h2 : f st a b with
          | mk t st' =>
            cases t
            · have h1 := ih st'
              simp only [bind, Except.bind, pure, Except.pure] at h1 ⊢
              cases h3 : pairedOf m rest with
              | error p => rw [h3] at h1; exact h1
              | ok ps =>
                rw [h3] at h1
                simp only [retainPairedScan, h2]
                exact h1
            · refine .user <| .user <| .user <| .user ?_
              cases h3 : m.getLeftInner a with
              | none =>
                simp only [bind, Except.bind, pure, Except.pure]
                rcases pairedOf_cases (m := m) rest with h4 | ⟨ps, h4⟩
                · simp only [h4]; exact .fail
                · simp only [h4, retainPairedScan, h2, h3]; exact .fail
              | some p =>
                have h4 := Follows.bind
                  (g := fun d => (pure ((m.hb.hl a, m.hb.hr b, p.id) :: d) : Unw (PartialMap L R) _))
                  (r' := fun y => .ok ((m.hb.hl a, m.hb.hr b, p.id) :: y.1, y.2)) (ih st') (fun a m' _ => .pure)
                simp only [bind, Except.bind, pure, Except.pure] at h4 ⊢
                cases h5 : pairedOf m rest with
                | error q => rw [h5] at h4; exact h4
                | ok ps =>
                  rw [h5] at h4
                  simp only [retainPairedScan, h2, h3, bind, Except.bind, pure, Except.pure] at h4 ⊢
                  cases h6 : m.retainPairedScan f ps st' <;> rw [h6] at h4 <;> exact h4

theorem retainPairedU_follows {σ : Type} (f : σ → L → R → Bool × σ) (st : σ) :
    Follows (retainPairedU (sure₂ f) st) m (do let (_, m) ← m.retainPaired f st; return ((), m)) := by
  refine .get ?_
  have h0 : Follows (retainPairedScanU (sure₂ f) m.iterPaired.todo st >>= fun d => Unw.get >>= fun m => Unw.set (retainPairedDrop m d))
      m _ := Follows.bind (retainPairedScanU_follows (m := m) f m.iterPaired.todo st)
    (r' := fun x => .ok ((), retainPairedDrop x.2 x.1)) (fun a m' _ => ⟨fun _ => rfl, 0, fun _ _ => ⟨rfl, Nat.le_refl _⟩⟩)
  simp only [retainPaired, iterPairedList_pairedOf, bind, Except.bind, pure, Except.pure] at h0 ⊢
  rw [show m.iterPaired.todo = m.left.toList from rfl] at h0 ⊢
  cases h : pairedOf m m.left.toList with
  | error p => rw [h] at h0; exact h0
  | ok ps =>
    rw [h] at h0
    simp only at h0 ⊢
    cases h' : m.retainPairedScan f ps st <;> rw [h'] at h0 <;> exact h0

theorem retainUnpairedScanU_follows {σ : Type} (f : σ → OptionalPair L R → Bool × σ) (os : List (OptionalPair L R)) (st : σ) :
    Follows (retainUnpairedScanU (sure f) os st) m (do let (d, _) ← m.retainUnpairedScan f os st; return (d, m)) := by
  induction os generalizing st with
  | nil => exact .pure
  | cons o rest ih =>
    simp only [retainUnpairedScanU, retainUnpairedScan, sure]
    cases h2 : f st o with
    | mk b st' =>
      cases b
      · exact ih st'
      · cases o with
        | neither => exact .fail
        | someBoth => exact .fail
        | someLeft l =>
          refine .user <| .user <| .get ?_
          simp only
          cases h3 : m.left.get (m.hb.hl l) (equivalentKey l) with
          | none => exact .fail
          | some p =>
            have h4 := Follows.bind (g := fun d => (pure ((some (m.hb.hl l), none, p.id) :: d) : Unw (PartialMap L R) _))
              (r' := fun y => .ok ((some (m.hb.hl l), none, p.id) :: y.1, y.2)) (ih st') (fun a m' _ => .pure)
            simp only [bind, Except.bind, pure, Except.pure] at h4 ⊢
            cases h5 : m.retainUnpairedScan f rest st' <;> rw [h5] at h4 <;> exact h4
        | someRight r =>
          refine .user <| .user <| .get ?_
          simp only
          cases h3 : m.right.get (m.hb.hr r) (equivalentKey r) with
          | none => exact .fail
          | some p =>
            have h4 := Follows.bind (g := fun d => (pure ((none, some (m.hb.hr r), p.id) :: d) : Unw (PartialMap L R) _))
              (r' := fun y => .ok ((none, some (m.hb.hr r), p.id) :: y.1, y.2)) (ih st') (fun a m' _ => .pure)
            simp only [bind, Except.bind, pure, Except.pure] at h4 ⊢
            cases h5 : m.retainUnpairedScan f rest st' <;> rw [h5] at h4 <;> exact h4

theorem retainUnpairedU_follows {σ : Type} (f : σ → OptionalPair L R → Bool × σ) (st : σ) :
    Follows (retainUnpairedU (sure f) st) m (do let (_, m) ← m.retainUnpaired f st; return ((), m)) := by
  refine .get ?_
  have := Follows.bind (g := fun d => retainDropU false d) (retainUnpairedScanU_follows (m := m) f m.iterUnpairedList st)
    (r' := fun x => do return ((), ← x.2.retainUnpairedDrop x.1)) (fun a m' _ => retainUnpairedDropU_follows a)
  simp only [retainUnpaired, bind, Except.bind, pure, Except.pure] at this ⊢
  cases h : m.retainUnpairedScan f m.iterUnpairedList st with
  | error p => rw [h] at this; exact this
  | ok x =>
    rw [h] at this
    simp only at this ⊢
    cases h' : m.retainUnpairedDrop x.1 <;> rw [h'] at this <;> exact this

theorem user_follows : Follows (user : Unw (PartialMap L R) Unit) m (.ok ((), m)) := by
  have h := Follows.user (m := m) (g := fun _ => pure ()) Follows.pure
  refine ⟨fun f => ?_, ?_⟩
  · have := h.agrees f
    simp only [bind, user] at this ⊢
    cases e : f.fuse <;> rw [e] at this <;> exact this
  · obtain ⟨k, hk⟩ := h.calm
    refine ⟨k, fun f hf => ?_⟩
    have := hk f hf
    simp only [bind, user] at this ⊢
    cases e : f.fuse <;> rw [e] at this <;> exact this

theorem extendPairsU_follows (xs : List (L × R)) : Follows (extendPairsU xs) m (do return ((), ← m.extendPairs xs)) := by
  induction xs generalizing m with
  | nil => exact user_follows
  | cons x xs ih =>
    refine .user ?_
    have := Follows.bind (g := fun _ => extendPairsU xs) (insertU_follows (m := m) x.1 x.2)
      (r' := fun x => do return ((), ← x.2.extendPairs xs)) (fun a m' _ => ih)
    simp only [extendPairs, bind, Except.bind, pure, Except.pure] at this ⊢
    cases h : m.insert x.1 x.2 <;> rw [h] at this <;> exact this

theorem extendU_follows (xs : List (OptionalPair L R)) : Follows (extendU xs) m (do return ((), ← m.extend xs)) := by
  induction xs generalizing m with
  | nil => exact user_follows
  | cons x xs ih =>
    cases x with
    | neither => exact .user ih
    | someLeft l =>
      refine .user ?_
      have := Follows.bind (g := fun _ => extendU xs) (insertLeftU_follows (m := m) l)
        (r' := fun x => do return ((), ← x.2.extend xs)) (fun a m' _ => ih)
      simp only [extend, bind, Except.bind, pure, Except.pure] at this ⊢
      cases h : m.insertLeft l <;> rw [h] at this <;> exact this
    | someRight r =>
      refine .user ?_
      have := Follows.bind (g := fun _ => extendU xs) (insertRightU_follows (m := m) r)
        (r' := fun x => do return ((), ← x.2.extend xs)) (fun a m' _ => ih)
      simp only [extend, bind, Except.bind, pure, Except.pure] at this ⊢
      cases h : m.insertRight r <;> rw [h] at this <;> exact this
    | someBoth l r =>
      refine .user ?_
      have := Follows.bind (g := fun _ => extendU xs) (insertU_follows (m := m) l r)
        (r' := fun x => do return ((), ← x.2.extend xs)) (fun a m' _ => ih)
      simp only [extend, bind, Except.bind, pure, Except.pure] at this ⊢
      cases h : m.insert l r <;> rw [h] at this <;> exact this

theorem follows_unit {β : Type} {x : Unw (PartialMap L R) Unit} {m' : PartialMap L R} {b : β} (h : Follows x m (.ok ((), m'))) :
    Follows (do x; return b) m (.ok (b, m')) :=
  h.bind (r' := fun y => .ok (b, y.2)) fun _ _ _ => Follows.pure

theorem follows_res {x : Unw (PartialMap L R) Unit} {r : Res (PartialMap L R)} {b : Out L R}
    (h : Follows x m (do return ((), ← r))) : Follows (do x; return b) m (do return (b, ← r)) := by
  have := h.bind (r' := fun y => .ok (b, y.2)) (g := fun _ => pure b) fun _ _ _ => Follows.pure
  simp only [bind, Except.bind, pure, Except.pure] at this ⊢
  cases r <;> exact this

theorem follows_res' {σ : Type} {x : Unw (PartialMap L R) Unit} {r : Res (σ × PartialMap L R)} {b : Out L R}
    (h : Follows x m (do let (_, m) ← r; return ((), m))) : Follows (do x; return b) m (do let (_, m) ← r; return (b, m)) := by
  have := h.bind (r' := fun y => .ok (b, y.2)) (g := fun _ => pure b) fun _ _ _ => Follows.pure
  simp only [bind, Except.bind, pure, Except.pure] at this ⊢
  cases r <;> exact this

theorem execU_follows (op : Op L R) : Follows (execU op) m (m.exec op) := by
  cases op
  case insert l r => exact follows_map (insertU_follows l r)
  case insertLeft l => exact follows_map (insertLeftU_follows l)
  case insertRight r => exact follows_map (insertRightU_follows r)
  case pair l r => exact follows_map (r := .ok _) (pairU_follows l r)
  case unpair l r => exact follows_map (r := .ok _) (unpairU_follows l r)
  case pairForced l r => exact follows_map (pairForcedU_follows l r)
  case pairForcedRemove l r => exact follows_map (pairForcedRemoveU_follows l r)
  case remove l r => exact follows_map (removeU_follows l r)
  case removeViaLeft l => exact follows_map (removeViaLeftU_follows l)
  case removeViaRight r => exact follows_map (removeViaRightU_follows r)
  case removeLeft l => exact follows_map (removeLeftU_follows l)
  case removeRight r => exact follows_map (removeRightU_follows r)
  case swapLeft a b => exact follows_map (swapLeftU_follows a b)
  case swapLeftChecked a e b => exact follows_map (swapLeftCheckedU_follows a e b)
  case swapLeftOrInsert a b r => exact follows_map (swapLeftOrInsertU_follows a b r)
  case swapRight a b => exact follows_map (swapRightU_follows a b)
  case swapRightChecked a e b => exact follows_map (swapRightCheckedU_follows a e b)
  case swapRightOrInsert a b l => exact follows_map (swapRightOrInsertU_follows a b l)
  case getLeft => exact .user <| .user <| .get .pure
  case getRight => exact .user <| .user <| .get .pure
  case containsLeft => exact .user <| .user <| .get .pure
  case containsRight => exact .user <| .user <| .get .pure
  case isLeftPaired => exact .user <| .user <| .get .pure
  case isRightPaired => exact .user <| .user <| .get .pure
  case arePaired => exact arePairedU_bind .pure
  case lenLeft => exact .get .pure
  case lenRight => exact .get .pure
  case isEmpty => exact .get .pure
  case clear => exact .get <| .set .pure
  case iter => exact .get <| follows_map (r := .ok _) (g := Out.entries) (collectU_follows (m := m) m.iter.todo)
  case iterPaired =>
    refine .get ?_
    have := follows_map (g := Out.pairs) (collectPairedU_follows (m := m) m.iterPaired.todo)
    simp only [exec, iterPairedList_pairedOf, bind, Except.bind, pure, Except.pure] at this ⊢
    rw [show m.iterPaired.todo = m.left.toList from rfl] at this ⊢
    cases h : pairedOf m m.left.toList <;> rw [h] at this <;> exact this
  case iterUnpaired => exact .get .pure
  case iterLeft => exact .get .pure
  case iterRight => exact .get .pure
  case drain n => exact follows_map (drainU_follows n)
  case drainFilter σ f s n =>
    have := follows_map (g := Out.entries) (drainFilterU_follows (m := m) f s n)
    simp only [exec, bind, Except.bind, pure, Except.pure] at this ⊢
    cases h : m.drainFilterTake f s n <;> rw [h] at this <;> exact this
  case retain σ f s => exact follows_res' (retainU_follows f s)
  case retainPaired σ f s => exact follows_res' (retainPairedU_follows f s)
  case retainUnpaired σ f s => exact follows_res' (retainUnpairedU_follows f s)
  case extendPairs xs => exact follows_res (extendPairsU_follows xs)
  case extend xs => exact follows_res (extendU_follows xs)
  case reserveLeft n => exact follows_unit <| .get RawTable.follows_grow
  case reserveRight n => exact follows_unit <| .get RawTable.follows_grow
  case tryReserveLeft n a =>
    cases a
    · exact .pure
    · exact follows_unit <| .get RawTable.follows_grow
  case tryReserveRight n a =>
    cases a
    · exact .pure
    · exact follows_unit <| .get RawTable.follows_grow
  case shrinkToLeft n => exact follows_unit <| .get RawTable.follows_grow
  case shrinkToRight n => exact follows_unit <| .get RawTable.follows_grow
  case shrinkToFit => exact follows_unit <| .get <| RawTable.follows_grow_bind <| .get <| RawTable.follows_grow
  case clone => exact .user <| .get <| .set .pure

end Verif.PartialMap
