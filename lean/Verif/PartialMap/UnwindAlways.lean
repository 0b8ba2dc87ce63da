import Verif.PartialMap.Always
import Verif.PartialMap.UnwindFollows
/-! What holds of every `PartialCycleMap` also after calls that ended with a panic. -/
set_option linter.unusedSectionVars false
set_option linter.unusedSimpArgs false
namespace Verif.PartialMap
open PartialSpec OptionalPair Unw

variable [RawImpl] [LawfulRaw] {L R : Type} [BEq L] [BEq R] [EquivBEq L] [EquivBEq R]
variable {m m' : PartialMap L R} {hb : BuildHasher L R}

/-- the map a panic leaves behind -/
def Left (hb : BuildHasher L R) (_ : Option Panic) (m : PartialMap L R) : Prop := Always m ∧ m.hb = hb

/-- a call that panics leaves such a map -/
abbrev Sound {α : Type} (x : Unw (PartialMap L R) α) (m : PartialMap L R) : Prop := Ends x m (fun _ _ => True) (Left m.hb)

theorem Left.bind {α β : Type} {x : Unw (PartialMap L R) α} {g : α → Unw (PartialMap L R) β} {r : Res (α × PartialMap L R)}
    (hx : Follows x m r) (h : Sound x m)
    (h' : ∀ a m', r = .ok (a, m') → Ends (g a) m' (fun _ _ => True) (Left m.hb)) : Sound (x >>= g) m :=
  (hx.ends h).bind fun a m' e => h' a m' e.1

theorem Sound.cast {α : Type} {x : Unw (PartialMap L R) α} (h : Sound x m') (e : m'.hb = m.hb) :
    Ends x m' (fun _ _ => True) (Left m.hb) := e ▸ h

theorem Sound.map {α β : Type} {x : Unw (PartialMap L R) α} {g : α → β} (h : Sound x m) : Sound (do return g (← x)) m :=
  Ends.bind h fun _ _ _ => Ends.pure trivial

local macro "kept1" : tactic => `(tactic| first
  | exact Fewer.refl
  | exact Fewer.getMut (by assumption)
  | exact Fewer.removeEntry (by assumption)
  | (refine Fewer.trans ?_ (Fewer.getMut (by assumption)); exact Fewer.getMut (by assumption))
  | (refine Fewer.trans ?_ (Fewer.removeEntry (by assumption)); exact Fewer.getMut (by assumption)))

local macro "kept" : tactic => `(tactic| (refine ⟨rfl, ?_, ?_⟩ <;> kept1))

theorem arePairedU_sound (h : Always m) (l : L) (r : R) : Sound (arePairedU l r) m := by
  have i : Left m.hb none m := ⟨h, rfl⟩
  exact .user_bind i <| .user_bind i <| .user_bind i <| .user_bind i <| .get_bind <| .pure trivial

theorem removeViaLeftU_sound (h : Always m) (l : L) : Sound (removeViaLeftU l) m := by
  have i : Left m.hb none m := ⟨h, rfl⟩
  refine .user_bind i <| .user_bind i <| .get_bind ?_
  simp only
  cases h1 : m.left.removeEntry (m.hb.hl l) (equivalentKey l) with
  | none => exact .pure trivial
  | some x =>
    refine .set_bind ?_
    cases x.1.hash with
    | none => exact .pure trivial
    | some a =>
      simp only
      cases h2 : m.right.removeEntry a (hashAndId (m.hb.hl l) x.1.id) with
      | none => exact .fail (Less.then (m := m) (by kept) h)
      | some y => exact .set_bind (.pure trivial)

theorem removeViaRightU_sound (h : Always m) (r : R) : Sound (removeViaRightU r) m := by
  have i : Left m.hb none m := ⟨h, rfl⟩
  refine .user_bind i <| .user_bind i <| .get_bind ?_
  simp only
  cases h1 : m.right.removeEntry (m.hb.hr r) (equivalentKey r) with
  | none => exact .pure trivial
  | some x =>
    refine .set_bind ?_
    cases x.1.hash with
    | none => exact .pure trivial
    | some a =>
      simp only
      cases h2 : m.left.removeEntry a (hashAndId (m.hb.hr r) x.1.id) with
      | none => exact .fail (Less.then (m := m) (by kept) h)
      | some y => exact .set_bind (.pure trivial)

theorem removeLeftU_sound (h : Always m) (l : L) : Sound (removeLeftU l) m := by
  have i : Left m.hb none m := ⟨h, rfl⟩
  refine .user_bind i <| .user_bind i <| .get_bind ?_
  cases h1 : m.left.removeEntry (m.hb.hl l) (equivalentKey l) with
  | none => exact .pure trivial
  | some x =>
    refine .set_bind ?_
    cases x.1.hash with
    | none => exact .pure trivial
    | some a =>
      simp only
      cases h2 : m.right.getMut a (justId x.1.id) with
      | none => exact .fail (Less.then (m := m) (by kept) h)
      | some y => exact .set_bind (.pure trivial)

theorem removeRightU_sound (h : Always m) (r : R) : Sound (removeRightU r) m := by
  have i : Left m.hb none m := ⟨h, rfl⟩
  refine .user_bind i <| .user_bind i <| .get_bind ?_
  cases h1 : m.right.removeEntry (m.hb.hr r) (equivalentKey r) with
  | none => exact .pure trivial
  | some x =>
    refine .set_bind ?_
    cases x.1.hash with
    | none => exact .pure trivial
    | some a =>
      simp only
      cases h2 : m.left.getMut a (justId x.1.id) with
      | none => exact .fail (Less.then (m := m) (by kept) h)
      | some y => exact .set_bind (.pure trivial)

theorem removeU_sound (h : Always m) (l : L) (r : R) : Sound (removeU l r) m := by
  refine Left.bind (arePairedU_follows l r) (arePairedU_sound h l r) ?_
  rintro a m' ⟨⟩
  split
  · refine Left.bind (removeViaLeftU_follows l) (removeViaLeftU_sound h l) fun o m' e => ?_
    have := (removeViaLeft_less e).then h
    cases o <;> first | exact .pure trivial | exact .fail this
  · exact .pure trivial

theorem Own.interrupted {T : Type} [BEq T] [EquivBEq T] {hf : T → UInt64} {t : RawTable (MappingPair T)} {q}
    (h : Own hf q t) (s) : Own hf q (t.interrupted s (·.hashWith hf)) :=
  RawTable.Keyed.interrupted Away.symm h s

theorem insertU_sound (h : Always m) (l : L) (r : R) : Sound (insertU l r) m := by
  refine Left.bind (removeViaLeftU_follows l) (removeViaLeftU_sound h l) fun o1 m1 e1 => ?_
  have a1 := removeViaLeft_less e1
  have k1 := removeViaLeft_away h e1
  have b1 := a1.always h
  refine Sound.cast ?_ a1.hb
  refine Left.bind (removeViaRightU_follows r) (removeViaRightU_sound b1 r) fun o2 m2 e2 => ?_
  have a2 := removeViaRight_less e2
  have b2 := a2.always b1
  refine Sound.cast ?_ a2.hb
  have i : Left m2.hb none m2 := ⟨b2, rfl⟩
  rw [← a1.hb] at k1
  have k3 := a2.left.imp _ k1
  rw [← a2.hb] at k3
  exact .user_bind i <| .user_bind i <| .get_bind <|
    RawTable.ends_grow_bind (fun _ s _ => ⟨⟨b2.left.interrupted _, b2.right⟩, rfl⟩) <| .get_bind <|
    RawTable.ends_grow_bind (fun _ s _ => ⟨⟨k3.add _ _, b2.right.interrupted _⟩, rfl⟩) <| .pure trivial

theorem insertLeftU_sound (h : Always m) (l : L) : Sound (insertLeftU l) m := by
  refine Left.bind (removeViaLeftU_follows l) (removeViaLeftU_sound h l) fun o1 m1 e1 => ?_
  have a1 := removeViaLeft_less e1
  have b1 := a1.always h
  refine Sound.cast ?_ a1.hb
  exact .user_bind ⟨b1, rfl⟩ <| .get_bind <|
    RawTable.ends_grow_bind (fun _ s _ => ⟨⟨b1.left.interrupted _, b1.right⟩, rfl⟩) <| .pure trivial

theorem insertRightU_sound (h : Always m) (r : R) : Sound (insertRightU r) m := by
  refine Left.bind (removeViaRightU_follows r) (removeViaRightU_sound h r) fun o1 m1 e1 => ?_
  have a1 := removeViaRight_less e1
  have b1 := a1.always h
  refine Sound.cast ?_ a1.hb
  exact .user_bind ⟨b1, rfl⟩ <| .get_bind <|
    RawTable.ends_grow_bind (fun _ s _ => ⟨⟨b1.left, b1.right.interrupted _⟩, rfl⟩) <| .pure trivial

theorem pairU_sound (h : Always m) (l : L) (r : R) : Sound (pairU l r) m := by
  have i : Left m.hb none m := ⟨h, rfl⟩
  exact .user_bind i <| .user_bind i <| .user_bind i <| .user_bind i <| .get_bind <| .set_bind <| .pure trivial

theorem unpairU_sound (h : Always m) (l : L) (r : R) : Sound (unpairU l r) m := by
  have i : Left m.hb none m := ⟨h, rfl⟩
  exact .user_bind i <| .user_bind i <| .user_bind i <| .user_bind i <| .get_bind <| .set_bind <| .pure trivial

theorem pairForcedU_sound (h : Always m) (l : L) (r : R) : Sound (pairForcedU l r) m := by
  have i : Left m.hb none m := ⟨h, rfl⟩
  refine Left.bind (arePairedU_follows l r) (arePairedU_sound h l r) ?_
  rintro a m' ⟨⟩
  split
  · exact .pure trivial
  · refine .user_bind i <| .user_bind i <| .user_bind i <| .user_bind i <| .get_bind ?_
    simp only
    repeat' first
      | exact .pure trivial
      | exact Ends.fail (Less.then (m := m) (by kept) h)
      | refine .set_bind ?_
      | split

theorem pairForcedRemoveU_sound (h : Always m) (l : L) (r : R) : Sound (pairForcedRemoveU l r) m := by
  have i : Left m.hb none m := ⟨h, rfl⟩
  refine Left.bind (arePairedU_follows l r) (arePairedU_sound h l r) ?_
  rintro a m' ⟨⟩
  split
  · exact .pure trivial
  · refine .user_bind i <| .user_bind i <| .user_bind i <| .user_bind i <| .get_bind ?_
    simp only
    repeat' first
      | exact .pure trivial
      | exact Ends.fail (Less.then (m := m) (by kept) h)
      | refine .set_bind ?_
      | split

theorem swapLeftEqCheckU_sound (h : Always m) (a b : L) (n : UInt64) : Sound (swapLeftEqCheckU a b n) m := by
  have i : Left m.hb none m := ⟨h, rfl⟩
  refine .user_bind i <| .get_bind ?_
  cases m.left.get n (equivalentKey b) with
  | none => exact .pure trivial
  | some x =>
    refine .user_bind i ?_
    split
    · exact removeViaLeftU_sound h b
    · exact .pure trivial

theorem swapRightEqCheckU_sound (h : Always m) (a b : R) (n : UInt64) : Sound (swapRightEqCheckU a b n) m := by
  have i : Left m.hb none m := ⟨h, rfl⟩
  refine .user_bind i <| .get_bind ?_
  cases m.right.get n (equivalentKey b) with
  | none => exact .pure trivial
  | some x =>
    refine .user_bind i ?_
    split
    · exact removeViaRightU_sound h b
    · exact .pure trivial

theorem swapLeftU_sound (h : Always m) (a b : L) : Sound (swapLeftU a b) m := by
  refine .user_bind ⟨h, rfl⟩ <| .get_bind ?_
  refine Left.bind (swapLeftEqCheckU_follows a b _) (swapLeftEqCheckU_sound h a b _) fun o1 m1 e1 => ?_
  obtain ⟨l1, k1⟩ := swapLeftEqCheck_less h e1
  have a1 := l1.always h
  refine Sound.cast ?_ l1.hb
  refine .user_bind ⟨a1, rfl⟩ <| .user_bind ⟨a1, rfl⟩ <| .get_bind ?_
  simp only
  cases hx : m1.left.get (m1.hb.hl a) (equivalentKey a) with
  | none => exact .pure trivial
  | some x =>
    simp only
    cases x.hash with
    | none =>
      refine .get_bind <| .user_bind ⟨a1, rfl⟩ ?_
      cases hz : m1.left.removeEntry (m1.hb.hl a) (equivalentKey a) with
      | none => exact .fail ⟨a1, rfl⟩
      | some z =>
        have c1 := (a1.left.removed Away.symm hz).1
        refine .set_bind ?_
        exact RawTable.ends_grow_bind (fun _ s _ => ⟨⟨Own.interrupted c1 _, a1.right⟩, rfl⟩)
          (by split <;> exact .pure trivial)
    | some hh =>
      simp only
      cases hy : m1.right.getMut hh (hashAndId (m1.hb.hl a) x.id) with
      | none => exact .fail ⟨a1, rfl⟩
      | some y =>
        have i : Left m1.hb none { m1 with right := y.2 { y.1 with hash := some (m.hb.hl b) } } :=
          Less.then (m := m1) (by kept) a1
        refine .set_bind <| .get_bind <| .user_bind i ?_
        cases hz : m1.left.removeEntry (m1.hb.hl a) (equivalentKey a) with
        | none => exact .fail i
        | some z =>
          have c1 := (a1.left.removed Away.symm hz).1
          refine .set_bind ?_
          exact RawTable.ends_grow_bind (fun _ s _ => ⟨⟨Own.interrupted c1 _, i.1.right⟩, rfl⟩)
            (by split <;> exact .pure trivial)

theorem swapRightU_sound (h : Always m) (a b : R) : Sound (swapRightU a b) m := by
  refine .user_bind ⟨h, rfl⟩ <| .get_bind ?_
  refine Left.bind (swapRightEqCheckU_follows a b _) (swapRightEqCheckU_sound h a b _) fun o1 m1 e1 => ?_
  obtain ⟨l1, k1⟩ := swapRightEqCheck_less h e1
  have a1 := l1.always h
  refine Sound.cast ?_ l1.hb
  refine .user_bind ⟨a1, rfl⟩ <| .user_bind ⟨a1, rfl⟩ <| .get_bind ?_
  simp only
  cases hx : m1.right.get (m1.hb.hr a) (equivalentKey a) with
  | none => exact .pure trivial
  | some x =>
    simp only
    cases x.hash with
    | none =>
      refine .get_bind <| .user_bind ⟨a1, rfl⟩ ?_
      cases hz : m1.right.removeEntry (m1.hb.hr a) (equivalentKey a) with
      | none => exact .fail ⟨a1, rfl⟩
      | some z =>
        have c1 := (a1.right.removed Away.symm hz).1
        refine .set_bind ?_
        exact RawTable.ends_grow_bind (fun _ s _ => ⟨⟨a1.left, Own.interrupted c1 _⟩, rfl⟩)
          (by split <;> exact .pure trivial)
    | some hh =>
      simp only
      cases hy : m1.left.getMut hh (hashAndId (m1.hb.hr a) x.id) with
      | none => exact .fail ⟨a1, rfl⟩
      | some y =>
        have i : Left m1.hb none { m1 with left := y.2 { y.1 with hash := some (m.hb.hr b) } } :=
          Less.then (m := m1) (by kept) a1
        refine .set_bind <| .get_bind <| .user_bind i ?_
        cases hz : m1.right.removeEntry (m1.hb.hr a) (equivalentKey a) with
        | none => exact .fail i
        | some z =>
          have c1 := (a1.right.removed Away.symm hz).1
          refine .set_bind ?_
          exact RawTable.ends_grow_bind (fun _ s _ => ⟨⟨i.1.left, Own.interrupted c1 _⟩, rfl⟩)
            (by split <;> exact .pure trivial)

theorem swapLeftCheckedU_sound (h : Always m) (a : L) (e : R) (b : L) : Sound (swapLeftCheckedU a e b) m := by
  refine Left.bind (arePairedU_follows a e) (arePairedU_sound h a e) ?_
  rintro _ m' ⟨⟩
  split
  · exact .pure trivial
  · exact swapLeftU_sound h a b

theorem swapRightCheckedU_sound (h : Always m) (a : R) (e : L) (b : R) : Sound (swapRightCheckedU a e b) m := by
  refine Left.bind (arePairedU_follows e a) (arePairedU_sound h e a) ?_
  rintro _ m' ⟨⟩
  split
  · exact .pure trivial
  · exact swapRightU_sound h a b

theorem swapLeftOrInsertU_sound (h : Always m) (a b : L) (r : R) : Sound (swapLeftOrInsertU a b r) m := by
  refine .user_bind ⟨h, rfl⟩ <| .user_bind ⟨h, rfl⟩ <| .get_bind ?_
  split
  · exact swapLeftU_sound h a b
  · refine Left.bind (insertU_follows b r) (insertU_sound h b r) fun o m' e => ?_
    have := insert_always h e
    obtain ⟨x, y⟩ := o
    cases x <;> cases y <;> first | exact .pure trivial | exact .fail this

theorem swapRightOrInsertU_sound (h : Always m) (a b : R) (l : L) : Sound (swapRightOrInsertU a b l) m := by
  refine .user_bind ⟨h, rfl⟩ <| .user_bind ⟨h, rfl⟩ <| .get_bind ?_
  split
  · exact swapRightU_sound h a b
  · refine Left.bind (insertU_follows l b) (insertU_sound h l b) fun o m' e => ?_
    have := insert_always h e
    obtain ⟨x, y⟩ := o
    cases x <;> cases y <;> first | exact .pure trivial | exact .fail this

theorem nextU_ends (h : Always m) (l : MappingPair L) :
    Ends (nextU l) m (fun _ m' => m' = m) (Left m.hb) :=
  .user_bind ⟨h, rfl⟩ <| .user_bind ⟨h, rfl⟩ <| .get_bind <| .pure rfl

theorem collectU_ends (h : Always m) (ls : List (MappingPair L)) : Ends (collectU ls) m (fun _ m' => m' = m) (Left m.hb) := by
  induction ls with
  | nil => exact .pure rfl
  | cons l ls ih =>
    refine (nextU_ends h l).bind ?_
    rintro p _ rfl
    refine ih.bind ?_
    rintro ps _ rfl
    exact .pure rfl

theorem collectPairedU_ends (h : Always m) (ls : List (MappingPair L)) :
    Ends (collectPairedU ls) m (fun _ m' => m' = m) (Left m.hb) := by
  induction ls with
  | nil => exact .pure rfl
  | cons l ls ih =>
    simp only [collectPairedU]
    cases l.hash with
    | none => exact ih
    | some hash =>
      refine .user_bind ⟨h, rfl⟩ <| .get_bind ?_
      split
      · exact .fail ⟨h, rfl⟩
      · exact .pure rfl
      · refine ih.bind ?_
        rintro ps _ rfl
        exact .pure rfl

theorem DrainIter.nextU_fewer {hf : R → UInt64} (it : DrainIter L R) : Fewer hf it.right (DrainIter.nextU it).2.right := by
  simp only [DrainIter.nextU]
  repeat' split
  all_goals first | kept1 | exact .clear

theorem DrainIter.takeU_fewer {hf : R → UInt64} (n : Nat) (it : DrainIter L R) :
    Fewer hf it.right (DrainIter.takeU n it).2.2.right := by
  induction n generalizing it with
  | zero => exact .refl
  | succ n ih =>
    simp only [DrainIter.takeU]
    have h1 := DrainIter.nextU_fewer (hf := hf) it
    cases h2 : DrainIter.nextU it with
    | mk o it' =>
      rw [h2] at h1
      cases o with
      | done => exact h1
      | panic why => exact h1
      | item p => exact h1.trans (ih it')

theorem drainU_ends (h : Always m) (n : Nat) : Ends (drainU n) m (fun _ m' => Left m.hb none m') (Left m.hb) := by
  intro fate _
  simp only [drainU]
  generalize h2 : DrainIter.takeU n m.drain = x
  obtain ⟨ps, w, it⟩ := x
  simp only
  generalize h4 : DrainIter.takeU (it.todo.length + 2) it = y
  obtain ⟨qs, w', it'⟩ := y
  have a := DrainIter.takeU_fewer (hf := m.hb.hr) n m.drain
  have b := DrainIter.takeU_fewer (hf := m.hb.hr) (it.todo.length + 2) it
  rw [h2] at a
  rw [h4] at b
  have key : Less m { m with left := m.left.clear, right := it'.right } := ⟨rfl, .clear, a.trans b⟩
  have key := key.then h
  cases w <;> cases w' <;> first | exact ⟨rfl, key⟩ | exact key | trivial

theorem DrainFilter.nextLU_fewer {σ : Type} {hf : R → UInt64} (f : σ → OptionalPair L R → Option Bool × σ) (kept todo right st) :
    Fewer hf right (DrainFilter.nextLU f kept todo right st).2.2.2.1 ∧
    ((DrainFilter.nextLU f kept todo right st).2.1 ++ (DrainFilter.nextLU f kept todo right st).2.2.1).Sublist (kept ++ todo) ∧
    (todo = [] → (DrainFilter.nextLU f kept todo right st).2.2.2.1 = right ∧
      (DrainFilter.nextLU f kept todo right st).1 = .done) := by
  induction todo generalizing kept st with
  | nil => exact ⟨.refl, .refl _, fun _ => ⟨rfl, rfl⟩⟩
  | cons e rest ih =>
    simp only [DrainFilter.nextLU]
    have s : (kept ++ rest).Sublist (kept ++ e :: rest) := List.Sublist.append (.refl _) (List.sublist_cons_self _ _)
    have s' : (kept ++ [e] ++ rest).Sublist (kept ++ e :: rest) := by simp
    repeat' split
    all_goals first
      | exact ⟨.refl, s', by simp⟩
      | exact ⟨.refl, s, by simp⟩
      | exact ⟨.removeEntry (by assumption), s, by simp⟩
      | exact ⟨(ih _ _).1, by simpa using (ih (kept ++ [e]) _).2.1, by simp⟩

theorem DrainFilter.nextRU_keeps {σ : Type} (f : σ → OptionalPair L R → Option Bool × σ) (kept todo st) :
    ((DrainFilter.nextRU f kept todo st).2.1 ++ (DrainFilter.nextRU f kept todo st).2.2.1).Sublist (kept ++ todo) := by
  induction todo generalizing kept st with
  | nil => exact .refl _
  | cons e rest ih =>
    simp only [DrainFilter.nextRU]
    split
    · simp
    · exact List.Sublist.append (.refl _) (List.sublist_cons_self _ _)
    · simpa using ih (kept ++ [e]) _

theorem DrainFilter.nextU_fewer {σ : Type} {hf : R → UInt64} (f : σ → OptionalPair L R → Option Bool × σ)
    (it : DrainFilter σ L R) (ht : it.Tidy) :
    (DrainFilter.nextU f it).2.Tidy ∧ Fewer hf it.right (DrainFilter.nextU f it).2.right ∧
      ((DrainFilter.nextU f it).2.keptL ++ (DrainFilter.nextU f it).2.todoL).Sublist (it.keptL ++ it.todoL) := by
  obtain ⟨a, b, c⟩ := DrainFilter.nextLU_fewer (hf := hf) f it.keptL it.todoL it.right it.st
  simp only [DrainFilter.nextU]
  obtain ⟨f1, f2⟩ := ht
  generalize h2 : DrainFilter.nextLU f it.keptL it.todoL it.right it.st = x at a b c ⊢
  obtain ⟨o1, kl, tl, rt, s1⟩ := x
  simp only at a b c
  cases o1 with
  | item o1 =>
    refine ⟨?_, a, b⟩
    rcases f2 with ⟨f2, f3, f4⟩ | ⟨_, f2⟩
    · exact ⟨by simp [f3, f4], .inl ⟨f2, f3, f4⟩⟩
    · cases (c f2).2
  | panic w =>
    refine ⟨?_, a, b⟩
    rcases f2 with ⟨f2, f3, f4⟩ | ⟨_, f2⟩
    · exact ⟨by simp [f3, f4], .inl ⟨f2, f3, f4⟩⟩
    · cases (c f2).2
  | done =>
    have hb : (kl ++ []).Sublist (it.keptL ++ it.todoL) := by
      refine List.Sublist.trans ?_ b
      exact List.Sublist.append (.refl _) (List.nil_sublist _)
    cases hr : it.reset with
    | true =>
      simp only [if_true]
      exact ⟨⟨by simpa using DrainFilter.nextRU_keeps f [] rt.entries s1, .inr ⟨rfl, rfl⟩⟩, a, hb⟩
    | false =>
      simp only [Bool.false_eq_true, if_false]
      rcases f2 with ⟨f2, _⟩ | ⟨_, f2⟩
      · rw [hr] at f2; cases f2
      · obtain ⟨rfl, _⟩ := c f2
        exact ⟨⟨(DrainFilter.nextRU_keeps f it.keptR it.todoR s1).trans f1, .inr ⟨rfl, rfl⟩⟩, a, hb⟩

theorem DrainFilter.takeU_fewer {σ : Type} {hf : R → UInt64} (f : σ → OptionalPair L R → Option Bool × σ) (n : Nat)
    (it : DrainFilter σ L R) (ht : it.Tidy) :
    (DrainFilter.takeU f n it).2.2.Tidy ∧ Fewer hf it.right (DrainFilter.takeU f n it).2.2.right ∧
      ((DrainFilter.takeU f n it).2.2.keptL ++ (DrainFilter.takeU f n it).2.2.todoL).Sublist (it.keptL ++ it.todoL) := by
  induction n generalizing it with
  | zero => exact ⟨ht, .refl, .refl _⟩
  | succ n ih =>
    simp only [DrainFilter.takeU]
    have h1 := DrainFilter.nextU_fewer (hf := hf) f it ht
    cases h2 : DrainFilter.nextU f it with
    | mk o it' =>
      rw [h2] at h1
      cases o with
      | done => exact h1
      | panic why => exact h1
      | item p =>
        have h3 := ih it' h1.1
        exact ⟨h3.1, h1.2.1.trans h3.2.1, h3.2.2.trans h1.2.2⟩

/-- `drain_filter` ends with a map as always, however its closure panics -/
theorem drainFilterU_ends {σ : Type} (h : Always m) (f : σ → OptionalPair L R → Option Bool × σ) (st : σ) (n : Nat) :
    Ends (drainFilterU f st n) m (fun _ m' => Left m.hb none m') (Left m.hb) := by
  intro fate _
  simp only [drainFilterU]
  have a := DrainFilter.takeU_fewer (hf := m.hb.hr) f n (DrainFilter.mk [] m.left.entries m.right true [] [] st)
    ⟨by simp, .inl ⟨rfl, rfl, rfl⟩⟩
  generalize h2 : DrainFilter.takeU f n (DrainFilter.mk [] m.left.entries m.right true [] [] st) = x at a ⊢
  obtain ⟨ps, w, it⟩ := x
  simp only at a ⊢
  have b := DrainFilter.takeU_fewer (hf := m.hb.hr) f (it.todoL.length + it.right.len + it.todoR.length + 1) it a.1
  generalize h4 : DrainFilter.takeU f (it.todoL.length + it.right.len + it.todoR.length + 1) it = y at b ⊢
  obtain ⟨qs, w', it'⟩ := y
  simp only at b ⊢
  have hr : it'.rightEntries.Sublist it'.right.entries := by
    simp only [DrainFilter.rightEntries]
    split
    · exact .refl _
    · exact b.1.1
  have key : Less m { m with
      left := RawImpl.touch (.erase (stays m.left (it'.keptL ++ it'.todoL))) { m.left with entries := it'.keptL ++ it'.todoL },
      right := RawImpl.touch (.erase (stays it'.right it'.rightEntries)) { it'.right with entries := it'.rightEntries } } :=
    ⟨rfl, (Fewer.sublist (t' := { m.left with entries := it'.keptL ++ it'.todoL })
      (b.2.2.trans (by simpa using a.2.2))).trans (.perm (LawfulRaw.touch_perm _ _)),
      (a.2.1.trans b.2.1).trans ((Fewer.sublist (t' := { it'.right with entries := it'.rightEntries }) hr).trans
      (.perm (LawfulRaw.touch_perm _ _)))⟩
  have key := key.then h
  cases w <;> cases w' <;> first | exact ⟨rfl, key⟩ | exact key | trivial

theorem retainScanU_ends {σ : Type} (h : Always m) (f : σ → OptionalPair L R → Option Bool × σ) (ls : List (MappingPair L)) (st : σ) :
    Ends (retainScanU f ls st) m (fun _ m' => m' = m) (Left m.hb) := by
  have i : Left m.hb none m := ⟨h, rfl⟩
  induction ls generalizing st with
  | nil => exact .pure rfl
  | cons l ls ih =>
    refine (nextU_ends h l).bind ?_
    rintro op _ rfl
    cases h2 : f st op with
    | mk o st' =>
      cases o with
      | none => exact fun _ _ => i
      | some o =>
        cases o
        · exact ih st'
        · cases op.getRight.isSome
          · refine .user_bind i <| .user_bind i <| .user_bind i <| .get_bind ?_
            split
            · exact .fail i
            · refine (ih st').bind ?_
              rintro ps _ rfl
              exact .pure rfl
          · refine .user_bind i <| .user_bind i <| .user_bind i <| .user_bind i <| .get_bind ?_
            split
            · exact .fail i
            · refine (ih st').bind ?_
              rintro ps _ rfl
              exact .pure rfl

theorem retainDropU_ends (pairs : Bool) (h : Always m) (ks : List (Option UInt64 × Option UInt64 × Nat)) :
    Ends (retainDropU pairs ks) m (fun _ m' => Left m.hb none m') (Left m.hb) := by
  induction ks generalizing m with
  | nil => exact .pure ⟨h, rfl⟩
  | cons k ks ih =>
    have step : ∀ m', Less m m' → Ends (retainDropU pairs ks) m' (fun _ m' => Left m.hb none m') (Left m.hb) := by
      intro m' hm
      have := ih (hm.always h)
      rw [hm.hb] at this
      exact this
    obtain ⟨a, b, i⟩ := k
    cases a <;> cases b
    · exact .fail ⟨h, rfl⟩
    · refine .get_bind <| .set_bind <| step _ ?_
      split <;> kept
    · refine .get_bind <| .set_bind <| step _ ?_
      split <;> kept
    · cases pairs
      · exact .fail ⟨h, rfl⟩
      · exact .get_bind <| .set_bind <| step _ (removeViaHashesAndId_less ..)

theorem retainU_ends {σ : Type} (h : Always m) (f : σ → OptionalPair L R → Option Bool × σ) (st : σ) :
    Ends (retainU f st) m (fun _ m' => Left m.hb none m') (Left m.hb) := by
  refine .get_bind <| (retainScanU_ends h f _ st).bind ?_
  rintro ks _ rfl
  exact retainDropU_ends true h ks

theorem retainPairedScanU_ends {σ : Type} (h : Always m) (f : σ → L → R → Option Bool × σ) (ls : List (MappingPair L)) (st : σ) :
    Ends (retainPairedScanU f ls st) m (fun _ m' => m' = m) (Left m.hb) := by
  have i : Left m.hb none m := ⟨h, rfl⟩
  induction ls generalizing st with
  | nil => exact .pure rfl
  | cons l ls ih =>
    simp only [retainPairedScanU]
    cases l.hash with
    | none => exact ih st
    | some hash =>
      refine .user_bind i <| .get_bind ?_
      split
      · exact .fail i
      · exact .pure rfl
      · rename_i a b _
        cases h2 : f st a b with
        | mk o st' =>
          cases o with
          | none => exact fun _ _ => i
          | some o =>
            cases o
            · exact ih st'
            · refine .user_bind i <| .user_bind i <| .user_bind i <| .user_bind i ?_
              split
              · exact .fail i
              · refine (ih st').bind ?_
                rintro ps _ rfl
                exact .pure rfl

theorem retainPairedU_ends {σ : Type} (h : Always m) (f : σ → L → R → Option Bool × σ) (st : σ) :
    Ends (retainPairedU f st) m (fun _ m' => Left m.hb none m') (Left m.hb) := by
  refine .get_bind <| (retainPairedScanU_ends h f _ st).bind ?_
  rintro ks _ rfl
  exact .get_bind <| fun _ _ => ⟨rfl, (retainPairedDrop_less _).then h⟩

theorem retainUnpairedScanU_ends {σ : Type} (h : Always m) (f : σ → OptionalPair L R → Option Bool × σ)
    (os : List (OptionalPair L R)) (st : σ) : Ends (retainUnpairedScanU f os st) m (fun _ m' => m' = m) (Left m.hb) := by
  have i : Left m.hb none m := ⟨h, rfl⟩
  induction os generalizing st with
  | nil => exact .pure rfl
  | cons op os ih =>
    simp only [retainUnpairedScanU]
    cases h2 : f st op with
    | mk o st' =>
      cases o with
      | none => exact fun _ _ => i
      | some o =>
        cases o
        · exact ih st'
        · cases op with
          | neither => exact .fail i
          | someBoth => exact .fail i
          | someLeft l =>
            refine .user_bind i <| .user_bind i <| .get_bind ?_
            split
            · exact .fail i
            · refine (ih st').bind ?_
              rintro ps _ rfl
              exact .pure rfl
          | someRight r =>
            refine .user_bind i <| .user_bind i <| .get_bind ?_
            split
            · exact .fail i
            · refine (ih st').bind ?_
              rintro ps _ rfl
              exact .pure rfl

theorem retainUnpairedU_ends {σ : Type} (h : Always m) (f : σ → OptionalPair L R → Option Bool × σ) (st : σ) :
    Ends (retainUnpairedU f st) m (fun _ m' => Left m.hb none m') (Left m.hb) := by
  refine .get_bind <| (retainUnpairedScanU_ends h f _ st).bind ?_
  rintro ks _ rfl
  exact retainDropU_ends false h ks

theorem user_sound (h : Always m) : Sound Unw.user m :=
  (Ends.user ⟨h, rfl⟩).mono (fun _ _ _ => trivial) fun _ _ h => h

theorem extendPairsU_sound (h : Always m) (xs : List (L × R)) : Sound (extendPairsU xs) m := by
  induction xs generalizing m with
  | nil => exact user_sound h
  | cons x xs ih =>
    refine .user_bind ⟨h, rfl⟩ <| Left.bind (insertU_follows x.1 x.2) (insertU_sound h x.1 x.2) fun o m1 e => ?_
    obtain ⟨a, b⟩ := insert_always h e
    exact Sound.cast (ih a) b

theorem extendU_sound (h : Always m) (xs : List (OptionalPair L R)) : Sound (extendU xs) m := by
  induction xs generalizing m with
  | nil => exact user_sound h
  | cons x xs ih =>
    cases x with
    | neither => exact .user_bind ⟨h, rfl⟩ <| ih h
    | someLeft l =>
      refine .user_bind ⟨h, rfl⟩ <| Left.bind (insertLeftU_follows l) (insertLeftU_sound h l) fun o m1 e => ?_
      obtain ⟨a, b⟩ := insertLeft_always h e
      exact Sound.cast (ih a) b
    | someRight r =>
      refine .user_bind ⟨h, rfl⟩ <| Left.bind (insertRightU_follows r) (insertRightU_sound h r) fun o m1 e => ?_
      obtain ⟨a, b⟩ := insertRight_always h e
      exact Sound.cast (ih a) b
    | someBoth l r =>
      refine .user_bind ⟨h, rfl⟩ <| Left.bind (insertU_follows l r) (insertU_sound h l r) fun o m1 e => ?_
      obtain ⟨a, b⟩ := insert_always h e
      exact Sound.cast (ih a) b

theorem interruptedL (h : Always m) (s) : Left m.hb none { m with left := m.left.interrupted s (·.hashWith m.hb.hl) } :=
  ⟨⟨h.left.interrupted s, h.right⟩, rfl⟩

theorem interruptedR (h : Always m) (s) : Left m.hb none { m with right := m.right.interrupted s (·.hashWith m.hb.hr) } :=
  ⟨⟨h.left, h.right.interrupted s⟩, rfl⟩

/-- a call that panics leaves a map as always -/
theorem execU_sound (h : Always m) (op : Op L R) : Sound (execU op) m := by
  have i : Left m.hb none m := ⟨h, rfl⟩
  cases op
  case insert l r => exact .map (insertU_sound h l r)
  case insertLeft l => exact .map (insertLeftU_sound h l)
  case insertRight r => exact .map (insertRightU_sound h r)
  case pair l r => exact .map (pairU_sound h l r)
  case unpair l r => exact .map (unpairU_sound h l r)
  case pairForced l r => exact .map (pairForcedU_sound h l r)
  case pairForcedRemove l r => exact .map (pairForcedRemoveU_sound h l r)
  case remove l r => exact .map (removeU_sound h l r)
  case removeViaLeft l => exact .map (removeViaLeftU_sound h l)
  case removeViaRight r => exact .map (removeViaRightU_sound h r)
  case removeLeft l => exact .map (removeLeftU_sound h l)
  case removeRight r => exact .map (removeRightU_sound h r)
  case swapLeft a b => exact .map (swapLeftU_sound h a b)
  case swapLeftChecked a e b => exact .map (swapLeftCheckedU_sound h a e b)
  case swapLeftOrInsert a b r => exact .map (swapLeftOrInsertU_sound h a b r)
  case swapRight a b => exact .map (swapRightU_sound h a b)
  case swapRightChecked a e b => exact .map (swapRightCheckedU_sound h a e b)
  case swapRightOrInsert a b l => exact .map (swapRightOrInsertU_sound h a b l)
  case getLeft => exact .user_bind i <| .user_bind i <| .get_bind <| .pure trivial
  case getRight => exact .user_bind i <| .user_bind i <| .get_bind <| .pure trivial
  case containsLeft => exact .user_bind i <| .user_bind i <| .get_bind <| .pure trivial
  case containsRight => exact .user_bind i <| .user_bind i <| .get_bind <| .pure trivial
  case isLeftPaired => exact .user_bind i <| .user_bind i <| .get_bind <| .pure trivial
  case isRightPaired => exact .user_bind i <| .user_bind i <| .get_bind <| .pure trivial
  case arePaired l r => exact .map (arePairedU_sound h l r)
  case lenLeft => exact .get_bind <| .pure trivial
  case lenRight => exact .get_bind <| .pure trivial
  case isEmpty => exact .get_bind <| .pure trivial
  case clear => exact .get_bind <| .set_bind <| .pure trivial
  case iter => exact .get_bind <| Sound.map <| (collectU_ends h _).mono (fun _ _ _ => trivial) fun _ _ h => h
  case iterPaired => exact .get_bind <| Sound.map <| (collectPairedU_ends h _).mono (fun _ _ _ => trivial) fun _ _ h => h
  case iterUnpaired => exact .get_bind <| .pure trivial
  case iterLeft => exact .get_bind <| .pure trivial
  case iterRight => exact .get_bind <| .pure trivial
  case drain n => exact .map <| (drainU_ends h n).mono (fun _ _ _ => trivial) fun _ _ h => h
  case drainFilter σ f s n => exact .map <| (drainFilterU_ends h (sure f) s n).mono (fun _ _ _ => trivial) fun _ _ h => h
  case retain σ f s => exact (retainU_ends h (sure f) s).bind fun _ _ _ => .pure trivial
  case retainPaired σ f s => exact (retainPairedU_ends h (sure₂ f) s).bind fun _ _ _ => .pure trivial
  case retainUnpaired σ f s => exact (retainUnpairedU_ends h (sure f) s).bind fun _ _ _ => .pure trivial
  case extendPairs xs => exact (extendPairsU_sound h xs).bind fun _ _ _ => .pure trivial
  case extend xs => exact (extendU_sound h xs).bind fun _ _ _ => .pure trivial
  case reserveLeft n =>
    exact Ends.bind (.get_bind <| RawTable.ends_grow (fun _ s _ => interruptedL h _)) fun _ _ _ => .pure trivial
  case reserveRight n =>
    exact Ends.bind (.get_bind <| RawTable.ends_grow (fun _ s _ => interruptedR h _)) fun _ _ _ => .pure trivial
  case tryReserveLeft n a =>
    cases a
    · exact .pure trivial
    · exact Ends.bind (.get_bind <| RawTable.ends_grow (fun _ s _ => interruptedL h _)) fun _ _ _ => .pure trivial
  case tryReserveRight n a =>
    cases a
    · exact .pure trivial
    · exact Ends.bind (.get_bind <| RawTable.ends_grow (fun _ s _ => interruptedR h _)) fun _ _ _ => .pure trivial
  case shrinkToLeft n =>
    exact Ends.bind (.get_bind <| RawTable.ends_grow (fun _ s _ => interruptedL h _)) fun _ _ _ => .pure trivial
  case shrinkToRight n =>
    exact Ends.bind (.get_bind <| RawTable.ends_grow (fun _ s _ => interruptedR h _)) fun _ _ _ => .pure trivial
  case shrinkToFit =>
    refine Ends.bind (.get_bind <| RawTable.ends_grow_bind (fun _ s _ => interruptedL h _) <| .get_bind <|
      RawTable.ends_grow (fun _ s _ => ?_)) fun _ _ _ => .pure trivial
    have k : Less m { m with left := m.left.shrinkTo m.lenLeft (·.hashWith m.hb.hl) } := ⟨rfl, .shrinkTo _ h.left, .refl⟩
    exact interruptedR (k.always h) _
  case clone => exact .user_bind i <| .get_bind <| .set_bind <| .pure trivial

/-- the clones made by a history use lawful `Clone` implementations -/
def LawfulCalls (calls : List (Fate × Call L R)) : Prop :=
  ∀ f cl cr, (f, Call.plain (.clone cl cr)) ∈ calls → (∀ x, (cl x == x) = true) ∧ (∀ x, (cr x == x) = true)

theorem callU_ends (h : Always m) (f : Fate) (call : Call L R) (hc : LawfulCalls [(f, call)]) :
    Ends (callU call) m (fun _ m' => Left m.hb none m') (Left m.hb) := by
  cases call with
  | plain op =>
    refine ((execU_follows op).ends (execU_sound h op)).mono ?_ fun _ _ h => h
    rintro a m' ⟨e, -⟩
    refine exec_always h (fun cl cr hm => ?_) e
    cases List.mem_singleton.1 hm
    exact hc f cl cr (by simp)
  | drainFilter σ g s n => exact (drainFilterU_ends h g s n).bind fun _ _ e => .pure e
  | retain σ g s => exact (retainU_ends h g s).bind fun _ _ e => .pure e
  | retainPaired σ g s => exact (retainPairedU_ends h g s).bind fun _ _ e => .pure e
  | retainUnpaired σ g s => exact (retainUnpairedU_ends h g s).bind fun _ _ e => .pure e

theorem runU_always {calls : List (Fate × Call L R)} (h : Always m) (hc : LawfulCalls calls) (e : m.runU calls = some m') :
    Always m' ∧ m'.hb = m.hb := by
  induction calls generalizing m with
  | nil => cases e; exact ⟨h, rfl⟩
  | cons c calls ih =>
    obtain ⟨f, call⟩ := c
    simp only [runU] at e
    have h1 := callU_ends h f call (fun f cl cr hm => hc f cl cr (by
      rcases List.mem_cons.1 hm with hm | hm
      · rw [← hm]; exact List.mem_cons_self
      · cases hm)) f trivial
    cases h2 : callU call f m with
    | done a f' m1 =>
      rw [h2] at e h1
      obtain ⟨a, b⟩ := ih h1.2.1 (fun f cl cr hm => hc f cl cr (List.mem_cons_of_mem _ hm)) e
      exact ⟨a, b.trans h1.2.2⟩
    | panic w m1 =>
      rw [h2] at e h1
      obtain ⟨a, b⟩ := ih h1.1 (fun f cl cr hm => hc f cl cr (List.mem_cons_of_mem _ hm)) e
      exact ⟨a, b.trans h1.2⟩
    | abort => rw [h2] at e; cases e

end Verif.PartialMap
