import Verif.CycleMap.UnwindFollows
/-! What holds of every `CycleMap` also after calls that ended with a panic. -/
set_option linter.unusedSectionVars false
set_option linter.unusedSimpArgs false
namespace Verif.CycleMap
open CycleSpec OptionalPair Unw

variable [RawImpl] [LawfulRaw] {L R : Type} [BEq L] [BEq R] [EquivBEq L] [EquivBEq R]
variable {m m' : CycleMap L R} {hb : BuildHasher L R}

/-- the map a panic leaves behind -/
def Left (hb : BuildHasher L R) (_ : Option Panic) (m : CycleMap L R) : Prop := Always m ∧ m.hb = hb

/-- a call that panics leaves such a map -/
abbrev Sound {α : Type} (x : Unw (CycleMap L R) α) (m : CycleMap L R) : Prop := Ends x m (fun _ _ => True) (Left m.hb)

theorem Left.bind {α β : Type} {x : Unw (CycleMap L R) α} {g : α → Unw (CycleMap L R) β} {r : Res (α × CycleMap L R)}
    (hx : Follows x m r) (h : Sound x m)
    (h' : ∀ a m', r = .ok (a, m') → Ends (g a) m' (fun _ _ => True) (Left m.hb)) : Sound (x >>= g) m :=
  (hx.ends h).bind fun a m' e => h' a m' e.1

theorem Sound.cast {α : Type} {x : Unw (CycleMap L R) α} (h : Sound x m') (e : m'.hb = m.hb) :
    Ends x m' (fun _ _ => True) (Left m.hb) := e ▸ h

theorem Sound.map {α β : Type} {x : Unw (CycleMap L R) α} {g : α → β} (h : Sound x m) : Sound (do return g (← x)) m :=
  Ends.bind h fun _ _ _ => Ends.pure trivial

theorem arePairedU_sound (h : Always m) (l : L) (r : R) : Sound (arePairedU l r) m := by
  have i : Left m.hb none m := ⟨h, rfl⟩
  exact .user_bind i <| .user_bind i <| .user_bind i <| .user_bind i <| .get_bind <| .pure trivial

theorem removeViaLeftU_sound (h : Always m) (l : L) : Sound (removeViaLeftU l) m := by
  have i : Left m.hb none m := ⟨h, rfl⟩
  refine .user_bind i <| .user_bind i <| .get_bind ?_
  simp only
  cases h1 : m.left.removeEntry (m.hb.hl l) (equivalentKey l) with
  | none => exact .pure trivial
  | some x =>
    refine .set_bind ?_
    cases h2 : m.right.removeEntry x.1.hash (hashAndId (m.hb.hl l) x.1.id) with
    | none => exact .fail ⟨⟨(h.left.removed AwayL.symm h1).1, h.right⟩, rfl⟩
    | some y => exact .set_bind (.pure trivial)

theorem removeViaRightU_sound (h : Always m) (r : R) : Sound (removeViaRightU r) m := by
  have i : Left m.hb none m := ⟨h, rfl⟩
  refine .user_bind i <| .user_bind i <| .get_bind ?_
  simp only
  cases h1 : m.right.removeEntry (m.hb.hr r) (equivalentKey r) with
  | none => exact .pure trivial
  | some x =>
    refine .set_bind ?_
    cases h2 : m.left.removeEntry x.1.hash (hashAndId (m.hb.hr r) x.1.id) with
    | none => exact .fail ⟨⟨h.left, (h.right.removed AwayR.symm h1).1⟩, rfl⟩
    | some y => exact .set_bind (.pure trivial)

theorem removeViaHashesAndIdU_sound (h : Always m) (a b : UInt64) (i : Nat) : Sound (removeViaHashesAndIdU a b i) m := by
  refine .get_bind ?_
  cases h1 : m.left.removeEntry a (hashAndId b i) with
  | none => exact .pure trivial
  | some x =>
    refine .set_bind ?_
    cases h2 : m.right.removeEntry b (hashAndId a i) with
    | none => exact .fail ⟨⟨(h.left.removed AwayL.symm h1).1, h.right⟩, rfl⟩
    | some y => exact .set_bind (.pure trivial)

theorem removeU_sound (h : Always m) (l : L) (r : R) : Sound (removeU l r) m := by
  refine Left.bind (arePairedU_follows l r) (arePairedU_sound h l r) ?_
  rintro a m' ⟨⟩
  split
  · exact removeViaLeftU_sound h l
  · exact .pure trivial

theorem insertU_sound (h : Always m) (l : L) (r : R) : Sound (insertU l r) m := by
  refine Left.bind (removeViaLeftU_follows l) (removeViaLeftU_sound h l) fun o1 m1 e1 => ?_
  obtain ⟨a1, k1⟩ := removeViaLeft_less h e1
  have b1 := a1.always h
  refine Sound.cast ?_ a1.hb
  refine Left.bind (removeViaRightU_follows r) (removeViaRightU_sound b1 r) fun o2 m2 e2 => ?_
  obtain ⟨a2, k2⟩ := removeViaRight_less b1 e2
  have b2 := a2.always b1
  refine Sound.cast ?_ a2.hb
  have i : Left m2.hb none m2 := ⟨b2, rfl⟩
  rw [← a1.hb] at k1
  have k3 := a2.left _ k1
  rw [← a1.counter, ← a2.counter, ← a2.hb] at k3
  have k4 := addL (k3.mono fun x hx => ⟨Nat.lt_succ_of_lt hx.1, Nat.ne_of_lt hx.1, hx.2⟩) (Nat.lt_succ_self m2.counter)
  refine .user_bind i <| .user_bind i <| .get_bind <| RawTable.ends_grow_bind (fun _ s _ => ?_) <| .get_bind <|
    RawTable.ends_grow_bind (fun _ s _ => ?_) <| .pure trivial
  · exact ⟨⟨RawTable.Keyed.interrupted AwayL.symm (b2.left.mono fun x hx => Nat.lt_succ_of_lt hx) _, b2.right⟩, rfl⟩
  · exact ⟨⟨k4 _, RawTable.Keyed.interrupted AwayR.symm b2.right _⟩, rfl⟩

theorem swapLeftEqCheckU_sound (h : Always m) (a b : L) (n : UInt64) : Sound (swapLeftEqCheckU a b n) m := by
  have i : Left m.hb none m := ⟨h, rfl⟩
  refine .user_bind i <| .get_bind ?_
  cases m.left.get n (equivalentKey b) with
  | none => exact .pure trivial
  | some x =>
    refine .user_bind i ?_
    split
    · exact removeViaLeftU_sound h b
    · exact .pure trivial

theorem swapRightEqCheckU_sound (h : Always m) (a b : R) (n : UInt64) : Sound (swapRightEqCheckU a b n) m := by
  have i : Left m.hb none m := ⟨h, rfl⟩
  refine .user_bind i <| .get_bind ?_
  cases m.right.get n (equivalentKey b) with
  | none => exact .pure trivial
  | some x =>
    refine .user_bind i ?_
    split
    · exact removeViaRightU_sound h b
    · exact .pure trivial

theorem swapLeftU_sound (h : Always m) (a b : L) : Sound (swapLeftU a b) m := by
  refine .user_bind ⟨h, rfl⟩ <| .get_bind ?_
  refine Left.bind (swapLeftEqCheckU_follows a b _) (swapLeftEqCheckU_sound h a b _) fun o1 m1 e1 => ?_
  obtain ⟨l1, k1⟩ := swapLeftEqCheck_less h e1
  have a1 := l1.always h
  refine Sound.cast ?_ l1.hb
  refine .user_bind ⟨a1, rfl⟩ <| .user_bind ⟨a1, rfl⟩ <| .get_bind ?_
  simp only
  cases hx : m1.left.get (m1.hb.hl a) (equivalentKey a) with
  | none => exact .pure trivial
  | some x =>
    simp only
    cases hy : m1.right.getMut x.hash (hashAndId (m1.hb.hl a) x.id) with
    | none => exact .fail ⟨a1, rfl⟩
    | some y =>
      have i : Left m1.hb none { m1 with right := y.2 { y.1 with hash := m.hb.hl b } } :=
        ⟨⟨a1.left, KeyedR.write a1.right hy⟩, rfl⟩
      refine .set_bind <| .get_bind <| .user_bind i ?_
      simp only
      cases hz : m1.left.removeEntry (m1.hb.hl a) (equivalentKey a) with
      | none => exact .fail i
      | some z =>
        obtain ⟨c1, c2, c3, c4⟩ := a1.left.removed AwayL.symm hz
        refine .set_bind <| RawTable.ends_grow_bind (fun _ s _ => ?_) <| .pure trivial
        exact ⟨⟨RawTable.Keyed.interrupted AwayL.symm c1 _, i.1.right⟩, rfl⟩

theorem swapRightU_sound (h : Always m) (a b : R) : Sound (swapRightU a b) m := by
  refine .user_bind ⟨h, rfl⟩ <| .get_bind ?_
  refine Left.bind (swapRightEqCheckU_follows a b _) (swapRightEqCheckU_sound h a b _) fun o1 m1 e1 => ?_
  obtain ⟨l1, k1⟩ := swapRightEqCheck_less h e1
  have a1 := l1.always h
  refine Sound.cast ?_ l1.hb
  refine .user_bind ⟨a1, rfl⟩ <| .user_bind ⟨a1, rfl⟩ <| .get_bind ?_
  simp only
  cases hx : m1.right.get (m1.hb.hr a) (equivalentKey a) with
  | none => exact .pure trivial
  | some x =>
    simp only
    cases hy : m1.left.getMut x.hash (hashAndId (m1.hb.hr a) x.id) with
    | none => exact .fail ⟨a1, rfl⟩
    | some y =>
      have i : Left m1.hb none { m1 with left := y.2 { y.1 with hash := m1.hb.hr b } } :=
        ⟨⟨KeyedL.write a1.left hy, a1.right⟩, rfl⟩
      refine .user_bind ⟨a1, rfl⟩ <| .set_bind <| .get_bind <| .user_bind i ?_
      simp only
      cases hz : m1.right.removeEntry (m1.hb.hr a) (equivalentKey a) with
      | none => exact .fail i
      | some z =>
        obtain ⟨c1, c2, c3, c4⟩ := a1.right.removed AwayR.symm hz
        refine .set_bind <| RawTable.ends_grow_bind (fun _ s _ => ?_) <| .pure trivial
        exact ⟨⟨i.1.left, RawTable.Keyed.interrupted AwayR.symm c1 _⟩, rfl⟩

theorem swapLeftCheckedU_sound (h : Always m) (a : L) (e : R) (b : L) : Sound (swapLeftCheckedU a e b) m := by
  refine Left.bind (arePairedU_follows a e) (arePairedU_sound h a e) ?_
  rintro _ m' ⟨⟩
  split
  · exact .pure trivial
  · exact swapLeftU_sound h a b

theorem swapRightCheckedU_sound (h : Always m) (a : R) (e : L) (b : R) : Sound (swapRightCheckedU a e b) m := by
  refine Left.bind (arePairedU_follows e a) (arePairedU_sound h e a) ?_
  rintro _ m' ⟨⟩
  split
  · exact .pure trivial
  · exact swapRightU_sound h a b

theorem swapLeftOrInsertU_sound (h : Always m) (a b : L) (r : R) : Sound (swapLeftOrInsertU a b r) m := by
  refine .user_bind ⟨h, rfl⟩ <| .user_bind ⟨h, rfl⟩ <| .get_bind ?_
  split
  · exact swapLeftU_sound h a b
  · exact Sound.map (insertU_sound h b r)

theorem swapRightOrInsertU_sound (h : Always m) (a b : R) (l : L) : Sound (swapRightOrInsertU a b l) m := by
  refine .user_bind ⟨h, rfl⟩ <| .user_bind ⟨h, rfl⟩ <| .get_bind ?_
  split
  · exact swapRightU_sound h a b
  · refine Left.bind (insertU_follows l b) (insertU_sound h l b) fun o m' e => ?_
    have := insert_always h e
    cases o
    · exact .pure trivial
    · exact .fail this
    · exact .pure trivial
    · exact .fail this

theorem nextU_ends (h : Always m) (l : MappingPair L) : Ends (nextU l) m (fun _ m' => m' = m) (Left m.hb) := by
  refine .user_bind ⟨h, rfl⟩ <| .user_bind ⟨h, rfl⟩ <| .get_bind ?_
  cases m.getRight l.value
  · exact .fail ⟨h, rfl⟩
  · exact .pure rfl

theorem collectU_ends (h : Always m) (ls : List (MappingPair L)) : Ends (collectU ls) m (fun _ m' => m' = m) (Left m.hb) := by
  induction ls with
  | nil => exact .pure rfl
  | cons l ls ih =>
    refine (nextU_ends h l).bind ?_
    rintro p _ rfl
    refine ih.bind ?_
    rintro ps _ rfl
    exact .pure rfl

theorem drainLoopU_sound (h : Always m) (n : Nat) (ls : List (MappingPair L)) : Sound (drainLoopU n ls) m := by
  induction n generalizing ls m with
  | zero => exact .pure trivial
  | succ n ih =>
    cases ls with
    | nil => exact .pure trivial
    | cons l rest =>
      refine .get_bind ?_
      cases h1 : m.right.removeEntry l.hash (justId l.id) with
      | none => exact .fail ⟨h, rfl⟩
      | some x =>
        refine .set_bind ?_
        exact Sound.map (ih (m := { m with right := x.2 }) ⟨h.left, (h.right.removed AwayR.symm h1).1⟩ rest)

theorem drainU_sound (h : Always m) (n : Nat) : Sound (drainU n) m :=
  .get_bind <| .set_bind <| drainLoopU_sound (m := { m with counter := 0, left := m.left.clear })
    ⟨.of_nil (RawTable.clear_entries _), h.right⟩ n m.left.toList

theorem DrainFilter.nextU_keyed {σ : Type} (f : σ → L → R → Option Bool × σ) (kept todo right st) {Q : MappingPair R → Prop}
    (h : KeyedR hb Q right) :
    KeyedR hb Q (DrainFilter.nextU f kept todo right st).2.right ∧
    ((DrainFilter.nextU f kept todo right st).2.kept ++ (DrainFilter.nextU f kept todo right st).2.todo).Sublist (kept ++ todo) := by
  induction todo generalizing kept st with
  | nil => exact ⟨h, .refl _⟩
  | cons e rest ih =>
    simp only [DrainFilter.nextU]
    cases h1 : right.removeEntry e.2.hash (justId e.2.id) with
    | none => exact ⟨h, by simp⟩
    | some x =>
      simp only
      cases h2 : f st e.2.value x.1.value with
      | mk b st' =>
        cases b with
        | none => exact ⟨h, by simp⟩
        | some b =>
          cases b
          · have := ih (kept ++ [e]) st'
            exact ⟨this.1, by simpa using this.2⟩
          · exact ⟨(h.removed AwayR.symm h1).1, List.Sublist.append (.refl _) (List.sublist_cons_self _ _)⟩

theorem DrainFilter.takeU_keyed {σ : Type} (f : σ → L → R → Option Bool × σ) (n : Nat) (it : DrainFilter σ L R)
    {Q : MappingPair R → Prop} (h : KeyedR hb Q it.right) :
    KeyedR hb Q (DrainFilter.takeU f n it).2.2.right ∧
    ((DrainFilter.takeU f n it).2.2.kept ++ (DrainFilter.takeU f n it).2.2.todo).Sublist (it.kept ++ it.todo) := by
  induction n generalizing it with
  | zero => exact ⟨h, .refl _⟩
  | succ n ih =>
    simp only [DrainFilter.takeU]
    have h1 := DrainFilter.nextU_keyed f it.kept it.todo it.right it.st h
    cases h2 : DrainFilter.nextU f it.kept it.todo it.right it.st with
    | mk o it' =>
      rw [h2] at h1
      cases o with
      | done => exact h1
      | panic why => exact h1
      | item p =>
        have h3 := ih it' h1.1
        exact ⟨h3.1, h3.2.trans h1.2⟩

/-- `drain_filter` ends with a map as always, however its closure panics -/
theorem drainFilterU_ends {σ : Type} (h : Always m) (f : σ → L → R → Option Bool × σ) (st : σ) (n : Nat) :
    Ends (drainFilterU f st n) m (fun _ m' => Left m.hb none m') (Left m.hb) := by
  intro fate _
  have h1 := DrainFilter.takeU_keyed f n { kept := [], todo := m.left.entries, right := m.right, st := st } h.right
  cases h2 : DrainFilter.takeU f n { kept := [], todo := m.left.entries, right := m.right, st := st } with
  | mk ps x =>
    obtain ⟨w, it⟩ := x
    rw [h2] at h1
    have h3 := DrainFilter.takeU_keyed f (it.todo.length + 1) it h1.1
    cases h4 : DrainFilter.takeU f (it.todo.length + 1) it with
    | mk qs y =>
      obtain ⟨w', it'⟩ := y
      rw [h4] at h3
      simp only at h1 h3
      have hs : (it'.kept ++ it'.todo).Sublist m.left.entries := h3.2.trans (by simpa using h1.2)
      have key : Left m.hb none { m with
          left := RawImpl.touch (.erase (stays m.left (it'.kept ++ it'.todo))) { m.left with entries := it'.kept ++ it'.todo },
          right := it'.right } := by
        refine ⟨⟨RawTable.Keyed.of_perm (t := ⟨it'.kept ++ it'.todo, 0⟩) AwayL.symm ?_ (LawfulRaw.touch_perm _ _), h3.1⟩, rfl⟩
        exact ⟨fun e he => h.left.hash e (hs.subset he), h.left.apart.sublist hs, fun e he => h.left.all e (hs.subset he)⟩
      simp only [drainFilterU, h2, h4]
      cases w <;> cases w' <;> first | exact ⟨rfl, key⟩ | exact key | trivial

theorem retainScanU_ends {σ : Type} (h : Always m) (f : σ → L → R → Option Bool × σ) (ls : List (MappingPair L)) (st : σ) :
    Ends (retainScanU f ls st) m (fun _ m' => m' = m) (Left m.hb) := by
  induction ls generalizing st with
  | nil => exact .pure rfl
  | cons l ls ih =>
    refine (nextU_ends h l).bind ?_
    rintro ⟨a, b⟩ _ rfl
    simp only
    cases h2 : f st a b with
    | mk o st' =>
      cases o with
      | none => exact fun _ _ => ⟨h, rfl⟩
      | some o =>
        cases o
        · refine .user_bind ⟨h, rfl⟩ <| .user_bind ⟨h, rfl⟩ <| .user_bind ⟨h, rfl⟩ <| .user_bind ⟨h, rfl⟩ <| .get_bind ?_
          split
          · exact .fail ⟨h, rfl⟩
          · refine (ih st').bind ?_
            rintro ps _ rfl
            exact .pure rfl
        · exact ih st'

theorem retainDropU_ends (h : Always m) (ks : List (UInt64 × UInt64 × Nat)) :
    Ends (retainDropU ks) m (fun _ m' => Left m.hb none m') (Left m.hb) := by
  induction ks generalizing m with
  | nil => exact .pure ⟨h, rfl⟩
  | cons k ks ih =>
    refine ((removeViaHashesAndIdU_follows k.1 k.2.1 k.2.2).ends (removeViaHashesAndIdU_sound h k.1 k.2.1 k.2.2)).bind ?_
    rintro o m' ⟨e, -⟩
    have h1 := removeViaHashesAndId_less e
    have := ih (h1.always h)
    rw [h1.hb] at this
    exact this

theorem retainU_ends {σ : Type} (h : Always m) (f : σ → L → R → Option Bool × σ) (st : σ) :
    Ends (retainU f st) m (fun _ m' => Left m.hb none m') (Left m.hb) := by
  refine .get_bind <| (retainScanU_ends h f _ st).bind ?_
  rintro ks _ rfl
  exact retainDropU_ends h ks

theorem extendU_sound (h : Always m) (xs : List (L × R)) : Sound (extendU xs) m := by
  induction xs generalizing m with
  | nil => exact (Ends.user ⟨h, rfl⟩).mono (fun _ _ _ => trivial) fun _ _ h => h
  | cons x xs ih =>
    refine .user_bind ⟨h, rfl⟩ <| Left.bind (insertU_follows x.1 x.2) (insertU_sound h x.1 x.2) fun o m1 e => ?_
    obtain ⟨a, b⟩ := insert_always h e
    exact Sound.cast (ih a) b

theorem Always.withLeft (h : Always m) {t : RawTable (MappingPair L)} (ht : t.entries.Perm m.left.entries) :
    Always { m with left := t } := ⟨h.left.of_perm AwayL.symm ht, h.right⟩

theorem interruptedL (h : Always m) (s) : Left m.hb none { m with left := m.left.interrupted s (·.hashWith m.hb.hl) } :=
  ⟨⟨RawTable.Keyed.interrupted AwayL.symm h.left s, h.right⟩, rfl⟩

theorem interruptedR (h : Always m) (s) : Left m.hb none { m with right := m.right.interrupted s (·.hashWith m.hb.hr) } :=
  ⟨⟨h.left, RawTable.Keyed.interrupted AwayR.symm h.right s⟩, rfl⟩

/-- a call that panics leaves a map as always -/
theorem execU_sound (h : Always m) (op : Op L R) : Sound (execU op) m := by
  have i : Left m.hb none m := ⟨h, rfl⟩
  cases op
  case insert l r => exact .map (insertU_sound h l r)
  case remove l r => exact .map (removeU_sound h l r)
  case removeViaLeft l => exact .map (removeViaLeftU_sound h l)
  case removeViaRight r => exact .map (removeViaRightU_sound h r)
  case swapLeft a b => exact .map (swapLeftU_sound h a b)
  case swapLeftChecked a e b => exact .map (swapLeftCheckedU_sound h a e b)
  case swapLeftOrInsert a b r => exact .map (swapLeftOrInsertU_sound h a b r)
  case swapRight a b => exact .map (swapRightU_sound h a b)
  case swapRightChecked a e b => exact .map (swapRightCheckedU_sound h a e b)
  case swapRightOrInsert a b l => exact .map (swapRightOrInsertU_sound h a b l)
  case getLeft => exact .user_bind i <| .user_bind i <| .get_bind <| .pure trivial
  case getRight => exact .user_bind i <| .user_bind i <| .get_bind <| .pure trivial
  case containsLeft => exact .user_bind i <| .user_bind i <| .get_bind <| .pure trivial
  case containsRight => exact .user_bind i <| .user_bind i <| .get_bind <| .pure trivial
  case arePaired l r => exact .map (arePairedU_sound h l r)
  case len => exact .get_bind <| .pure trivial
  case isEmpty => exact .get_bind <| .pure trivial
  case clear => exact .get_bind <| .set_bind <| .pure trivial
  case iter => exact .get_bind <| Sound.map <| (collectU_ends h _).mono (fun _ _ _ => trivial) fun _ _ h => h
  case iterLeft => exact .get_bind <| .pure trivial
  case iterRight => exact .get_bind <| .pure trivial
  case drain n => exact .map (drainU_sound h n)
  case drainFilter σ f s n => exact .map <| (drainFilterU_ends h (sure f) s n).mono (fun _ _ _ => trivial) fun _ _ h => h
  case drainFilterAll σ f s =>
    exact .get_bind <| Sound.map <| (drainFilterU_ends h (sure f) s _).mono (fun _ _ _ => trivial) fun _ _ h => h
  case retain σ f s =>
    exact (retainU_ends h (sure f) s).bind fun _ _ _ => .pure trivial
  case extend xs => exact (extendU_sound h xs).bind fun _ _ _ => .pure trivial
  case reserve n =>
    refine Ends.bind (.get_bind <| RawTable.ends_grow_bind (fun _ s _ => interruptedL h _) <| .get_bind <|
      RawTable.ends_grow (fun _ s _ => ?_)) fun _ _ _ => .pure trivial
    exact interruptedR (h.withLeft (RawTable.reserve_perm _ _ h.left.hash)) _
  case tryReserve n a b =>
    simp only [execU, tryReserveU]
    cases a
    · exact .pure trivial
    · cases b
      · exact .map <| .get_bind <| RawTable.ends_grow_bind (fun _ s _ => interruptedL h _) <| .pure trivial
      · refine .map <| .get_bind <| RawTable.ends_grow_bind (fun _ s _ => interruptedL h _) <| .get_bind <|
          RawTable.ends_grow_bind (fun _ s _ => ?_) <| .pure trivial
        exact interruptedR (h.withLeft (RawTable.reserve_perm _ _ h.left.hash)) _
  case shrinkTo n =>
    refine Ends.bind (.get_bind <| RawTable.ends_grow_bind (fun _ s _ => interruptedL h _) <| .get_bind <|
      RawTable.ends_grow (fun _ s _ => ?_)) fun _ _ _ => .pure trivial
    exact interruptedR (h.withLeft (RawTable.shrinkTo_perm _ _ h.left.hash)) _
  case shrinkToFit =>
    refine Ends.bind (.get_bind <| RawTable.ends_grow_bind (fun _ s _ => interruptedL h _) <| .get_bind <|
      RawTable.ends_grow (fun _ s _ => ?_)) fun _ _ _ => .pure trivial
    exact interruptedR (h.withLeft (RawTable.shrinkTo_perm _ _ h.left.hash)) _
  case clone => exact .user_bind i <| .get_bind <| .set_bind <| .pure trivial

/-- the clones made by a history use lawful `Clone` implementations -/
def LawfulCalls (calls : List (Fate × Call L R)) : Prop :=
  ∀ f cl cr, (f, Call.plain (.clone cl cr)) ∈ calls → (∀ x, (cl x == x) = true) ∧ (∀ x, (cr x == x) = true)

theorem callU_ends (h : Always m) (f : Fate) (call : Call L R) (hc : LawfulCalls [(f, call)]) :
    Ends (callU call) m (fun _ m' => Left m.hb none m') (Left m.hb) := by
  cases call with
  | plain op =>
    refine ((execU_follows op).ends (execU_sound h op)).mono ?_ fun _ _ h => h
    rintro a m' ⟨e, -⟩
    refine exec_always h (fun cl cr hm => ?_) e
    cases List.mem_singleton.1 hm
    exact hc f cl cr (by simp)
  | drainFilter σ g s n => exact (drainFilterU_ends h g s n).bind fun _ _ e => .pure e
  | retain σ g s => exact (retainU_ends h g s).bind fun _ _ e => .pure e

theorem runU_always {calls : List (Fate × Call L R)} (h : Always m) (hc : LawfulCalls calls) (e : m.runU calls = some m') :
    Always m' ∧ m'.hb = m.hb := by
  induction calls generalizing m with
  | nil => cases e; exact ⟨h, rfl⟩
  | cons c calls ih =>
    obtain ⟨f, call⟩ := c
    simp only [runU] at e
    have h1 := callU_ends h f call (fun f cl cr hm => hc f cl cr (by
      rcases List.mem_cons.1 hm with hm | hm
      · rw [← hm]; exact List.mem_cons_self
      · cases hm)) f trivial
    cases h2 : callU call f m with
    | done a f' m1 =>
      rw [h2] at e h1
      obtain ⟨a, b⟩ := ih h1.2.1 (fun f cl cr hm => hc f cl cr (List.mem_cons_of_mem _ hm)) e
      exact ⟨a, b.trans h1.2.2⟩
    | panic w m1 =>
      rw [h2] at e h1
      obtain ⟨a, b⟩ := ih h1.1 (fun f cl cr hm => hc f cl cr (List.mem_cons_of_mem _ hm)) e
      exact ⟨a, b.trans h1.2⟩
    | abort => rw [h2] at e; cases e

end Verif.CycleMap
