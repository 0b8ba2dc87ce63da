import Verif.CycleMap.UnwindFollows
import Verif.CycleMap.Simulation
import Verif.CycleMap.Room
/-! What a call on a valid `CycleMap` leaves when the items' own code panics. -/
set_option linter.unusedSectionVars false
set_option linter.unusedSimpArgs false
namespace Verif.CycleMap
open CycleSpec OptionalPair Unw

variable [RawImpl] {L R : Type} [BEq L] [BEq R]

/-- both tables take `n` more elements as they are -/
def HasRoom (n : Nat) (m : CycleMap L R) : Prop := n ≤ RawImpl.growthLeft m.left ∧ n ≤ RawImpl.growthLeft m.right

/-- an interrupted `insert(l, r)` may have removed the old pairs of `l` and `r` -/
def LeavesInsert (c : List (L × R)) (l : L) (r : R) (d : List (L × R)) : Prop :=
  d = c ∨ d = eraseL c l ∨ d = eraseR (eraseL c l) r

/-- the pairs `d` an interrupted call may leave, of the pairs `c` -/
def Leaves (c : List (L × R)) : Op L R → List (L × R) → Prop
  | .insert l r, d => LeavesInsert c l r d
  | .swapLeft _ new, d => d = c ∨ d = eraseL c new
  | .swapRight _ new, d => d = c ∨ d = eraseR c new
  | .swapLeftOrInsert _ new r, d => LeavesInsert c new r d
  | .swapRightOrInsert _ new l, d => LeavesInsert c l new d
  | .extend xs, d => d = insertAll c xs ∨ ∃ ys x zs, xs = ys ++ x :: zs ∧ LeavesInsert (insertAll c ys) x.1 x.2 d
  | _, d => d = c

/-- calls that may be interrupted: insertions need room in the tables, the item to be replaced by a swap must not be
there, and elements must not be moved within a table -/
def Smooth (m : CycleMap L R) (survive : Option (List Bool)) : Op L R → Prop
  | .insert _ _ => HasRoom 1 m
  | .extend xs => HasRoom xs.length m
  | .swapLeft old _ => m.containsLeft old = false
  | .swapRight old _ => m.containsRight old = false
  | .swapLeftChecked old e _ => m.arePaired old e = false
  | .swapRightChecked old e _ => m.arePaired e old = false
  | .swapLeftOrInsert old _ _ => m.containsLeft old = false ∧ HasRoom 1 m
  | .swapRightOrInsert old _ _ => m.containsRight old = false ∧ HasRoom 1 m
  | .reserve _ => survive = none
  | .tryReserve _ _ _ => survive = none
  | _ => True

/-- `P` holds of the map if the items' own code (or the closure) panicked -/
def Stops (P : CycleMap L R → Prop) (why : Option Panic) (m : CycleMap L R) : Prop := why = none → P m

variable {m m' : CycleMap L R} {c : List (L × R)} {S : Option (List Bool) → Prop}

/-- the map is as it was -/
abbrev Same {α : Type} (x : Unw (CycleMap L R) α) (m : CycleMap L R) (S : Option (List Bool) → Prop := fun _ => True) : Prop :=
  Ends x m (fun _ _ => True) (Stops (· = m)) S

theorem Stops.fail {P : CycleMap L R → Prop} {p : Panic} : Stops P (some p) m := by intro h; cases h

theorem Same.map {α β : Type} {x : Unw (CycleMap L R) α} {g : α → β} {I} (h : Ends x m (fun _ _ => True) I S) :
    Ends (do return g (← x)) m (fun _ _ => True) I S :=
  Ends.bind h fun _ _ _ => Ends.pure trivial

theorem arePairedU_same (l : L) (r : R) : Same (arePairedU l r) m S := by
  have i : Stops (· = m) none m := fun _ => rfl
  exact .user_bind i <| .user_bind i <| .user_bind i <| .user_bind i <| .get_bind <| .pure trivial

theorem removeViaLeftU_same (l : L) : Same (removeViaLeftU l) m S := by
  have i : Stops (· = m) none m := fun _ => rfl
  refine .user_bind i <| .user_bind i <| .get_bind ?_
  simp only
  split
  · exact .pure trivial
  · refine .set_bind ?_
    split
    · exact .fail .fail
    · exact .set_bind (.pure trivial)

theorem removeViaRightU_same (r : R) : Same (removeViaRightU r) m S := by
  have i : Stops (· = m) none m := fun _ => rfl
  refine .user_bind i <| .user_bind i <| .get_bind ?_
  simp only
  split
  · exact .pure trivial
  · refine .set_bind ?_
    split
    · exact .fail .fail
    · exact .set_bind (.pure trivial)

theorem removeU_same (l : L) (r : R) : Same (removeU l r) m S := by
  refine ((arePairedU_follows l r).ends (arePairedU_same l r)).bind ?_
  rintro a m' ⟨⟨⟩, -⟩
  split
  · exact removeViaLeftU_same l
  · exact .pure trivial

theorem nextU_same (l : MappingPair L) : Ends (nextU l) m (fun _ m' => m' = m) (Stops (· = m)) S := by
  refine .user_bind (fun _ => rfl) <| .user_bind (fun _ => rfl) <| .get_bind ?_
  cases m.getRight l.value
  · exact .fail .fail
  · exact .pure rfl

theorem collectU_same (ls : List (MappingPair L)) : Ends (collectU ls) m (fun _ m' => m' = m) (Stops (· = m)) S := by
  induction ls with
  | nil => exact .pure rfl
  | cons l ls ih =>
    refine (nextU_same l).bind ?_
    rintro p _ rfl
    refine ih.bind ?_
    rintro ps _ rfl
    exact .pure rfl

theorem drainLoopU_stops {P : CycleMap L R → Prop} (n : Nat) (ls : List (MappingPair L)) :
    Ends (drainLoopU n ls) m (fun _ _ => True) (Stops P) S := by
  induction n generalizing ls m with
  | zero => exact .pure trivial
  | succ n ih =>
    cases ls with
    | nil => exact .pure trivial
    | cons l rest =>
      refine .get_bind ?_
      cases m.right.removeEntry l.hash (justId l.id) with
      | none => exact .fail .fail
      | some x => exact .set_bind <| Same.map (ih rest)

theorem drainU_stops {P : CycleMap L R → Prop} (n : Nat) : Ends (drainU n) m (fun _ _ => True) (Stops P) S :=
  .get_bind <| .set_bind <| drainLoopU_stops n _

theorem drainFilterU_stops {σ : Type} {P : CycleMap L R → Prop} (f : σ → L → R → Bool × σ) (st : σ) (n : Nat) :
    Ends (drainFilterU (sure f) st n) m (fun _ _ => True) (Stops P) S := by
  intro fate _
  have h := takeU_sure f n { kept := [], todo := m.left.entries, right := m.right, st := st }
  cases h2 : DrainFilter.takeU (sure f) n { kept := [], todo := m.left.entries, right := m.right, st := st } with
  | mk ps x =>
    obtain ⟨w, it⟩ := x
    rw [h2] at h
    have h3 := takeU_sure f (it.todo.length + 1) it
    cases h4 : DrainFilter.takeU (sure f) (it.todo.length + 1) it with
    | mk qs y =>
      obtain ⟨w', it'⟩ := y
      rw [h4] at h3
      simp only [drainFilterU, h2, h4]
      cases w with
      | none =>
        cases w' with
        | none => exact ⟨rfl, trivial⟩
        | some why => obtain ⟨p, rfl, -⟩ := h3; exact .fail
      | some why =>
        obtain ⟨p, rfl, -⟩ := h
        cases w' with
        | none => exact .fail
        | some why => trivial

theorem retainScanU_same {σ : Type} (f : σ → L → R → Option Bool × σ) (ls : List (MappingPair L)) (st : σ) :
    Ends (retainScanU f ls st) m (fun _ m' => m' = m) (Stops (· = m)) S := by
  induction ls generalizing st with
  | nil => exact .pure rfl
  | cons l ls ih =>
    refine (nextU_same l).bind ?_
    rintro ⟨a, b⟩ _ rfl
    simp only
    cases h2 : f st a b with
    | mk o st' =>
      cases o with
      | none => exact fun _ _ _ => rfl
      | some o =>
        cases o
        · refine .user_bind (fun _ => rfl) <| .user_bind (fun _ => rfl) <| .user_bind (fun _ => rfl) <|
            .user_bind (fun _ => rfl) <| .get_bind ?_
          split
          · exact .fail .fail
          · refine (ih st').bind ?_
            rintro ps _ rfl
            exact .pure rfl
        · exact ih st'

theorem retainDropU_stops {P : CycleMap L R → Prop} (ks : List (UInt64 × UInt64 × Nat)) :
    Ends (retainDropU ks) m (fun _ _ => True) (Stops P) S := by
  induction ks generalizing m with
  | nil => exact .pure trivial
  | cons k ks ih =>
    refine Ends.bind (K := fun _ _ => True) (.get_bind ?_) fun _ _ _ => ih
    split
    · exact .pure trivial
    · refine .set_bind ?_
      split
      · exact .fail .fail
      · exact .set_bind (.pure trivial)

/-- all user code of `retain` runs before the first removal -/
theorem retainU_same {σ : Type} (f : σ → L → R → Option Bool × σ) (st : σ) : Same (retainU f st) m S := by
  refine .get_bind <| (retainScanU_same f _ st).bind ?_
  rintro ks _ rfl
  exact retainDropU_stops ks

section
variable [LawfulRaw] [LawfulCap] [EquivBEq L] [EquivBEq R]

theorem HasRoom.of_roomy {k n} (h : HasRoom (n + k) m) (hr : Roomy .room k m m') : HasRoom n m' :=
  ⟨by have := h.1; have := hr.1; unfold RawTable.Room at *; omega, by have := h.2; have := hr.2; unfold RawTable.Room at *; omega⟩

theorem no_rehash {T : Type} {t : RawTable T} {h : UInt64} {P : Prop} (hr : 1 ≤ RawImpl.growthLeft t)
    (e : RawImpl.rehashes (.insert h) t = true) : P := by
  rw [LawfulCap.stay t h hr] at e; cases e

theorem insertU_leaves (h : Repr m c) (hr : HasRoom 1 m) (l : L) (r : R) :
    Ends (insertU l r) m (fun _ _ => True) (Stops fun m' => ∃ d, LeavesInsert c l r d ∧ Repr m' d) S := by
  refine (((removeViaLeftU_follows l).ends (removeViaLeftU_same l)).mono (fun _ _ h => h)
    (I' := Stops fun m' => ∃ d, LeavesInsert c l r d ∧ Repr m' d) ?_).bind ?_
  · intro w m' e hw; rw [e hw]; exact ⟨c, .inl rfl, h⟩
  rintro o1 m1 ⟨e1, -⟩
  obtain ⟨m1', e1', h1, -⟩ := removeViaLeft_refines h l
  rw [e1'] at e1; cases e1
  have r1 := HasRoom.of_roomy (n := 1) (k := 0) hr (removeViaLeft_roomy e1')
  refine (((removeViaRightU_follows r).ends (removeViaRightU_same r)).mono (fun _ _ h => h)
    (I' := Stops fun m' => ∃ d, LeavesInsert c l r d ∧ Repr m' d) ?_).bind ?_
  · intro w m' e hw; rw [e hw]; exact ⟨_, .inr (.inl rfl), h1⟩
  rintro o2 m2 ⟨e2, -⟩
  obtain ⟨m2', e2', h2, -⟩ := removeViaRight_refines h1 r
  rw [e2'] at e2; cases e2
  have r2 := HasRoom.of_roomy (n := 1) (k := 0) r1 (removeViaRight_roomy e2')
  have i : Stops (fun m' => ∃ d, LeavesInsert c l r d ∧ Repr m' d) none m2 := fun _ => ⟨_, .inr (.inr rfl), h2⟩
  exact .user_bind i <| .user_bind i <| .get_bind <| RawTable.ends_grow_bind (fun e => no_rehash r2.1 e) <| .get_bind <|
    RawTable.ends_grow_bind (fun e => no_rehash r2.2 e) <| .pure trivial

theorem swapLeftU_leaves (h : Repr m c) {a b : L} (ha : m.containsLeft a = false) :
    Ends (swapLeftU a b) m (fun _ _ => True) (Stops fun m' => ∃ d, (d = c ∨ d = eraseL c b) ∧ Repr m' d) S := by
  have i : Stops (fun m' => ∃ d, (d = c ∨ d = eraseL c b) ∧ Repr m' d) none m := fun _ => ⟨c, .inl rfl, h⟩
  refine .user_bind i <| .get_bind <| Ends.bind (K := fun o m' => m.swapLeftEqCheck a b (m.hb.hl b) = .ok (o, m') ∧ True)
    ((swapLeftEqCheckU_follows a b _).ends <| .user_bind i <| .get_bind ?_) ?_
  · cases m.left.get (m.hb.hl b) (equivalentKey b) with
    | none => exact .pure trivial
    | some x =>
      refine .user_bind i ?_
      split
      · refine (removeViaLeftU_same b).mono (fun _ _ h => h) ?_
        intro w m' e hw; rw [e hw]; exact ⟨c, .inl rfl, h⟩
      · exact .pure trivial
  · rintro o1 m1 ⟨e1, -⟩
    obtain ⟨m1', e1', h1, -⟩ := swapLeftEqCheck_refines h a b
    rw [e1'] at e1; cases e1
    have i1 : Stops (fun m' => ∃ d, (d = c ∨ d = eraseL c b) ∧ Repr m' d) none m1 :=
      fun _ => ⟨_, by split <;> simp, h1⟩
    refine .user_bind i1 <| .user_bind i1 <| .get_bind ?_
    have : m1.left.get (m1.hb.hl a) (equivalentKey a) = none := by
      refine Option.isNone_iff_eq_none.1 (Option.isSome_eq_false_iff.1 ?_)
      rw [containsLeft_refines h] at ha
      rw [show (m1.left.get (m1.hb.hl a) (equivalentKey a)).isSome = m1.containsLeft a from rfl, containsLeft_refines h1]
      split
      · exact ha
      · rw [List.any_eq_false] at ha ⊢
        exact fun p hp => ha p (mem_eraseL.1 hp).1
    simp only [this]
    exact .pure trivial

theorem swapRightU_leaves (h : Repr m c) {a b : R} (ha : m.containsRight a = false) :
    Ends (swapRightU a b) m (fun _ _ => True) (Stops fun m' => ∃ d, (d = c ∨ d = eraseR c b) ∧ Repr m' d) S := by
  have i : Stops (fun m' => ∃ d, (d = c ∨ d = eraseR c b) ∧ Repr m' d) none m := fun _ => ⟨c, .inl rfl, h⟩
  refine .user_bind i <| .get_bind <| Ends.bind (K := fun o m' => m.swapRightEqCheck a b (m.hb.hr b) = .ok (o, m') ∧ True)
    ((swapRightEqCheckU_follows a b _).ends <| .user_bind i <| .get_bind ?_) ?_
  · cases m.right.get (m.hb.hr b) (equivalentKey b) with
    | none => exact .pure trivial
    | some x =>
      refine .user_bind i ?_
      split
      · refine (removeViaRightU_same b).mono (fun _ _ h => h) ?_
        intro w m' e hw; rw [e hw]; exact ⟨c, .inl rfl, h⟩
      · exact .pure trivial
  · rintro o1 m1 ⟨e1, -⟩
    obtain ⟨m1', e1', h1, -⟩ := swapRightEqCheck_refines h a b
    rw [e1'] at e1; cases e1
    have i1 : Stops (fun m' => ∃ d, (d = c ∨ d = eraseR c b) ∧ Repr m' d) none m1 :=
      fun _ => ⟨_, by split <;> simp, h1⟩
    refine .user_bind i1 <| .user_bind i1 <| .get_bind ?_
    have : m1.right.get (m1.hb.hr a) (equivalentKey a) = none := by
      refine Option.isNone_iff_eq_none.1 (Option.isSome_eq_false_iff.1 ?_)
      rw [containsRight_refines h] at ha
      rw [show (m1.right.get (m1.hb.hr a) (equivalentKey a)).isSome = m1.containsRight a from rfl, containsRight_refines h1]
      split
      · exact ha
      · rw [List.any_eq_false] at ha ⊢
        exact fun p hp => ha p (mem_eraseR.1 hp).1
    simp only [this]
    exact .pure trivial

theorem extendU_leaves (h : Repr m c) (xs : List (L × R)) (hr : HasRoom xs.length m) :
    Ends (extendU xs) m (fun _ _ => True) (Stops fun m' => ∃ d, Leaves c (.extend xs) d ∧ Repr m' d) S := by
  induction xs generalizing m c with
  | nil =>
    refine (Ends.user ?_).mono (fun _ _ _ => trivial) fun _ _ h => h
    exact fun _ => ⟨c, .inl rfl, h⟩
  | cons x xs ih =>
    refine .user_bind (fun _ => ⟨c, .inr ⟨[], x, xs, rfl, .inl rfl⟩, h⟩) ?_
    refine (((insertU_follows x.1 x.2).ends (insertU_leaves h ⟨by have := hr.1; simp at this; omega, by have := hr.2; simp at this; omega⟩ x.1 x.2)).mono
      (fun _ _ h => h) (I' := Stops fun m' => ∃ d, Leaves c (.extend (x :: xs)) d ∧ Repr m' d) ?_).bind ?_
    · intro w m' e hw
      obtain ⟨d, h1, h2⟩ := e hw
      exact ⟨d, .inr ⟨[], x, xs, rfl, h1⟩, h2⟩
    · rintro o m1 ⟨e, -⟩
      obtain ⟨m1', e', h1, -⟩ := insert_refines h x.1 x.2
      rw [e'] at e; cases e
      refine (ih h1 (HasRoom.of_roomy (k := 1) hr (insert_roomy e'))).mono (fun _ _ h => h) ?_
      intro w m' e hw
      obtain ⟨d, h2, h3⟩ := e hw
      refine ⟨d, ?_, h3⟩
      rcases h2 with rfl | ⟨ys, y, zs, rfl, h2⟩
      · exact .inl rfl
      · exact .inr ⟨x :: ys, y, zs, rfl, h2⟩

/-- a table that moved its elements to new memory has them all -/
theorem interrupted_none {T : Type} {t : RawTable T} {hasher : T → UInt64} : t.interrupted none hasher = t := rfl

theorem stops_map {β : Type} {x : Unw (CycleMap L R) β} {g : β → Out L R} {P : CycleMap L R → Prop}
    (h : Ends x m (fun _ _ => True) (Stops P) S) : Ends (do return g (← x)) m (fun _ _ => True) (Stops P) S := Same.map h

/-- a call interrupted by the items' own code leaves a valid map -/
theorem execU_leaves (h : Repr m c) (op : Op L R) (s : Option (List Bool)) (hs : Smooth m s op) :
    Ends (execU op) m (fun _ _ => True) (Stops fun m' => ∃ d, Leaves c op d ∧ Repr m' d) (· = s) := by
  have i : Stops (fun m' => ∃ d, d = c ∧ Repr m' d) none m := fun _ => ⟨_, rfl, h⟩
  have same : ∀ {α : Type} {x : Unw (CycleMap L R) α}, Same x m (· = s) →
      Ends x m (fun _ _ => True) (Stops fun m' => ∃ d, d = c ∧ Repr m' d) (· = s) :=
    fun hx => hx.mono (fun _ _ h => h) fun w m' e hw => by rw [e hw]; exact ⟨_, rfl, h⟩
  cases op
  case insert l r => exact stops_map (insertU_leaves h hs l r)
  case remove l r => exact stops_map (same (removeU_same l r))
  case removeViaLeft l => exact stops_map (same (removeViaLeftU_same l))
  case removeViaRight r => exact stops_map (same (removeViaRightU_same r))
  case swapLeft a b => exact stops_map (swapLeftU_leaves h hs)
  case swapRight a b => exact stops_map (swapRightU_leaves h hs)
  case swapLeftChecked a e b =>
    refine stops_map (same ?_)
    refine ((arePairedU_follows a e).ends (arePairedU_same a e)).bind ?_
    rintro _ m' ⟨⟨⟩, -⟩
    rw [show m.arePaired a e = false from hs]
    exact .pure trivial
  case swapRightChecked a e b =>
    refine stops_map (same ?_)
    refine ((arePairedU_follows e a).ends (arePairedU_same e a)).bind ?_
    rintro _ m' ⟨⟨⟩, -⟩
    rw [show m.arePaired e a = false from hs]
    exact .pure trivial
  case swapLeftOrInsert a b r =>
    have j : Stops (fun m' => ∃ d, LeavesInsert c b r d ∧ Repr m' d) none m := fun _ => ⟨_, .inl rfl, h⟩
    refine stops_map <| .user_bind j <| .user_bind j <| .get_bind ?_
    rw [if_neg (by rw [show (m.left.get (m.hb.hl a) (equivalentKey a)).isSome = m.containsLeft a from rfl, hs.1]; simp)]
    exact Same.map (insertU_leaves h hs.2 b r)
  case swapRightOrInsert a b l =>
    have j : Stops (fun m' => ∃ d, LeavesInsert c l b d ∧ Repr m' d) none m := fun _ => ⟨_, .inl rfl, h⟩
    refine stops_map <| .user_bind j <| .user_bind j <| .get_bind ?_
    rw [if_neg (by rw [show (m.right.get (m.hb.hr a) (equivalentKey a)).isSome = m.containsRight a from rfl, hs.1]; simp)]
    refine (insertU_leaves h hs.2 l b).bind fun o m' _ => ?_
    cases o
    · exact .pure trivial
    · exact .fail .fail
    · exact .pure trivial
    · exact .fail .fail
  case getLeft => exact .user_bind i <| .user_bind i <| .get_bind <| .pure trivial
  case getRight => exact .user_bind i <| .user_bind i <| .get_bind <| .pure trivial
  case containsLeft => exact .user_bind i <| .user_bind i <| .get_bind <| .pure trivial
  case containsRight => exact .user_bind i <| .user_bind i <| .get_bind <| .pure trivial
  case arePaired l r => exact stops_map (same (arePairedU_same l r))
  case len => exact .get_bind <| .pure trivial
  case isEmpty => exact .get_bind <| .pure trivial
  case clear => exact .get_bind <| .set_bind <| .pure trivial
  case iter => exact .get_bind <| stops_map <| same <| (collectU_same _).mono (fun _ _ _ => trivial) fun _ _ h => h
  case iterLeft => exact .get_bind <| .pure trivial
  case iterRight => exact .get_bind <| .pure trivial
  case drain n => exact stops_map (drainU_stops n)
  case drainFilter σ f s n => exact stops_map (drainFilterU_stops f s n)
  case drainFilterAll σ f s => exact .get_bind <| stops_map (drainFilterU_stops f s _)
  case retain σ f s => exact (same (retainU_same (sure f) s)).bind fun _ _ _ => .pure trivial
  case extend xs => exact (extendU_leaves h xs hs).bind fun _ _ _ => .pure trivial
  case reserve n =>
    subst hs
    refine Ends.bind (K := fun _ _ => True) (.get_bind <| RawTable.ends_grow_bind (fun _ s e => ?_) <| .get_bind <|
      (RawTable.ends_grow (fun _ s e => ?_)).mono (fun _ _ _ => trivial) fun _ _ h => h) fun _ _ _ => .pure trivial
    · subst e; exact i
    · subst e; exact fun _ => ⟨_, rfl, h.of_tables (RawTable.reserve_perm _ _ h.hashesL) (.refl _)⟩
  case tryReserve n a b =>
    simp only [execU, tryReserveU]
    cases hs
    cases a
    · exact .pure trivial
    · cases b
      · exact stops_map <| .get_bind <| RawTable.ends_grow_bind (fun _ s e => by subst e; exact i) <| .pure trivial
      · refine stops_map <| .get_bind <| RawTable.ends_grow_bind (fun _ s e => by subst e; exact i) <| .get_bind <|
          RawTable.ends_grow_bind (fun _ s e => ?_) <| .pure trivial
        subst e; exact fun _ => ⟨_, rfl, h.of_tables (RawTable.reserve_perm _ _ h.hashesL) (.refl _)⟩
  case shrinkTo n =>
    refine Ends.bind (K := fun _ _ => True) (.get_bind <| RawTable.ends_grow_bind (fun _ s e => i) <| .get_bind <|
      (RawTable.ends_grow (fun _ s e => ?_)).mono (fun _ _ _ => trivial) fun _ _ h => h) fun _ _ _ => .pure trivial
    exact fun _ => ⟨_, rfl, h.of_tables (RawTable.shrinkTo_perm _ _ h.hashesL) (.refl _)⟩
  case shrinkToFit =>
    refine Ends.bind (K := fun _ _ => True) (.get_bind <| RawTable.ends_grow_bind (fun _ s e => i) <| .get_bind <|
      (RawTable.ends_grow (fun _ s e => ?_)).mono (fun _ _ _ => trivial) fun _ _ h => h) fun _ _ _ => .pure trivial
    exact fun _ => ⟨_, rfl, h.of_tables (RawTable.shrinkTo_perm _ _ h.hashesL) (.refl _)⟩
  case clone => exact .user_bind i <| .get_bind <| .set_bind <| .pure trivial

end
end Verif.CycleMap
