import Verif.PartialMap.UnwindFollows
import Verif.PartialMap.Simulation
import Verif.PartialMap.Room
/-! What a call on a valid `PartialCycleMap` leaves when the items' own code panics. -/
set_option linter.unusedSectionVars false
set_option linter.unusedSimpArgs false
namespace Verif.PartialMap
open PartialSpec OptionalPair Unw

variable [RawImpl] {L R : Type} [BEq L] [BEq R]

/-- the left table takes `a` more elements as it is, the right one `b` -/
def HasRoom (a b : Nat) (m : PartialMap L R) : Prop := a ≤ RawImpl.growthLeft m.left ∧ b ≤ RawImpl.growthLeft m.right

/-- an interrupted `insert(l, r)` may have removed the old entries of `l` and `r` -/
def LeavesInsert (c : List (OptionalPair L R)) (l : L) (r : R) (d : List (OptionalPair L R)) : Prop :=
  d = c ∨ d = eraseL c l ∨ d = eraseR (eraseL c l) r

/-- the same for the insertion of an entry -/
def LeavesEntry (c : List (OptionalPair L R)) : OptionalPair L R → List (OptionalPair L R) → Prop
  | neither, d => d = c
  | someLeft l, d => d = c ∨ d = eraseL c l
  | someRight r, d => d = c ∨ d = eraseR c r
  | someBoth l r, d => LeavesInsert c l r d

/-- an interrupted `extend(xs)` has inserted some of the first entries -/
def LeavesExtend (c xs d : List (OptionalPair L R)) : Prop :=
  d = insertAll c xs ∨ ∃ ys x zs, xs = ys ++ x :: zs ∧ LeavesEntry (insertAll c ys) x d

/-- the entries `d` an interrupted call may leave, of the entries `c` -/
def Leaves (c : List (OptionalPair L R)) : Op L R → List (OptionalPair L R) → Prop
  | .insert l r, d => LeavesInsert c l r d
  | .insertLeft l, d => d = c ∨ d = eraseL c l
  | .insertRight r, d => d = c ∨ d = eraseR c r
  | .swapLeft _ new, d => d = c ∨ d = eraseL c new
  | .swapRight _ new, d => d = c ∨ d = eraseR c new
  | .swapLeftOrInsert _ new r, d => LeavesInsert c new r d
  | .swapRightOrInsert _ new l, d => LeavesInsert c l new d ∨ d = eraseR c new
  | .extendPairs xs, d => LeavesExtend c (xs.map fun p => someBoth p.1 p.2) d
  | .extend xs, d => LeavesExtend c xs d
  | _, d => d = c

/-- calls that may be interrupted: insertions need room in the tables, the item to be replaced by a swap must not be
paired, and elements must not be moved within a table -/
def Smooth (m : PartialMap L R) (survive : Option (List Bool)) : Op L R → Prop
  | .insert _ _ => HasRoom 1 1 m
  | .insertLeft _ => HasRoom 1 0 m
  | .insertRight _ => HasRoom 0 1 m
  | .extendPairs xs => HasRoom xs.length xs.length m
  | .extend xs => HasRoom (leftsIn xs) (rightsIn xs) m
  | .swapLeft old _ => m.isLeftPaired old = false ∧ (m.containsLeft old = true → HasRoom 1 0 m)
  | .swapRight old _ => m.isRightPaired old = false ∧ (m.containsRight old = true → HasRoom 0 1 m)
  | .swapLeftChecked old e _ => m.arePaired old e = false
  | .swapRightChecked old e _ => m.arePaired e old = false
  | .swapLeftOrInsert old _ _ => m.isLeftPaired old = false ∧ HasRoom 1 1 m
  | .swapRightOrInsert old _ _ => m.isRightPaired old = false ∧ HasRoom 1 1 m
  | .reserveLeft _ | .reserveRight _ => survive = none
  | .tryReserveLeft _ _ | .tryReserveRight _ _ => survive = none
  | _ => True

/-- `P` holds of the map if the items' own code (or the closure) panicked -/
def Stops (P : PartialMap L R → Prop) (why : Option Panic) (m : PartialMap L R) : Prop := why = none → P m

variable {m m' : PartialMap L R} {c : List (OptionalPair L R)} {S : Option (List Bool) → Prop}

/-- the map is as it was -/
abbrev Same {α : Type} (x : Unw (PartialMap L R) α) (m : PartialMap L R) (S : Option (List Bool) → Prop := fun _ => True) : Prop :=
  Ends x m (fun _ _ => True) (Stops (· = m)) S

theorem Stops.fail {P : PartialMap L R → Prop} {p : Panic} : Stops P (some p) m := by intro h; cases h

theorem Same.map {α β : Type} {x : Unw (PartialMap L R) α} {g : α → β} {I} (h : Ends x m (fun _ _ => True) I S) :
    Ends (do return g (← x)) m (fun _ _ => True) I S :=
  Ends.bind h fun _ _ _ => Ends.pure trivial

/-- code without user code: `set`, `match` and failing `unwrap`s -/
local macro "calm" : tactic => `(tactic| repeat' first
  | exact .pure trivial | exact .fail .fail | refine .set_bind ?_ | split)

theorem arePairedU_same (l : L) (r : R) : Same (arePairedU l r) m S := by
  have i : Stops (· = m) none m := fun _ => rfl
  exact .user_bind i <| .user_bind i <| .user_bind i <| .user_bind i <| .get_bind <| .pure trivial

theorem removeViaLeftU_same (l : L) : Same (removeViaLeftU l) m S := by
  have i : Stops (· = m) none m := fun _ => rfl
  refine .user_bind i <| .user_bind i <| .get_bind ?_
  simp only
  calm

theorem removeLeftU_same (l : L) : Same (removeLeftU l) m S := by
  have i : Stops (· = m) none m := fun _ => rfl
  refine .user_bind i <| .user_bind i <| .get_bind ?_
  calm

theorem removeViaRightU_same (r : R) : Same (removeViaRightU r) m S := by
  have i : Stops (· = m) none m := fun _ => rfl
  refine .user_bind i <| .user_bind i <| .get_bind ?_
  simp only
  calm

theorem removeRightU_same (r : R) : Same (removeRightU r) m S := by
  have i : Stops (· = m) none m := fun _ => rfl
  refine .user_bind i <| .user_bind i <| .get_bind ?_
  calm

theorem removeU_same (l : L) (r : R) : Same (removeU l r) m S := by
  refine ((arePairedU_follows l r).ends (arePairedU_same l r)).bind ?_
  rintro a m' ⟨⟨⟩, -⟩
  split
  · refine (removeViaLeftU_same l).bind fun o _ _ => ?_
    calm
  · exact .pure trivial

theorem pairU_same (l : L) (r : R) : Same (pairU l r) m S := by
  have i : Stops (· = m) none m := fun _ => rfl
  exact .user_bind i <| .user_bind i <| .user_bind i <| .user_bind i <| .get_bind <| .set_bind <| .pure trivial

theorem unpairU_same (l : L) (r : R) : Same (unpairU l r) m S := by
  have i : Stops (· = m) none m := fun _ => rfl
  exact .user_bind i <| .user_bind i <| .user_bind i <| .user_bind i <| .get_bind <| .set_bind <| .pure trivial

theorem pairForcedU_same (l : L) (r : R) : Same (pairForcedU l r) m S := by
  have i : Stops (· = m) none m := fun _ => rfl
  refine ((arePairedU_follows l r).ends (arePairedU_same l r)).bind ?_
  rintro a m' ⟨⟨⟩, -⟩
  split
  · exact .pure trivial
  · refine .user_bind i <| .user_bind i <| .user_bind i <| .user_bind i <| .get_bind ?_
    simp only
    calm

theorem pairForcedRemoveU_same (l : L) (r : R) : Same (pairForcedRemoveU l r) m S := by
  have i : Stops (· = m) none m := fun _ => rfl
  refine ((arePairedU_follows l r).ends (arePairedU_same l r)).bind ?_
  rintro a m' ⟨⟨⟩, -⟩
  split
  · exact .pure trivial
  · refine .user_bind i <| .user_bind i <| .user_bind i <| .user_bind i <| .get_bind ?_
    simp only
    calm

theorem nextU_same (l : MappingPair L) : Ends (nextU l) m (fun _ m' => m' = m) (Stops (· = m)) S :=
  .user_bind (fun _ => rfl) <| .user_bind (fun _ => rfl) <| .get_bind <| .pure rfl

theorem collectU_same (ls : List (MappingPair L)) : Ends (collectU ls) m (fun _ m' => m' = m) (Stops (· = m)) S := by
  induction ls with
  | nil => exact .pure rfl
  | cons l ls ih =>
    refine (nextU_same l).bind ?_
    rintro p _ rfl
    refine ih.bind ?_
    rintro ps _ rfl
    exact .pure rfl

theorem collectPairedU_same (ls : List (MappingPair L)) :
    Ends (collectPairedU ls) m (fun _ m' => m' = m) (Stops (· = m)) S := by
  induction ls with
  | nil => exact .pure rfl
  | cons l ls ih =>
    simp only [collectPairedU]
    split
    · exact ih
    · refine .user_bind (fun _ => rfl) <| .get_bind ?_
      split
      · exact .fail .fail
      · exact .pure rfl
      · refine ih.bind ?_
        rintro ps _ rfl
        exact .pure rfl

theorem drainU_stops {P : PartialMap L R → Prop} (n : Nat) : Ends (drainU n) m (fun _ _ => True) (Stops P) S := by
  intro fate _
  have h1 := DrainIter.takeU_take n m.drain
  cases h2 : DrainIter.takeU n m.drain with
  | mk ps x =>
    obtain ⟨w, it⟩ := x
    rw [h2] at h1
    have h3 := DrainIter.takeU_take (it.todo.length + 2) it
    cases h4 : DrainIter.takeU (it.todo.length + 2) it with
    | mk qs y =>
      obtain ⟨w', it'⟩ := y
      rw [h4] at h3
      simp only [drainU, h2, h4]
      cases w with
      | none =>
        cases w' with
        | none => exact ⟨rfl, trivial⟩
        | some why => obtain ⟨p, rfl, -⟩ := h3; exact .fail
      | some why =>
        obtain ⟨p, rfl, -⟩ := h1
        cases w' with
        | none => exact .fail
        | some why => trivial

theorem drainFilterU_stops {σ : Type} {P : PartialMap L R → Prop} (f : σ → OptionalPair L R → Bool × σ) (st : σ) (n : Nat) :
    Ends (drainFilterU (sure f) st n) m (fun _ _ => True) (Stops P) S := by
  intro fate _
  generalize hi : (DrainFilter.mk [] m.left.entries m.right true [] [] st : DrainFilter σ L R) = it0
  have h1 := takeU_sure f n it0
  cases h2 : DrainFilter.takeU (sure f) n it0 with
  | mk ps x =>
    obtain ⟨w, it⟩ := x
    rw [h2] at h1
    have h3 := takeU_sure f (it.todoL.length + it.right.len + it.todoR.length + 1) it
    cases h4 : DrainFilter.takeU (sure f) (it.todoL.length + it.right.len + it.todoR.length + 1) it with
    | mk qs y =>
      obtain ⟨w', it'⟩ := y
      rw [h4] at h3
      simp only [drainFilterU, hi, h2, h4]
      cases w with
      | none =>
        cases w' with
        | none => exact ⟨rfl, trivial⟩
        | some why => obtain ⟨p, rfl, -⟩ := h3; exact .fail
      | some why =>
        obtain ⟨p, rfl, -⟩ := h1
        cases w' with
        | none => exact .fail
        | some why => trivial

theorem retainScanU_same {σ : Type} (f : σ → OptionalPair L R → Option Bool × σ) (ls : List (MappingPair L)) (st : σ) :
    Ends (retainScanU f ls st) m (fun _ m' => m' = m) (Stops (· = m)) S := by
  have i : Stops (· = m) none m := fun _ => rfl
  induction ls generalizing st with
  | nil => exact .pure rfl
  | cons l ls ih =>
    refine (nextU_same l).bind ?_
    rintro op m rfl
    cases h2 : f st op with
    | mk o st' =>
      cases o with
      | none => simp only [h2]; exact fun _ _ _ => rfl
      | some o =>
        cases o
        · simp only [h2]; exact ih st'
        · simp only [h2]
          refine .user_bind i ?_
          have k : Ends (do
              user
              user
              let m ← get
              match m.getLeftInner l.value with
              | none => fail .unwrapNone
              | some p =>
                let d ← retainScanU f ls st'
                return (some (m.hb.hl l.value), op.getRight.map m.hb.hr, p.id) :: d) m (fun _ m' => m' = m) (Stops (· = m)) S := by
            refine .user_bind i <| .user_bind i <| .get_bind ?_
            split
            · exact .fail .fail
            · refine (ih st').bind ?_
              rintro ps _ rfl
              exact .pure rfl
          split
          · exact .user_bind i k
          · exact k

theorem retainDropU_stops {P : PartialMap L R → Prop} (b : Bool) (ks : List (Option UInt64 × Option UInt64 × Nat)) :
    Ends (retainDropU b ks) m (fun _ _ => True) (Stops P) S := by
  induction ks generalizing m with
  | nil => exact .pure trivial
  | cons k ks ih =>
    obtain ⟨x, y, i⟩ := k
    cases x <;> cases y
    · exact .fail .fail
    · exact .get_bind <| .set_bind ih
    · exact .get_bind <| .set_bind ih
    · cases b
      · exact .fail .fail
      · exact .get_bind <| .set_bind ih

/-- all user code of `retain` runs before the first removal -/
theorem retainU_same {σ : Type} (f : σ → OptionalPair L R → Option Bool × σ) (st : σ) : Same (retainU f st) m S := by
  refine .get_bind <| (retainScanU_same f _ st).bind ?_
  rintro ks _ rfl
  exact retainDropU_stops _ ks

theorem retainPairedScanU_same {σ : Type} (f : σ → L → R → Option Bool × σ) (ls : List (MappingPair L)) (st : σ) :
    Ends (retainPairedScanU f ls st) m (fun _ m' => m' = m) (Stops (· = m)) S := by
  have i : Stops (· = m) none m := fun _ => rfl
  induction ls generalizing st with
  | nil => exact .pure rfl
  | cons l ls ih =>
    simp only [retainPairedScanU]
    split
    · exact ih st
    · refine .user_bind i <| .get_bind ?_
      split
      · exact .fail .fail
      · exact .pure rfl
      · split
        · exact fun _ _ _ => rfl
        · refine .user_bind i <| .user_bind i <| .user_bind i <| .user_bind i ?_
          split
          · exact .fail .fail
          · refine (ih _).bind ?_
            rintro ps _ rfl
            exact .pure rfl
        · exact ih _

/-- all user code of `retain_paired` runs before the first removal -/
theorem retainPairedU_same {σ : Type} (f : σ → L → R → Option Bool × σ) (st : σ) : Same (retainPairedU f st) m S := by
  refine .get_bind <| (retainPairedScanU_same f _ st).bind ?_
  rintro ks _ rfl
  exact .get_bind <| fun _ _ => ⟨rfl, trivial⟩

theorem retainUnpairedScanU_same {σ : Type} (f : σ → OptionalPair L R → Option Bool × σ) (os : List (OptionalPair L R)) (st : σ) :
    Ends (retainUnpairedScanU f os st) m (fun _ m' => m' = m) (Stops (· = m)) S := by
  have i : Stops (· = m) none m := fun _ => rfl
  induction os generalizing st with
  | nil => exact .pure rfl
  | cons op os ih =>
    simp only [retainUnpairedScanU]
    split
    · exact fun _ _ _ => rfl
    · split
      · refine .user_bind i <| .user_bind i <| .get_bind ?_
        split
        · exact .fail .fail
        · refine (ih _).bind ?_
          rintro ps _ rfl
          exact .pure rfl
      · refine .user_bind i <| .user_bind i <| .get_bind ?_
        split
        · exact .fail .fail
        · refine (ih _).bind ?_
          rintro ps _ rfl
          exact .pure rfl
      · exact .fail .fail
    · exact ih _

/-- all user code of `retain_unpaired` runs before the first removal -/
theorem retainUnpairedU_same {σ : Type} (f : σ → OptionalPair L R → Option Bool × σ) (st : σ) :
    Same (retainUnpairedU f st) m S := by
  refine .get_bind <| (retainUnpairedScanU_same f _ st).bind ?_
  rintro ks _ rfl
  exact retainDropU_stops _ ks

section
variable [LawfulRaw] [LawfulCap] [EquivBEq L] [EquivBEq R]

theorem HasRoom.of_roomy {a b x y} (h : HasRoom (a + x) (b + y) m) (hr : Roomy .room x y m m') : HasRoom a b m' :=
  ⟨by have := h.1; have := hr.1; unfold RawTable.Room at *; omega, by have := h.2; have := hr.2; unfold RawTable.Room at *; omega⟩

theorem no_rehash {T : Type} {t : RawTable T} {h : UInt64} {P : Prop} (hr : 1 ≤ RawImpl.growthLeft t)
    (e : RawImpl.rehashes (.insert h) t = true) : P := by
  rw [LawfulCap.stay t h hr] at e; cases e

theorem insertU_leaves (h : Repr m c) (hr : HasRoom 1 1 m) (l : L) (r : R) :
    Ends (insertU l r) m (fun _ _ => True) (Stops fun m' => ∃ d, LeavesInsert c l r d ∧ Repr m' d) S := by
  refine (((removeViaLeftU_follows l).ends (removeViaLeftU_same l)).mono (fun _ _ h => h)
    (I' := Stops fun m' => ∃ d, LeavesInsert c l r d ∧ Repr m' d) ?_).bind ?_
  · intro w m' e hw; rw [e hw]; exact ⟨c, .inl rfl, h⟩
  rintro o1 m1 ⟨e1, -⟩
  obtain ⟨m1', e1', h1, -⟩ := removeViaLeft_refines h l
  rw [e1'] at e1; cases e1
  have r1 := HasRoom.of_roomy (a := 1) (b := 1) hr (removeViaLeft_roomy e1')
  refine (((removeViaRightU_follows r).ends (removeViaRightU_same r)).mono (fun _ _ h => h)
    (I' := Stops fun m' => ∃ d, LeavesInsert c l r d ∧ Repr m' d) ?_).bind ?_
  · intro w m' e hw; rw [e hw]; exact ⟨_, .inr (.inl rfl), h1⟩
  rintro o2 m2 ⟨e2, -⟩
  obtain ⟨m2', e2', h2, -⟩ := removeViaRight_refines h1 r
  rw [e2'] at e2; cases e2
  have r2 := HasRoom.of_roomy (a := 1) (b := 1) r1 (removeViaRight_roomy e2')
  have i : Stops (fun m' => ∃ d, LeavesInsert c l r d ∧ Repr m' d) none m2 := fun _ => ⟨_, .inr (.inr rfl), h2⟩
  exact .user_bind i <| .user_bind i <| .get_bind <| RawTable.ends_grow_bind (fun e => no_rehash r2.1 e) <| .get_bind <|
    RawTable.ends_grow_bind (fun e => no_rehash r2.2 e) <| .pure trivial

theorem insertLeftU_leaves (h : Repr m c) (hr : HasRoom 1 0 m) (l : L) :
    Ends (insertLeftU l) m (fun _ _ => True) (Stops fun m' => ∃ d, (d = c ∨ d = eraseL c l) ∧ Repr m' d) S := by
  refine (((removeViaLeftU_follows l).ends (removeViaLeftU_same l)).mono (fun _ _ h => h)
    (I' := Stops fun m' => ∃ d, (d = c ∨ d = eraseL c l) ∧ Repr m' d) ?_).bind ?_
  · intro w m' e hw; rw [e hw]; exact ⟨c, .inl rfl, h⟩
  rintro o1 m1 ⟨e1, -⟩
  obtain ⟨m1', e1', h1, -⟩ := removeViaLeft_refines h l
  rw [e1'] at e1; cases e1
  have r1 := HasRoom.of_roomy (a := 1) (b := 0) hr (removeViaLeft_roomy e1')
  have i : Stops (fun m' => ∃ d, (d = c ∨ d = eraseL c l) ∧ Repr m' d) none m1 := fun _ => ⟨_, .inr rfl, h1⟩
  exact .user_bind i <| .get_bind <| RawTable.ends_grow_bind (fun e => no_rehash r1.1 e) <| .pure trivial

theorem swapLeftU_leaves (h : Repr m c) {a b : L} (ha : m.isLeftPaired a = false) (hr : m.containsLeft a = true → HasRoom 1 0 m) :
    Ends (swapLeftU a b) m (fun _ _ => True) (Stops fun m' => ∃ d, (d = c ∨ d = eraseL c b) ∧ Repr m' d) S := by
  have i : Stops (fun m' => ∃ d, (d = c ∨ d = eraseL c b) ∧ Repr m' d) none m := fun _ => ⟨c, .inl rfl, h⟩
  refine .user_bind i <| .get_bind <| Ends.bind (K := fun o m' => m.swapLeftEqCheck a b (m.hb.hl b) = .ok (o, m') ∧ True)
    ((swapLeftEqCheckU_follows a b _).ends <| .user_bind i <| .get_bind ?_) ?_
  · cases m.left.get (m.hb.hl b) (equivalentKey b) with
    | none => exact .pure trivial
    | some x =>
      refine .user_bind i ?_
      split
      · refine (removeViaLeftU_same b).mono (fun _ _ h => h) ?_
        intro w m' e hw; rw [e hw]; exact ⟨c, .inl rfl, h⟩
      · exact .pure trivial
  · rintro o1 m1 ⟨e1, -⟩
    have room : Roomy .room 0 0 m m1 := by
      simp only [swapLeftEqCheck] at e1
      split at e1
      · exact removeViaLeft_roomy e1
      · cases e1; exact .refl
    obtain ⟨m1', e1', h1, -⟩ := swapLeftEqCheck_refines h a b
    rw [e1'] at e1; cases e1
    have i1 : Stops (fun m' => ∃ d, (d = c ∨ d = eraseL c b) ∧ Repr m' d) none m1 :=
      fun _ => ⟨_, by split <;> simp, h1⟩
    refine .user_bind i1 <| .user_bind i1 <| .get_bind ?_
    have hp : m1.isLeftPaired a = false := by
      rw [isLeftPaired_refines h1]
      rw [isLeftPaired_refines h] at ha
      split
      · exact ha
      · rw [List.any_eq_false] at ha ⊢
        exact fun p hp => ha p (mem_eraseL.1 hp).1
    have hc : m1.containsLeft a = true → m.containsLeft a = true := by
      rw [containsLeft_refines h1, containsLeft_refines h]
      split
      · exact id
      · rw [List.any_eq_true, List.any_eq_true]
        exact fun ⟨p, hp, hh⟩ => ⟨p, (mem_eraseL.1 hp).1, hh⟩
    cases hg : m1.left.get (m1.hb.hl a) (equivalentKey a) with
    | none => simp only [hg]; exact .pure trivial
    | some lp =>
      have hn : lp.hash = none := by
        simp only [isLeftPaired, hg] at hp
        exact Option.isNone_iff_eq_none.1 (Option.isSome_eq_false_iff.1 hp)
      have hr1 := HasRoom.of_roomy (a := 1) (b := 0) (hr (hc (by simp only [containsLeft, hg]; rfl))) room
      simp only [hg, hn]
      refine .get_bind <| .user_bind i1 ?_
      split
      · exact .fail .fail
      · rename_i he
        have r2 := RawTable.Room.removeEntry (G := .room) he
        refine .set_bind <| RawTable.ends_grow_bind (fun e => no_rehash (by have := hr1.1; unfold RawTable.Room at r2; omega) e) ?_
        calm

theorem insertRightU_leaves (h : Repr m c) (hr : HasRoom 0 1 m) (r : R) :
    Ends (insertRightU r) m (fun _ _ => True) (Stops fun m' => ∃ d, (d = c ∨ d = eraseR c r) ∧ Repr m' d) S := by
  refine (((removeViaRightU_follows r).ends (removeViaRightU_same r)).mono (fun _ _ h => h)
    (I' := Stops fun m' => ∃ d, (d = c ∨ d = eraseR c r) ∧ Repr m' d) ?_).bind ?_
  · intro w m' e hw; rw [e hw]; exact ⟨c, .inl rfl, h⟩
  rintro o1 m1 ⟨e1, -⟩
  obtain ⟨m1', e1', h1, -⟩ := removeViaRight_refines h r
  rw [e1'] at e1; cases e1
  have r1 := HasRoom.of_roomy (a := 0) (b := 1) hr (removeViaRight_roomy e1')
  have i : Stops (fun m' => ∃ d, (d = c ∨ d = eraseR c r) ∧ Repr m' d) none m1 := fun _ => ⟨_, .inr rfl, h1⟩
  exact .user_bind i <| .get_bind <| RawTable.ends_grow_bind (fun e => no_rehash r1.2 e) <| .pure trivial

theorem swapRightU_leaves (h : Repr m c) {a b : R} (ha : m.isRightPaired a = false) (hr : m.containsRight a = true → HasRoom 0 1 m) :
    Ends (swapRightU a b) m (fun _ _ => True) (Stops fun m' => ∃ d, (d = c ∨ d = eraseR c b) ∧ Repr m' d) S := by
  have i : Stops (fun m' => ∃ d, (d = c ∨ d = eraseR c b) ∧ Repr m' d) none m := fun _ => ⟨c, .inl rfl, h⟩
  refine .user_bind i <| .get_bind <| Ends.bind (K := fun o m' => m.swapRightEqCheck a b (m.hb.hr b) = .ok (o, m') ∧ True)
    ((swapRightEqCheckU_follows a b _).ends <| .user_bind i <| .get_bind ?_) ?_
  · cases m.right.get (m.hb.hr b) (equivalentKey b) with
    | none => exact .pure trivial
    | some x =>
      refine .user_bind i ?_
      split
      · refine (removeViaRightU_same b).mono (fun _ _ h => h) ?_
        intro w m' e hw; rw [e hw]; exact ⟨c, .inl rfl, h⟩
      · exact .pure trivial
  · rintro o1 m1 ⟨e1, -⟩
    have room : Roomy .room 0 0 m m1 := by
      simp only [swapRightEqCheck] at e1
      split at e1
      · exact removeViaRight_roomy e1
      · cases e1; exact .refl
    obtain ⟨m1', e1', h1, -⟩ := swapRightEqCheck_refines h a b
    rw [e1'] at e1; cases e1
    have i1 : Stops (fun m' => ∃ d, (d = c ∨ d = eraseR c b) ∧ Repr m' d) none m1 :=
      fun _ => ⟨_, by split <;> simp, h1⟩
    refine .user_bind i1 <| .user_bind i1 <| .get_bind ?_
    have hp : m1.isRightPaired a = false := by
      rw [isRightPaired_refines h1]
      rw [isRightPaired_refines h] at ha
      split
      · exact ha
      · rw [List.any_eq_false] at ha ⊢
        exact fun p hp => ha p (mem_eraseR.1 hp).1
    have hc : m1.containsRight a = true → m.containsRight a = true := by
      rw [containsRight_refines h1, containsRight_refines h]
      split
      · exact id
      · rw [List.any_eq_true, List.any_eq_true]
        exact fun ⟨p, hp, hh⟩ => ⟨p, (mem_eraseR.1 hp).1, hh⟩
    cases hg : m1.right.get (m1.hb.hr a) (equivalentKey a) with
    | none => simp only [hg]; exact .pure trivial
    | some lp =>
      have hn : lp.hash = none := by
        simp only [isRightPaired, hg] at hp
        exact Option.isNone_iff_eq_none.1 (Option.isSome_eq_false_iff.1 hp)
      have hr1 := HasRoom.of_roomy (a := 0) (b := 1) (hr (hc (by simp only [containsRight, hg]; rfl))) room
      simp only [hg, hn]
      refine .get_bind <| .user_bind i1 ?_
      split
      · exact .fail .fail
      · rename_i he
        have r2 := RawTable.Room.removeEntry (G := .room) he
        refine .set_bind <| RawTable.ends_grow_bind (fun e => no_rehash (by have := hr1.2; unfold RawTable.Room at r2; omega) e) ?_
        calm

/-- adding one entry, with panics -/
theorem extendU_step {x : OptionalPair L R} {xs : List (OptionalPair L R)} {α : Type} {y : Unw (PartialMap L R) α}
    {z : Unw (PartialMap L R) Unit} {r : Res (α × PartialMap L R)} (hf : Follows y m r)
    (hy : Ends y m (fun _ _ => True) (Stops fun m' => ∃ d, LeavesEntry c x d ∧ Repr m' d) S)
    (hz : ∀ o m1, r = .ok (o, m1) → Ends z m1 (fun _ _ => True)
      (Stops fun m' => ∃ d, LeavesExtend (insertEntry c x) xs d ∧ Repr m' d) S) :
    Ends (do let _ ← y; z) m (fun _ _ => True) (Stops fun m' => ∃ d, LeavesExtend c (x :: xs) d ∧ Repr m' d) S := by
  refine ((hf.ends hy).mono (fun _ _ h => h)
    (I' := Stops fun m' => ∃ d, LeavesExtend c (x :: xs) d ∧ Repr m' d) ?_).bind ?_
  · intro w m' e hw
    obtain ⟨d, h1, h2⟩ := e hw
    exact ⟨d, .inr ⟨[], x, xs, rfl, h1⟩, h2⟩
  · rintro o m1 ⟨e, -⟩
    refine (hz o m1 e).mono (fun _ _ h => h) ?_
    intro w m' e hw
    obtain ⟨d, h2, h3⟩ := e hw
    refine ⟨d, ?_, h3⟩
    rcases h2 with rfl | ⟨ys, y, zs, rfl, h2⟩
    · exact .inl rfl
    · exact .inr ⟨x :: ys, y, zs, rfl, h2⟩

theorem LeavesEntry.refl (x : OptionalPair L R) : LeavesEntry c x c := by
  cases x
  · exact rfl
  · exact .inl rfl
  · exact .inl rfl
  · exact .inl rfl

theorem extendPairsU_leaves (h : Repr m c) (xs : List (L × R)) (hr : HasRoom xs.length xs.length m) :
    Ends (extendPairsU xs) m (fun _ _ => True)
      (Stops fun m' => ∃ d, LeavesExtend c (xs.map fun p => someBoth p.1 p.2) d ∧ Repr m' d) S := by
  induction xs generalizing m c with
  | nil =>
    refine (Ends.user ?_).mono (fun _ _ _ => trivial) fun _ _ h => h
    exact fun _ => ⟨c, .inl rfl, h⟩
  | cons x xs ih =>
    refine .user_bind (fun _ => ⟨c, .inr ⟨[], _, _, rfl, .refl _⟩, h⟩) ?_
    refine extendU_step (insertU_follows x.1 x.2)
      (insertU_leaves h ⟨by have := hr.1; simp at this; omega, by have := hr.2; simp at this; omega⟩ x.1 x.2) ?_
    intro o m1 e
    obtain ⟨m1', e', h1, -⟩ := insert_refines h x.1 x.2
    rw [e'] at e; cases e
    exact ih h1 (HasRoom.of_roomy (x := 1) (y := 1) hr (insert_roomy e'))

theorem extendU_leaves (h : Repr m c) (xs : List (OptionalPair L R)) (hr : HasRoom (leftsIn xs) (rightsIn xs) m) :
    Ends (extendU xs) m (fun _ _ => True) (Stops fun m' => ∃ d, LeavesExtend c xs d ∧ Repr m' d) S := by
  induction xs generalizing m c with
  | nil =>
    refine (Ends.user ?_).mono (fun _ _ _ => trivial) fun _ _ h => h
    exact fun _ => ⟨c, .inl rfl, h⟩
  | cons x xs ih =>
    have i : Stops (fun m' => ∃ d, LeavesExtend c (x :: xs) d ∧ Repr m' d) none m :=
      fun _ => ⟨c, .inr ⟨[], _, _, rfl, .refl _⟩, h⟩
    obtain ⟨ra, rb⟩ := hr
    cases x with
    | neither =>
      simp only [leftsIn, rightsIn, List.countP_cons, toPair] at ra rb
      refine .user_bind i ((ih h ⟨by simpa [leftsIn, toPair] using ra, by simpa [rightsIn, toPair] using rb⟩).mono (fun _ _ h => h) ?_)
      intro w m' e hw
      obtain ⟨d, h2, h3⟩ := e hw
      refine ⟨d, ?_, h3⟩
      rcases h2 with rfl | ⟨ys, y, zs, rfl, h2⟩
      · exact .inl rfl
      · exact .inr ⟨neither :: ys, y, zs, rfl, h2⟩
    | someLeft l =>
      simp only [leftsIn, rightsIn, List.countP_cons, toPair] at ra rb
      refine .user_bind i (extendU_step (insertLeftU_follows l) (insertLeftU_leaves h ⟨by simp at ra; omega, by omega⟩ l) ?_)
      intro o m1 e
      obtain ⟨m1', e', h1, -⟩ := insertLeft_refines h l
      rw [e'] at e; cases e
      exact ih h1 (HasRoom.of_roomy (x := 1) (y := 0) ⟨by simpa [leftsIn, toPair] using ra, by simpa [rightsIn, toPair] using rb⟩ (insertLeft_roomy e'))
    | someRight r =>
      simp only [leftsIn, rightsIn, List.countP_cons, toPair] at ra rb
      refine .user_bind i (extendU_step (insertRightU_follows r) (insertRightU_leaves h ⟨by omega, by simp at rb; omega⟩ r) ?_)
      intro o m1 e
      obtain ⟨m1', e', h1, -⟩ := insertRight_refines h r
      rw [e'] at e; cases e
      exact ih h1 (HasRoom.of_roomy (x := 0) (y := 1) ⟨by simpa [leftsIn, toPair] using ra, by simpa [rightsIn, toPair] using rb⟩ (insertRight_roomy e'))
    | someBoth l r =>
      simp only [leftsIn, rightsIn, List.countP_cons, toPair] at ra rb
      refine .user_bind i (extendU_step (insertU_follows l r) (insertU_leaves h ⟨by simp at ra; omega, by simp at rb; omega⟩ l r) ?_)
      intro o m1 e
      obtain ⟨m1', e', h1, -⟩ := insert_refines h l r
      rw [e'] at e; cases e
      exact ih h1 (HasRoom.of_roomy (x := 1) (y := 1) ⟨by simpa [leftsIn, toPair] using ra, by simpa [rightsIn, toPair] using rb⟩ (insert_roomy e'))

theorem stops_map {β : Type} {x : Unw (PartialMap L R) β} {g : β → Out L R} {P : PartialMap L R → Prop}
    (h : Ends x m (fun _ _ => True) (Stops P) S) : Ends (do return g (← x)) m (fun _ _ => True) (Stops P) S := Same.map h

/-- a call interrupted by the items' own code leaves a valid map -/
theorem execU_leaves (h : Repr m c) (op : Op L R) (s : Option (List Bool)) (hs : Smooth m s op) :
    Ends (execU op) m (fun _ _ => True) (Stops fun m' => ∃ d, Leaves c op d ∧ Repr m' d) (· = s) := by
  have i : Stops (fun m' => ∃ d, d = c ∧ Repr m' d) none m := fun _ => ⟨_, rfl, h⟩
  have same : ∀ {α : Type} {x : Unw (PartialMap L R) α}, Same x m (· = s) →
      Ends x m (fun _ _ => True) (Stops fun m' => ∃ d, d = c ∧ Repr m' d) (· = s) :=
    fun hx => hx.mono (fun _ _ h => h) fun w m' e hw => by rw [e hw]; exact ⟨_, rfl, h⟩
  have look : ∀ {g : PartialMap L R → Out L R}, Ends (do user; user; return g (← get)) m (fun _ _ => True)
      (Stops fun m' => ∃ d, d = c ∧ Repr m' d) (· = s) :=
    .user_bind i <| .user_bind i <| .get_bind <| .pure trivial
  cases op
  case insert l r => exact stops_map (insertU_leaves h hs l r)
  case insertLeft l => exact stops_map (insertLeftU_leaves h hs l)
  case insertRight r => exact stops_map (insertRightU_leaves h hs r)
  case pair l r => exact stops_map (same (pairU_same l r))
  case pairForced l r => exact stops_map (same (pairForcedU_same l r))
  case pairForcedRemove l r => exact stops_map (same (pairForcedRemoveU_same l r))
  case unpair l r => exact stops_map (same (unpairU_same l r))
  case remove l r => exact stops_map (same (removeU_same l r))
  case removeViaLeft l => exact stops_map (same (removeViaLeftU_same l))
  case removeViaRight r => exact stops_map (same (removeViaRightU_same r))
  case removeLeft l => exact stops_map (same (removeLeftU_same l))
  case removeRight r => exact stops_map (same (removeRightU_same r))
  case swapLeft a b => exact stops_map (swapLeftU_leaves h hs.1 hs.2)
  case swapRight a b => exact stops_map (swapRightU_leaves h hs.1 hs.2)
  case swapLeftChecked a e b =>
    refine stops_map (same ?_)
    refine ((arePairedU_follows a e).ends (arePairedU_same a e)).bind ?_
    rintro _ m' ⟨⟨⟩, -⟩
    rw [show m.arePaired a e = false from hs]
    exact .pure trivial
  case swapRightChecked a e b =>
    refine stops_map (same ?_)
    refine ((arePairedU_follows e a).ends (arePairedU_same e a)).bind ?_
    rintro _ m' ⟨⟨⟩, -⟩
    rw [show m.arePaired e a = false from hs]
    exact .pure trivial
  case swapLeftOrInsert a b r =>
    have j : Stops (fun m' => ∃ d, LeavesInsert c b r d ∧ Repr m' d) none m := fun _ => ⟨_, .inl rfl, h⟩
    refine stops_map <| .user_bind j <| .user_bind j <| .get_bind ?_
    split
    · refine (swapLeftU_leaves h hs.1 fun _ => ⟨hs.2.1, Nat.zero_le _⟩).mono (fun _ _ h => h) ?_
      intro w m' e hw
      obtain ⟨d, h1 | h1, h2⟩ := e hw
      · exact ⟨d, .inl h1, h2⟩
      · exact ⟨d, .inr (.inl h1), h2⟩
    · refine (insertU_leaves h hs.2 b r).bind fun o m' _ => ?_
      calm
  case swapRightOrInsert a b l =>
    have j : Stops (fun m' => ∃ d, (LeavesInsert c l b d ∨ d = eraseR c b) ∧ Repr m' d) none m := fun _ => ⟨_, .inl (.inl rfl), h⟩
    refine stops_map <| .user_bind j <| .user_bind j <| .get_bind ?_
    split
    · refine (swapRightU_leaves h hs.1 fun _ => ⟨Nat.zero_le _, hs.2.2⟩).mono (fun _ _ h => h) ?_
      intro w m' e hw
      obtain ⟨d, h1 | h1, h2⟩ := e hw
      · exact ⟨d, .inl (.inl h1), h2⟩
      · exact ⟨d, .inr h1, h2⟩
    · refine ((insertU_leaves h hs.2 l b).mono (fun _ _ h => h) ?_).bind fun o m' _ => ?_
      · intro w m' e hw
        obtain ⟨d, h1, h2⟩ := e hw
        exact ⟨d, .inl h1, h2⟩
      · calm
  case getLeft => exact look
  case getRight => exact look
  case containsLeft => exact look
  case containsRight => exact look
  case isLeftPaired => exact look
  case isRightPaired => exact look
  case arePaired l r => exact stops_map (same (arePairedU_same l r))
  case lenLeft => exact .get_bind <| .pure trivial
  case lenRight => exact .get_bind <| .pure trivial
  case isEmpty => exact .get_bind <| .pure trivial
  case clear => exact .get_bind <| .set_bind <| .pure trivial
  case iter => exact .get_bind <| stops_map <| same <| (collectU_same _).mono (fun _ _ _ => trivial) fun _ _ h => h
  case iterPaired =>
    exact .get_bind <| stops_map <| same <| (collectPairedU_same _).mono (fun _ _ _ => trivial) fun _ _ h => h
  case iterUnpaired => exact .get_bind <| .pure trivial
  case iterLeft => exact .get_bind <| .pure trivial
  case iterRight => exact .get_bind <| .pure trivial
  case drain n => exact stops_map (drainU_stops n)
  case drainFilter σ f s n => exact stops_map (drainFilterU_stops f s n)
  case retain σ f s => exact (same (retainU_same (sure f) s)).bind fun _ _ _ => .pure trivial
  case retainPaired σ f s => exact (same (retainPairedU_same (sure₂ f) s)).bind fun _ _ _ => .pure trivial
  case retainUnpaired σ f s => exact (same (retainUnpairedU_same (sure f) s)).bind fun _ _ _ => .pure trivial
  case extendPairs xs => exact (extendPairsU_leaves h xs hs).bind fun _ _ _ => .pure trivial
  case extend xs => exact (extendU_leaves h xs hs).bind fun _ _ _ => .pure trivial
  case reserveLeft n =>
    subst hs
    exact Ends.bind (K := fun _ _ => True) (.get_bind <| (RawTable.ends_grow (fun _ s e => by subst e; exact i)).mono
      (fun _ _ _ => trivial) fun _ _ h => h) fun _ _ _ => .pure trivial
  case reserveRight n =>
    subst hs
    exact Ends.bind (K := fun _ _ => True) (.get_bind <| (RawTable.ends_grow (fun _ s e => by subst e; exact i)).mono
      (fun _ _ _ => trivial) fun _ _ h => h) fun _ _ _ => .pure trivial
  case tryReserveLeft n a =>
    cases hs
    cases a
    · exact .pure trivial
    · exact Ends.bind (K := fun _ _ => True) (.get_bind <| (RawTable.ends_grow (fun _ s e => by subst e; exact i)).mono
        (fun _ _ _ => trivial) fun _ _ h => h) fun _ _ _ => .pure trivial
  case tryReserveRight n a =>
    cases hs
    cases a
    · exact .pure trivial
    · exact Ends.bind (K := fun _ _ => True) (.get_bind <| (RawTable.ends_grow (fun _ s e => by subst e; exact i)).mono
        (fun _ _ _ => trivial) fun _ _ h => h) fun _ _ _ => .pure trivial
  case shrinkToLeft n =>
    exact Ends.bind (K := fun _ _ => True) (.get_bind <| (RawTable.ends_grow (fun _ s e => i)).mono
      (fun _ _ _ => trivial) fun _ _ h => h) fun _ _ _ => .pure trivial
  case shrinkToRight n =>
    exact Ends.bind (K := fun _ _ => True) (.get_bind <| (RawTable.ends_grow (fun _ s e => i)).mono
      (fun _ _ _ => trivial) fun _ _ h => h) fun _ _ _ => .pure trivial
  case shrinkToFit =>
    refine Ends.bind (K := fun _ _ => True) (.get_bind <| RawTable.ends_grow_bind (fun _ s e => i) <| .get_bind <|
      (RawTable.ends_grow (fun _ s e => ?_)).mono (fun _ _ _ => trivial) fun _ _ h => h) fun _ _ _ => .pure trivial
    exact fun _ => ⟨_, rfl, h.of_tables (RawTable.shrinkTo_perm _ _ h.hashesL) (.refl _)⟩
  case clone => exact .user_bind i <| .get_bind <| .set_bind <| .pure trivial

end
end Verif.PartialMap
