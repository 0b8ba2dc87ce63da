import Verif.GroupMap.UnwindFollows
import Verif.GroupMap.Simulation
import Verif.GroupMap.Room
/-! What a call on a valid `GroupMap` leaves when the items' own code panics. -/
set_option linter.unusedSectionVars false
set_option linter.unusedSimpArgs false
namespace Verif.GroupMap
open GroupSpec Unw

variable [RawImpl] {L R : Type} [BEq L] [BEq R]

/-- the tables take `a` more left and `b` more right elements as they are -/
def HasRoom (a b : Nat) (m : GroupMap L R) : Prop := a ≤ RawImpl.growthLeft m.left ∧ b ≤ RawImpl.growthLeft m.right

/-- `r` has at most one left item, or is not there -/
def Small (c : Contents L R) (r : R) : Prop := (group c r).length ≤ 1

/-- no right item that is replaced when its turn comes has several left items -/
def SmallAll (c : Contents L R) : List (Option L × R) → Prop
  | [] => True
  | (some l, r) :: xs => SmallAll (GroupSpec.insert c l r) xs
  | (none, r) :: xs => Small c r ∧ SmallAll (GroupSpec.insertRight c r).2 xs

/-- what an interrupted `extend` may leave: the contents after some of the items, perhaps without the right item that
was to be replaced -/
def LeavesExtend (c : Contents L R) (xs : List (Option L × R)) (d : Contents L R) : Prop :=
  ∃ ys zs, xs = ys ++ zs ∧
    (d = insertAll c ys ∨ ∃ r zs', zs = (none, r) :: zs' ∧ d = eraseR (insertAll c ys) r)

/-- the contents `d` an interrupted call may leave, of the contents `c` -/
def Leaves (c : Contents L R) : Op L R → Contents L R → Prop
  | .insertRemove l r, d => d = c ∨ d = eraseL c l ∨ d = eraseR (eraseL c l) r
  | .insertRight r, d => d = c ∨ d = eraseR c r
  | .swapRight old new, d => d = c ∨ findR c old = none ∧ d = eraseR c new
  | .swapRightRemove old new, d => d = c ∨ d = if (findR c old).isSome then eraseR c old else eraseR c new
  | .remove _ r, d => d = c ∨ d = eraseR c r
  | .removeRight r, d => d = c ∨ d = eraseR c r
  | .extend xs, d => LeavesExtend c (xs.map fun p => (some p.1, p.2)) d
  | .extendOpt xs, d => LeavesExtend c xs d
  | _, d => d = c

/-- calls that may be interrupted: insertions need room in the tables, a right item that is removed must not have
several left items, one that is swapped none, and there must be nothing to move for `insert_left` and `pair` -/
def Smooth (m : GroupMap L R) (c : Contents L R) : Op L R → Prop
  | .insert _ _ => HasRoom 1 1 m
  | .insertRemove l r => HasRoom 1 1 m ∧ Small (eraseL c l) r
  | .insertLeft _ r => findR c r = none
  | .insertRight r => HasRoom 0 1 m ∧ Small c r
  | .swapRight old new => HasRoom 0 1 m ∧ (findR c old = none ∧ Small c new ∨ (findR c old).isSome ∧ hasGroup c old = false)
  | .swapRightRemove old new => HasRoom 0 1 m ∧ (findR c old = none ∧ Small c new ∨ (findR c old).isSome ∧ hasGroup c old = false)
  | .pair l r => findL c l = none ∨ findR c r = none
  | .remove l r => hasPair c l r = false ∨ Small c r
  | .removeRight r => Small c r
  | .extend xs => NewPairs c (xs.map fun p => (some p.1, p.2)) ∧ HasRoom xs.length xs.length m
  | .extendOpt xs => NewPairs c xs ∧ SmallAll c xs ∧ HasRoom xs.length xs.length m
  | _ => True

/-- `P` holds of the map if the items' own code (or the closure) panicked -/
def Stops (P : GroupMap L R → Prop) (why : Option Panic) (m : GroupMap L R) : Prop := why = none → P m

variable {m m' : GroupMap L R} {c : Contents L R} {S : Option (List Bool) → Prop}

/-- the map is as it was -/
abbrev Same {α : Type} (x : Unw (GroupMap L R) α) (m : GroupMap L R) (S : Option (List Bool) → Prop := fun _ => True) : Prop :=
  Ends x m (fun _ _ => True) (Stops (· = m)) S

theorem Stops.fail {P : GroupMap L R → Prop} {p : Panic} : Stops P (some p) m := by intro h; cases h

theorem stops_map {α β : Type} {x : Unw (GroupMap L R) α} {g : α → β} {I} (h : Ends x m (fun _ _ => True) I S) :
    Ends (do return g (← x)) m (fun _ _ => True) I S :=
  Ends.bind h fun _ _ _ => Ends.pure trivial

theorem stops_void {α β : Type} {x : Unw (GroupMap L R) α} {b : β} {I} (h : Ends x m (fun _ _ => True) I S) :
    Ends (do let _ ← x; return b) m (fun _ _ => True) I S :=
  Ends.bind h fun _ _ _ => Ends.pure trivial

theorem arePairedU_same (l : L) (r : R) : Same (arePairedU l r) m S := by
  have i : Stops (· = m) none m := fun _ => rfl
  exact .user_bind i <| .user_bind i <| .user_bind i <| .user_bind i <| .get_bind <| .pure trivial

theorem removeLeftU_same (l : L) : Same (removeLeftU l) m S := by
  have i : Stops (· = m) none m := fun _ => rfl
  refine .user_bind i <| .user_bind i <| .get_bind ?_
  simp only
  split
  · exact .pure trivial
  · refine .set_bind ?_
    split
    · exact .fail .fail
    · exact .set_bind (.pure trivial)

theorem removeAllU_stops {P : GroupMap L R → Prop} (ks : List (UInt64 × Nat)) :
    Ends (removeAllU false ks) m (fun _ _ => True) (Stops P) S := by
  induction ks generalizing m with
  | nil => exact .pure trivial
  | cons k ks ih =>
    refine .get_bind ?_
    split
    · exact .fail .fail
    · exact .set_bind <| stops_map ih

theorem removeViaHashAndIdU_stops {P : GroupMap L R → Prop} (a : UInt64) (i : Nat) :
    Ends (removeViaHashAndIdU a i) m (fun _ _ => True) (Stops P) S := by
  refine .get_bind ?_
  split
  · exact .pure trivial
  · exact .set_bind <| (removeAllU_stops _).bind fun _ _ _ => .pure trivial

theorem rehashAllU_stops {P : GroupMap L R → Prop} (a : UInt64) (ks : List (UInt64 × Nat)) :
    Ends (rehashAllU a ks) m (fun _ _ => True) (Stops P) S := by
  induction ks generalizing m with
  | nil => exact .pure trivial
  | cons k ks ih =>
    refine .get_bind ?_
    split
    · exact .fail .fail
    · exact .set_bind ih

theorem quiet_stops {α : Type} {P : GroupMap L R → Prop} (r : GroupMap L R → Res α) :
    Ends (quiet r) m (fun _ _ => True) (Stops P) S := by
  refine .get_bind ?_
  cases r m
  · exact .fail .fail
  · exact .pure trivial

theorem retainPairedScanU_same {σ : Type} (f : σ → L → R → Option Bool × σ) (ls : List (LeftItem L)) (st : σ) :
    Ends (retainPairedScanU f ls st) m (fun _ m' => m' = m) (Stops (· = m)) S := by
  induction ls generalizing st with
  | nil => exact .pure rfl
  | cons l ls ih =>
    refine .get_bind ?_
    cases m.right.get l.hash (rightWithRightId l.rid) with
    | none => exact .fail .fail
    | some r =>
      simp only
      cases h2 : f st l.value r.value with
      | mk o st' =>
        cases o with
        | none => exact fun _ _ _ => rfl
        | some o =>
          cases o
          · exact ih st'
          · refine .user_bind (fun _ => rfl) <| .user_bind (fun _ => rfl) ?_
            split
            · exact .fail .fail
            · refine (ih st').bind ?_
              rintro ps _ rfl
              exact .pure rfl

theorem retainPairedU_same {σ : Type} (f : σ → L → R → Option Bool × σ) (st : σ) : Same (retainPairedU f st) m S := by
  refine .get_bind <| (retainPairedScanU_same f _ st).bind ?_
  rintro ks _ rfl
  intro _ _
  exact ⟨rfl, trivial⟩

theorem retainUnpairedScanU_same {σ : Type} (f : σ → R → Option Bool × σ) (ls : List R) (st : σ) :
    Ends (retainUnpairedScanU f ls st) m (fun _ m' => m' = m) (Stops (· = m)) S := by
  induction ls generalizing st with
  | nil => exact .pure rfl
  | cons r ls ih =>
    simp only [retainUnpairedScanU]
    cases h2 : f st r with
    | mk o st' =>
      cases o with
      | none => exact fun _ _ _ => rfl
      | some o =>
        cases o
        · exact ih st'
        · refine .user_bind (fun _ => rfl) <| .user_bind (fun _ => rfl) <| .get_bind ?_
          split
          · exact .fail .fail
          · refine (ih st').bind ?_
            rintro ps _ rfl
            exact .pure rfl

theorem retainUnpairedDropU_stops {P : GroupMap L R → Prop} (ks : List (UInt64 × Nat)) :
    Ends (retainUnpairedDropU ks) m (fun _ _ => True) (Stops P) S := by
  induction ks generalizing m with
  | nil => exact .pure trivial
  | cons k ks ih => exact (removeViaHashAndIdU_stops _ _).bind fun _ _ _ => ih

theorem retainUnpairedU_same {σ : Type} (f : σ → R → Option Bool × σ) (st : σ) : Same (retainUnpairedU f st) m S := by
  refine .get_bind <| (retainUnpairedScanU_same f _ st).bind ?_
  rintro ks _ rfl
  exact retainUnpairedDropU_stops ks

section
variable [LawfulRaw] [LawfulCap] [EquivBEq L] [EquivBEq R]

theorem HasRoom.of_roomy {a b k n} (h : HasRoom (n + a) (k + b) m) (hr : Roomy .room a b m m') : HasRoom n k m' :=
  ⟨by have := h.1; have := hr.1; unfold RawTable.Room at *; omega, by have := h.2; have := hr.2; unfold RawTable.Room at *; omega⟩

theorem no_rehash {T : Type} {t : RawTable T} {h : UInt64} {P : Prop} (hr : 1 ≤ RawImpl.growthLeft t)
    (e : RawImpl.rehashes (.insert h) t = true) : P := by
  rw [LawfulCap.stay t h hr] at e; cases e

/-- the number of left items of a right item -/
theorem group_length {ls : List (LRec L R)} {rs : List (RRec R)} {y : RRec R} {r : R} (h : Rep m ls (y :: rs))
    (ha : Abs ls (y :: rs) c) (hr : (r == y.r) = true) : y.pairs.entries.length = (group c r).length := by
  have h1 := (ha.group_some h.wf List.mem_cons_self hr).length_eq
  have h2 := (h.wf.pairs y List.mem_cons_self).length_eq
  simp at h1 h2
  omega

/-- a right item with at most one left item: when the items' code panics it is there, or completely gone -/
theorem removeRightU_small (h : Repr m c) (r : R) (hr : Small c r) :
    Ends (removeRightU r) m (fun _ _ => True) (Stops fun m' => m' = m ∨ ∃ o, m.removeRight r = .ok (o, m')) S := by
  have i : Stops (fun m' => m' = m ∨ ∃ o, m.removeRight r = .ok (o, m')) none m := fun _ => .inl rfl
  refine .user_bind i <| .user_bind i <| .get_bind ?_
  obtain ⟨ls, rs, h, hf, ha⟩ := h
  rcases h.wf.casesR r with hn | ⟨y, rs', hq, he, hn⟩
  · rw [RawTable.removeEntry_none (h.noneR (keysR hn))]
    exact .pure trivial
  have h := h.perm (.refl _) hq
  have ha := ha.perm (.refl _) hq
  obtain ⟨t, e, p⟩ := removeR_eq h.consR he hn
  have hlen := group_length h ha he
  simp only [e, toR]
  refine .set_bind ?_
  unfold Small at hr
  cases hp : y.pairs.entries with
  | nil => exact Ends.bind (K := fun _ _ => True) (.pure trivial) fun _ _ _ => .pure trivial
  | cons k ks =>
    have : ks = [] := by
      rw [hp] at hlen
      cases ks
      · rfl
      · simp at hlen; omega
    subst this
    refine Ends.bind (K := fun _ _ => True) (.get_bind ?_) fun _ _ _ => .pure trivial
    simp only
    cases h3 : m.left.removeEntry k.1 (leftWithLeftId k.2) with
    | none => exact .fail .fail
    | some x =>
      obtain ⟨l, t'⟩ := x
      refine .set_bind ?_
      have j : Stops (fun m' => m' = m ∨ ∃ o, m.removeRight r = .ok (o, m')) none { m with left := t', right := t } := by
        refine fun _ => .inr ⟨some (collectSet [l.value], y.r), ?_⟩
        simp only [removeRight, e, toR, hp, removeAll, h3, bind, Except.bind, pure, Except.pure]
      exact .user_bind j <| .user_bind j <| Ends.bind (K := fun _ _ => True) (.pure trivial) fun _ _ _ => .pure trivial

theorem removeRightU_leaves (h : Repr m c) (r : R) (hr : Small c r) :
    Ends (removeRightU r) m (fun _ _ => True) (Stops fun m' => ∃ d, (d = c ∨ d = eraseR c r) ∧ Repr m' d) S := by
  refine (removeRightU_small h r hr).mono (fun _ _ h => h) fun w m' e hw => ?_
  rcases e hw with rfl | ⟨o, e⟩
  · exact ⟨c, .inl rfl, h⟩
  · obtain ⟨o', m1, e1, -, h1, -⟩ := removeRight_refines h r
    rw [e1] at e; cases e
    exact ⟨_, .inr rfl, h1⟩

theorem insertU_same (hr : HasRoom 1 1 m) (l : L) (r : R) : Same (insertU l r) m S := by
  have i : Stops (· = m) none m := fun _ => rfl
  refine .user_bind i <| .user_bind i <| .user_bind i <| .user_bind i <| .get_bind ?_
  simp only
  cases e1 : m.left.getMut (m.hb.hl l) (equivalentKeyLeft l) with
  | none =>
    cases e2 : m.right.getMut (m.hb.hr r) (equivalentKeyRight r) with
    | none =>
      refine RawTable.ends_grow_bind (fun e => no_rehash hr.1 e) <| .get_bind <|
        RawTable.ends_grow_bind (fun e => no_rehash hr.2 e) <| .get_bind ?_
      exact fun _ _ => ⟨rfl, trivial⟩
    | some x =>
      refine .set_bind <| RawTable.ends_grow_bind (fun e => no_rehash hr.1 e) <| .get_bind ?_
      exact fun _ _ => ⟨rfl, trivial⟩
  | some y =>
    cases e2 : m.right.getMut (m.hb.hr r) (equivalentKeyRight r) with
    | none =>
      simp only
      split
      · exact .fail .fail
      · rename_i x w e3
        refine .set_bind <| RawTable.ends_grow_bind (fun e => no_rehash ?_ e) <| .get_bind ?_
        · have h1 := RawTable.Room.getMut (G := .room) e3 { x with pairs := x.pairs.remove (m.hb.hl l, y.1.id) }
          have h2 := hr.2
          unfold RawTable.Room at h1
          omega
        · exact fun _ _ => ⟨rfl, trivial⟩
    | some x =>
      refine .set_bind ?_
      split
      · exact .fail .fail
      · exact fun _ _ => ⟨rfl, trivial⟩

theorem insertRightU_leaves (h : Repr m c) (r : R) (hr : HasRoom 0 1 m) (hg : Small c r) :
    Ends (insertRightU r) m (fun _ _ => True) (Stops fun m' => ∃ d, (d = c ∨ d = eraseR c r) ∧ Repr m' d) S := by
  refine ((removeRightU_follows r).ends (removeRightU_leaves h r hg)).bind ?_
  rintro o1 m1 ⟨e1, -⟩
  obtain ⟨o', m1', e1', -, h1, -⟩ := removeRight_refines h r
  rw [e1'] at e1; cases e1
  have r1 := HasRoom.of_roomy (n := 0) (k := 1) hr (removeRight_roomy e1')
  exact .user_bind (fun _ => ⟨_, .inr rfl, h1⟩) <| .get_bind <| RawTable.ends_grow_bind (fun e => no_rehash r1.2 e) <|
    .pure trivial

theorem insertRemoveU_leaves (h : Repr m c) (l : L) (r : R) (hr : HasRoom 1 1 m) (hg : Small (eraseL c l) r) :
    Ends (insertRemoveU l r) m (fun _ _ => True)
      (Stops fun m' => ∃ d, (d = c ∨ d = eraseL c l ∨ d = eraseR (eraseL c l) r) ∧ Repr m' d) S := by
  refine (((removeLeftU_follows l).ends (removeLeftU_same l)).mono (fun _ _ h => h)
    (I' := Stops fun m' => ∃ d, (d = c ∨ d = eraseL c l ∨ d = eraseR (eraseL c l) r) ∧ Repr m' d) ?_).bind ?_
  · intro w m' e hw; rw [e hw]; exact ⟨c, .inl rfl, h⟩
  rintro o1 m1 ⟨e1, -⟩
  obtain ⟨m1', e1', h1, -⟩ := removeLeft_refines h l
  rw [e1'] at e1; cases e1
  have r1 := HasRoom.of_roomy (n := 1) (k := 1) hr (removeLeft_roomy e1')
  refine (((removeRightU_follows r).ends (removeRightU_leaves h1 r hg)).mono (fun _ _ h => h)
    (I' := Stops fun m' => ∃ d, (d = c ∨ d = eraseL c l ∨ d = eraseR (eraseL c l) r) ∧ Repr m' d) ?_).bind ?_
  · intro w m' e hw
    obtain ⟨d, h2, h3⟩ := e hw
    exact ⟨d, .inr h2, h3⟩
  rintro o2 m2 ⟨e2, -⟩
  obtain ⟨o', m2', e2', -, h2, -⟩ := removeRight_refines h1 r
  rw [e2'] at e2; cases e2
  have r2 := HasRoom.of_roomy (n := 1) (k := 1) r1 (removeRight_roomy e2')
  have i : Stops (fun m' => ∃ d, (d = c ∨ d = eraseL c l ∨ d = eraseR (eraseL c l) r) ∧ Repr m' d) none m2 :=
    fun _ => ⟨_, .inr (.inr rfl), h2⟩
  exact .user_bind i <| .user_bind i <| .get_bind <| RawTable.ends_grow_bind (fun e => no_rehash r2.1 e) <| .get_bind <|
    RawTable.ends_grow_bind (fun e => no_rehash r2.2 e) <| .pure trivial

theorem insertLeftU_same (h : Repr m c) (l : L) (r : R) (hr : findR c r = none) : Same (insertLeftU l r) m S := by
  have i : Stops (· = m) none m := fun _ => rfl
  refine .user_bind i <| .user_bind i <| .get_bind ?_
  have : m.right.getMut (m.hb.hr r) (equivalentKeyRight r) = none := by
    obtain ⟨ls, rs, h, hf, ha⟩ := h
    refine RawTable.getMut_none (h.noneR (keysR fun y hy => ?_))
    rw [findR, List.find?_eq_none] at hr
    simpa using hr y.r (ha.rights.mem_iff.2 (List.mem_map.2 ⟨y, hy, rfl⟩))
  simp only [this]
  exact .pure trivial

theorem pairU_same (h : Repr m c) (l : L) (r : R) (hs : findL c l = none ∨ findR c r = none) : Same (pairU l r) m S := by
  have i : Stops (· = m) none m := fun _ => rfl
  refine .user_bind i <| .user_bind i <| .user_bind i <| .user_bind i <| .get_bind ?_
  obtain ⟨ls, rs, h, hf, ha⟩ := h
  rcases hs with hs | hs
  · have : m.left.getMut (m.hb.hl l) (equivalentKeyLeft l) = none := by
      refine RawTable.getMut_none (h.noneL (keysL fun y hy => ?_))
      rw [findL, List.find?_eq_none] at hs
      simpa using hs _ (ha.pairs.mem_iff.2 (List.mem_map.2 ⟨y, hy, rfl⟩))
    simp only [this]
    exact .pure trivial
  · have : m.right.get (m.hb.hr r) (equivalentKeyRight r) = none := by
      refine RawTable.get_none (h.noneR (keysR fun y hy => ?_))
      rw [findR, List.find?_eq_none] at hs
      simpa using hs y.r (ha.rights.mem_iff.2 (List.mem_map.2 ⟨y, hy, rfl⟩))
    simp only [this]
    cases m.left.getMut (m.hb.hl l) (equivalentKeyLeft l) <;> exact .pure trivial


theorem absentR (h : Repr m c) {r : R} (hr : findR c r = none) : ∀ e ∈ m.right.entries, equivalentKeyRight r e.2 = false := by
  obtain ⟨ls, rs, h, hf, ha⟩ := h
  refine h.noneR (keysR fun y hy => ?_)
  rw [findR, List.find?_eq_none] at hr
  simpa using hr y.r (ha.rights.mem_iff.2 (List.mem_map.2 ⟨y, hy, rfl⟩))

theorem swapRightU_leaves (h : Repr m c) (old new : R) (hr : HasRoom 0 1 m)
    (hs : findR c old = none ∧ Small c new ∨ (findR c old).isSome ∧ hasGroup c old = false) :
    Ends (swapRightU old new) m (fun _ _ => True)
      (Stops fun m' => ∃ d, (d = c ∨ findR c old = none ∧ d = eraseR c new) ∧ Repr m' d) S := by
  have i : Stops (fun m' => ∃ d, (d = c ∨ findR c old = none ∧ d = eraseR c new) ∧ Repr m' d) none m :=
    fun _ => ⟨c, .inl rfl, h⟩
  refine .user_bind i <| .user_bind i <| .get_bind ?_
  cases hR : findR c old with
  | none =>
    rw [RawTable.getMut_none (absentR h hR)]
    have hg : Small c new := by
      rcases hs with hs | hs
      · exact hs.2
      · rw [hR] at hs; exact absurd hs.1 (by simp)
    refine Ends.bind (K := fun _ _ => True) ((insertRightU_leaves h new hr hg).mono (fun _ _ h => h) ?_)
      fun _ _ _ => .pure trivial
    intro w m' e hw
    obtain ⟨d, h1, h2⟩ := e hw
    exact ⟨d, by rcases h1 with h1 | h1 <;> simp [h1], h2⟩
  | some b =>
    have hg : hasGroup c old = false := by
      rcases hs with hs | hs
      · rw [hs.1] at hR; cases hR
      · exact hs.2
    obtain ⟨ls, rs, h, hf, ha⟩ := h
    rcases h.wf.casesR old with hn | ⟨y, rs', hq, he, hn⟩
    · rw [ha.findR_none hn] at hR; cases hR
    have h := h.perm (.refl _) hq
    have ha := ha.perm (.refl _) hq
    have hnil : y.pairs.entries = [] := by
      have := ha.hasGroup_some h.wf List.mem_cons_self he
      rw [hg] at this
      simpa [PairSet.isEmpty] using this
    obtain ⟨w, e, p⟩ := getMutR_eq h.consR he hn
    have h1 : 1 ≤ RawImpl.growthLeft (w ⟨y.r, y.pairs.clear, y.id⟩) := by
      have h1 := RawTable.Room.getMut (G := .room) e ⟨y.r, y.pairs.clear, y.id⟩
      have h2 := hr.2
      unfold RawTable.Room at h1
      omega
    simp only [e, toR]
    refine .set_bind <| .user_bind ?_ <| RawTable.ends_grow_bind (fun e => no_rehash h1 e) <| .get_bind <| .set_bind <|
      rehashAllU_stops _ _
    refine fun _ => ⟨c, .inl rfl, ls, ⟨y.r, y.id, y.pairs.clear⟩ :: rs', ⟨h.left, p _, ?_⟩, hf, ha.rights, ha.pairs⟩
    exact h.wf.setPairs (by rw [RawTable.clear_entries, hnil])

theorem swapRightRemoveU_leaves (h : Repr m c) (old new : R) (hr : HasRoom 0 1 m)
    (hs : findR c old = none ∧ Small c new ∨ (findR c old).isSome ∧ hasGroup c old = false) :
    Ends (swapRightRemoveU old new) m (fun _ _ => True)
      (Stops fun m' => ∃ d, (d = c ∨ d = if (findR c old).isSome then eraseR c old else eraseR c new) ∧ Repr m' d) S := by
  have i : Stops (fun m' => ∃ d, (d = c ∨ d = if (findR c old).isSome then eraseR c old else eraseR c new) ∧ Repr m' d) none m :=
    fun _ => ⟨c, .inl rfl, h⟩
  refine .user_bind i <| .user_bind i <| .get_bind ?_
  cases hR : findR c old with
  | none =>
    rw [RawTable.removeEntry_none (absentR h hR)]
    have hg : Small c new := by
      rcases hs with hs | hs
      · exact hs.2
      · rw [hR] at hs; exact absurd hs.1 (by simp)
    refine Ends.bind (K := fun _ _ => True) ((insertRightU_leaves h new hr hg).mono (fun _ _ h => h) ?_)
      fun _ _ _ => .pure trivial
    intro w m' e hw
    obtain ⟨d, h1, h2⟩ := e hw
    exact ⟨d, by rcases h1 with h1 | h1 <;> simp [h1], h2⟩
  | some b =>
    have hg : hasGroup c old = false := by
      rcases hs with hs | hs
      · rw [hs.1] at hR; cases hR
      · exact hs.2
    obtain ⟨ls, rs, h, hf, ha⟩ := h
    rcases h.wf.casesR old with hn | ⟨y, rs', hq, he, hn⟩
    · rw [ha.findR_none hn] at hR; cases hR
    have h := h.perm (.refl _) hq
    have ha := ha.perm (.refl _) hq
    have hnil : y.pairs.entries = [] := by
      have := ha.hasGroup_some h.wf List.mem_cons_self he
      rw [hg] at this
      simpa [PairSet.isEmpty] using this
    obtain ⟨t, e, p⟩ := removeR_eq h.consR he hn
    have h1 : 1 ≤ RawImpl.growthLeft t := by
      have h1 := RawTable.Room.removeEntry (G := .room) e
      have h2 := hr.2
      unfold RawTable.Room at h1
      omega
    have hdrop : (ls.filter fun x => !(x.own == y.id)) = ls := by
      rw [List.filter_eq_self]
      intro x hx
      have := (h.wf.mem_pairs hx List.mem_cons_self (y := y)).2
      rw [hnil] at this
      simpa using this
    have hw := h.wf.dropRight
    rw [hdrop] at hw
    have hae := ha.eraseR_some h.wf he hn
    rw [hdrop] at hae
    simp only [e, toR]
    refine .set_bind <| .user_bind ?_ <| RawTable.ends_grow_bind (fun e => no_rehash h1 e) <| .get_bind <| .set_bind <|
      stops_void (rehashAllU_stops _ _)
    exact fun _ => ⟨_, .inr (by simp), ls, rs', ⟨h.left, p, hw⟩, hf, hae⟩

theorem removeU_leaves (h : Repr m c) (l : L) (r : R) (hs : hasPair c l r = false ∨ Small c r) :
    Ends (removeU l r) m (fun _ _ => True) (Stops fun m' => ∃ d, (d = c ∨ d = eraseR c r) ∧ Repr m' d) S := by
  refine (((arePairedU_follows l r).ends (arePairedU_same l r)).mono (fun _ _ h => h)
    (I' := Stops fun m' => ∃ d, (d = c ∨ d = eraseR c r) ∧ Repr m' d) ?_).bind ?_
  · intro w m' e hw; rw [e hw]; exact ⟨c, .inl rfl, h⟩
  rintro a m' ⟨⟨⟩, -⟩
  rw [arePaired_refines h]
  rcases hs with hs | hs
  · rw [hs]; exact .pure trivial
  · split
    · exact removeRightU_leaves h r hs
    · exact .pure trivial

theorem extendU_eq (xs : List (L × R)) : (extendU xs : Unw (GroupMap L R) Unit) = extendOptU (xs.map fun p => (some p.1, p.2)) := by
  induction xs with
  | nil => rfl
  | cons x xs ih => simp only [extendU, List.map_cons, extendOptU, ih]

theorem smallAll_some (c : Contents L R) (xs : List (L × R)) : SmallAll c (xs.map fun p => (some p.1, p.2)) := by
  induction xs generalizing c with
  | nil => trivial
  | cons x xs ih => exact ih _

theorem LeavesExtend.cons {x : Option L × R} {xs : List (Option L × R)} {c' d : Contents L R}
    (hx : c' = insertAll c [x]) (h : LeavesExtend c' xs d) : LeavesExtend c (x :: xs) d := by
  obtain ⟨ys, zs, rfl, h⟩ := h
  have : insertAll c (x :: ys) = insertAll c' ys := by
    subst hx
    obtain ⟨_ | l, r⟩ := x <;> rfl
  exact ⟨x :: ys, zs, rfl, by rw [this]; exact h⟩

theorem extendOptU_leaves (h : Repr m c) (xs : List (Option L × R)) (hn : NewPairs c xs) (hg : SmallAll c xs)
    (hr : HasRoom xs.length xs.length m) :
    Ends (extendOptU xs) m (fun _ _ => True) (Stops fun m' => ∃ d, LeavesExtend c xs d ∧ Repr m' d) S := by
  induction xs generalizing m c with
  | nil =>
    refine (Ends.user ?_).mono (fun _ _ _ => trivial) fun _ _ h => h
    exact fun _ => ⟨c, ⟨[], [], rfl, .inl rfl⟩, h⟩
  | cons x xs ih =>
    have i : Stops (fun m' => ∃ d, LeavesExtend c (x :: xs) d ∧ Repr m' d) none m :=
      fun _ => ⟨c, ⟨[], x :: xs, rfl, .inl rfl⟩, h⟩
    have h11 : HasRoom 1 1 m := ⟨by have := hr.1; simp at this; omega, by have := hr.2; simp at this; omega⟩
    obtain ⟨o, r⟩ := x
    cases o with
    | some l =>
      refine .user_bind i ?_
      refine (((insertU_follows l r).ends (insertU_same h11 l r)).mono (fun _ _ h => h)
        (I' := Stops fun m' => ∃ d, LeavesExtend c ((some l, r) :: xs) d ∧ Repr m' d) ?_).bind ?_
      · intro w m' e hw; rw [e hw]; exact i rfl
      · rintro o m1 ⟨e, -⟩
        obtain ⟨m1', e', h1, -⟩ := insert_refines h l r hn.1
        simp only [e', bind, Except.bind, pure, Except.pure] at e; cases e
        refine (ih h1 hn.2 hg (HasRoom.of_roomy (a := 1) (b := 1) hr (insert_roomy e'))).mono (fun _ _ h => h) ?_
        intro w m' e hw
        obtain ⟨d, h2, h3⟩ := e hw
        exact ⟨d, h2.cons rfl, h3⟩
    | none =>
      refine .user_bind i ?_
      refine (((insertRightU_follows r).ends (insertRightU_leaves h r ⟨Nat.zero_le _, h11.2⟩ hg.1)).mono (fun _ _ h => h)
        (I' := Stops fun m' => ∃ d, LeavesExtend c ((none, r) :: xs) d ∧ Repr m' d) ?_).bind ?_
      · intro w m' e hw
        obtain ⟨d, h1, h2⟩ := e hw
        refine ⟨d, ?_, h2⟩
        rcases h1 with rfl | rfl
        · exact ⟨[], _, rfl, .inl rfl⟩
        · exact ⟨[], _, rfl, .inr ⟨r, xs, rfl, rfl⟩⟩
      · rintro o m1 ⟨e, -⟩
        obtain ⟨o', m1', e', -, h1, -⟩ := insertRight_refines h r
        rw [e'] at e; cases e
        refine (ih h1 hn hg.2 (HasRoom.of_roomy (a := 1) (b := 1) hr ((insertRight_roomy e').mono (by omega) (by omega)))).mono (fun _ _ h => h) ?_
        intro w m' e hw
        obtain ⟨d, h2, h3⟩ := e hw
        exact ⟨d, h2.cons rfl, h3⟩

/-- a call interrupted by the items' own code leaves a valid map -/
theorem execU_leaves (h : Repr m c) (op : Op L R) (hs : Smooth m c op) :
    Ends (execU op) m (fun _ _ => True) (Stops fun m' => ∃ d, Leaves c op d ∧ Repr m' d) S := by
  have i : Stops (fun m' => ∃ d, d = c ∧ Repr m' d) none m := fun _ => ⟨_, rfl, h⟩
  have same : ∀ {α : Type} {x : Unw (GroupMap L R) α}, Same x m S →
      Ends x m (fun _ _ => True) (Stops fun m' => ∃ d, d = c ∧ Repr m' d) S :=
    fun hx => hx.mono (fun _ _ h => h) fun w m' e hw => by rw [e hw]; exact ⟨_, rfl, h⟩
  cases op
  case insert l r => exact stops_void (same (insertU_same hs l r))
  case insertRemove l r => exact (insertRemoveU_leaves h l r hs.1 hs.2).bind fun _ _ _ => .pure trivial
  case insertLeft l r => exact stops_map (same (insertLeftU_same h l r hs))
  case insertRight r => exact stops_map (insertRightU_leaves h r hs.1 hs.2)
  case swapRight a b => exact stops_void (swapRightU_leaves h a b hs.1 hs.2)
  case swapRightRemove a b => exact stops_map (swapRightRemoveU_leaves h a b hs.1 hs.2)
  case pair l r => exact stops_map (same (pairU_same h l r hs))
  case remove l r => exact stops_map (removeU_leaves h l r hs)
  case removeLeft l => exact stops_map (same (removeLeftU_same l))
  case removeRight r => exact stops_map (removeRightU_leaves h r hs)
  case getRight => exact .user_bind i <| .user_bind i <| .get_bind <| .pure trivial
  case getLeftIter => exact .user_bind i <| .user_bind i <| stops_map (quiet_stops _)
  case containsLeft => exact .user_bind i <| .user_bind i <| .get_bind <| .pure trivial
  case containsRight => exact .user_bind i <| .user_bind i <| .get_bind <| .pure trivial
  case isRightPaired => exact .user_bind i <| .user_bind i <| .get_bind <| .pure trivial
  case arePaired l r => exact stops_map (same (arePairedU_same l r))
  case lenLeft => exact .get_bind <| .pure trivial
  case lenRight => exact .get_bind <| .pure trivial
  case isEmpty => exact .get_bind <| .pure trivial
  case clear => exact .get_bind <| .set_bind <| .pure trivial
  case iter => exact stops_map (quiet_stops _)
  case iterPaired => exact stops_map (quiet_stops _)
  case iterUnpaired => exact .get_bind <| .pure trivial
  case iterLeft => exact .get_bind <| .pure trivial
  case iterRight => exact .get_bind <| .pure trivial
  case retainPaired σ f s => exact stops_void (same (retainPairedU_same (sure f) s))
  case retainUnpaired σ f s => exact stops_void (same (retainUnpairedU_same (sure1 f) s))
  case extend xs =>
    refine stops_void ?_
    rw [extendU_eq]
    exact extendOptU_leaves h _ hs.1 (smallAll_some c xs) (by simpa using hs.2)
  case extendOpt xs => exact stops_void (extendOptU_leaves h xs hs.1 hs.2.1 hs.2.2)
  case clone => exact .user_bind i <| .get_bind <| .set_bind <| .pure trivial

end
end Verif.GroupMap
