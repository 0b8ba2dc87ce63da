import Verif.Room
import Verif.PartialMap.Counter
/-! The room and the memory of the two tables of a `PartialCycleMap`, for arbitrary (also corrupted) maps. -/
set_option linter.unusedSectionVars false
set_option linter.unusedSimpArgs false
namespace Verif.PartialMap
open PartialSpec OptionalPair RawTable
open CycleMap (bind_ok)

variable [RawImpl] {L R : Type} [BEq L] [BEq R]
variable {G : Meter} [G.Lawful]
variable {m m' : PartialMap L R}

/-- both tables of `m'` compared with those of `m`, after `a` and `b` elements were put in -/
def Roomy (G : Meter) (a b : Nat) (m m' : PartialMap L R) : Prop := Room G a m.left m'.left ∧ Room G b m.right m'.right

theorem Roomy.refl {a b} : Roomy G a b m m := ⟨Room.refl, Room.refl⟩
theorem Roomy.mono {a b a' b'} (h : Roomy G a b m m') (ha : a ≤ a') (hb : b ≤ b') : Roomy G a' b' m m' :=
  ⟨h.1.mono ha, h.2.mono hb⟩
theorem Roomy.trans {a b a' b'} {m''} (h : Roomy G a b m m') (h' : Roomy G a' b' m' m'') : Roomy G (a + a') (b + b') m m'' :=
  ⟨h.1.trans h'.1, h.2.trans h'.2⟩
theorem Roomy.trans0 {a b} {m''} (h : Roomy G 0 0 m m') (h' : Roomy G a b m' m'') : Roomy G a b m m'' :=
  ⟨h.1.trans0 h'.1, h.2.trans0 h'.2⟩

local macro "room1" : tactic => `(tactic| first
  | exact Room.refl
  | exact Room.getMut (by assumption) _
  | exact Room.removeEntry (by assumption)
  | (refine Room.trans0 ?_ (Room.getMut (by assumption) _); exact Room.getMut (by assumption) _)
  | (refine Room.trans0 ?_ (Room.removeEntry (by assumption)); exact Room.getMut (by assumption) _))

local macro "room" : tactic => `(tactic| (refine ⟨?_, ?_⟩ <;> room1))

theorem removeViaLeft_roomy {l : L} {o} (h : m.removeViaLeft l = .ok (o, m')) : Roomy G 0 0 m m' := by
  simp only [removeViaLeft] at h
  repeat' split at h
  all_goals first | cases h; done | (cases h; room)

theorem removeViaRight_roomy {r : R} {o} (h : m.removeViaRight r = .ok (o, m')) : Roomy G 0 0 m m' := by
  simp only [removeViaRight] at h
  repeat' split at h
  all_goals first | cases h; done | (cases h; room)

theorem removeLeft_roomy {l : L} {o} (h : m.removeLeft l = .ok (o, m')) : Roomy G 0 0 m m' := by
  simp only [removeLeft] at h
  repeat' split at h
  all_goals first | cases h; done | (cases h; room)

theorem removeRight_roomy {r : R} {o} (h : m.removeRight r = .ok (o, m')) : Roomy G 0 0 m m' := by
  simp only [removeRight] at h
  repeat' split at h
  all_goals first | cases h; done | (cases h; room)

theorem remove_roomy {l : L} {r : R} {o} (h : m.remove l r = .ok (o, m')) : Roomy G 0 0 m m' := by
  simp only [remove] at h
  split at h
  · obtain ⟨⟨o1, m1⟩, h1, h⟩ := bind_ok h
    have e := removeViaLeft_roomy (G := G) h1
    simp only at h
    split at h
    all_goals first | (cases h; exact e) | cases h
  · cases h; exact .refl

theorem insert_roomy {l : L} {r : R} {o} (h : m.insert l r = .ok (o, m')) : Roomy G 1 1 m m' := by
  obtain ⟨⟨o1, m1⟩, h1, h⟩ := bind_ok h
  obtain ⟨⟨o2, m2⟩, h2, h⟩ := bind_ok h
  cases h
  exact (removeViaLeft_roomy h1).trans0 ((removeViaRight_roomy h2).trans0 ⟨.insert .., .insert ..⟩)

theorem insertLeft_roomy {l : L} {o} (h : m.insertLeft l = .ok (o, m')) : Roomy G 1 0 m m' := by
  obtain ⟨⟨o1, m1⟩, h1, h⟩ := bind_ok h
  cases h
  exact (removeViaLeft_roomy h1).trans0 ⟨.insert .., .refl⟩

theorem insertRight_roomy {r : R} {o} (h : m.insertRight r = .ok (o, m')) : Roomy G 0 1 m m' := by
  obtain ⟨⟨o1, m1⟩, h1, h⟩ := bind_ok h
  cases h
  exact (removeViaRight_roomy h1).trans0 ⟨.refl, .insert ..⟩

theorem pair_roomy (l : L) (r : R) : Roomy G 0 0 m (m.pair l r).2 := by
  simp only [pair]
  repeat' split
  all_goals room

theorem unpair_roomy (l : L) (r : R) : Roomy G 0 0 m (m.unpair l r).2 := by
  simp only [unpair]
  repeat' split
  all_goals room

theorem pairForced_roomy {l : L} {r : R} {o} (h : m.pairForced l r = .ok (o, m')) : Roomy G 0 0 m m' := by
  simp only [pairForced] at h
  repeat' split at h
  all_goals first | cases h; done | (cases h; room)

theorem pairForcedRemove_roomy {l : L} {r : R} {o} (h : m.pairForcedRemove l r = .ok (o, m')) : Roomy G 0 0 m m' := by
  simp only [pairForcedRemove] at h
  repeat' split at h
  all_goals first | cases h; done | (cases h; room)

theorem swapLeft_roomy {a b : L} {o} (h : m.swapLeft a b = .ok (o, m')) : Roomy G 1 0 m m' := by
  obtain ⟨⟨o1, m1⟩, h1, h⟩ := bind_ok h
  have e : Roomy G 0 0 m m1 := by
    simp only [swapLeftEqCheck] at h1
    split at h1
    · exact removeViaLeft_roomy h1
    · cases h1; exact .refl
  refine e.trans0 ?_
  simp only at h
  split at h
  · cases h; exact .refl
  · simp only [bind, Except.bind, pure, Except.pure] at h
    repeat' split at h
    all_goals first
      | cases h; done
      | (cases h; exact ⟨(Room.removeEntry (by assumption)).trans0 (.insert ..), by room1⟩)

theorem swapRight_roomy {a b : R} {o} (h : m.swapRight a b = .ok (o, m')) : Roomy G 0 1 m m' := by
  obtain ⟨⟨o1, m1⟩, h1, h⟩ := bind_ok h
  have e : Roomy G 0 0 m m1 := by
    simp only [swapRightEqCheck] at h1
    split at h1
    · exact removeViaRight_roomy h1
    · cases h1; exact .refl
  refine e.trans0 ?_
  simp only at h
  split at h
  · cases h; exact .refl
  · simp only [bind, Except.bind, pure, Except.pure] at h
    repeat' split at h
    all_goals first
      | cases h; done
      | (cases h; exact ⟨by room1, (Room.removeEntry (by assumption)).trans0 (.insert ..)⟩)

theorem removeViaHashesAndId_roomy (a b : UInt64) (i : Nat) : Roomy G 0 0 m (m.removeViaHashesAndId a b i).2 := by
  simp only [removeViaHashesAndId]
  refine ⟨?_, ?_⟩ <;> simp only <;> split <;> room1

theorem retainDrop_roomy {ks} (h : m.retainDrop ks = .ok m') : Roomy G 0 0 m m' := by
  induction ks generalizing m with
  | nil => cases h; exact .refl
  | cons k ks ih =>
    obtain ⟨a, b, i⟩ := k
    cases a <;> cases b <;> simp only [retainDrop] at h
    · cases h
    · refine Roomy.trans0 ?_ (ih h)
      split <;> room
    · refine Roomy.trans0 ?_ (ih h)
      split <;> room
    · exact (removeViaHashesAndId_roomy ..).trans0 (ih h)

theorem retainPairedDrop_roomy (ks) : Roomy G 0 0 m (m.retainPairedDrop ks) := by
  induction ks generalizing m with
  | nil => exact .refl
  | cons k ks ih =>
    exact (removeViaHashesAndId_roomy ..).trans0 (ih (m := (m.removeViaHashesAndId k.1 k.2.1 k.2.2).2))

theorem retainUnpairedDrop_roomy {ks} (h : m.retainUnpairedDrop ks = .ok m') : Roomy G 0 0 m m' := by
  induction ks generalizing m with
  | nil => cases h; exact .refl
  | cons k ks ih =>
    obtain ⟨a, b, i⟩ := k
    cases a <;> cases b <;> simp only [retainUnpairedDrop] at h
    · cases h
    · refine Roomy.trans0 ?_ (ih h)
      split <;> room
    · refine Roomy.trans0 ?_ (ih h)
      split <;> room
    · cases h

theorem extendPairs_roomy {xs : List (L × R)} (h : m.extendPairs xs = .ok m') : Roomy G xs.length xs.length m m' := by
  induction xs generalizing m with
  | nil => cases h; exact .refl
  | cons x xs ih =>
    obtain ⟨⟨o1, m1⟩, h1, h⟩ := bind_ok h
    exact ((insert_roomy h1).trans (ih h)).mono (by simp; omega) (by simp; omega)

/-- the left items of a list of entries, counted -/
def leftsIn (xs : List (OptionalPair L R)) : Nat := xs.countP fun x => x.toPair.1.isSome

/-- the right items of a list of entries, counted -/
def rightsIn (xs : List (OptionalPair L R)) : Nat := xs.countP fun x => x.toPair.2.isSome

theorem extend_roomy {xs : List (OptionalPair L R)} (h : m.extend xs = .ok m') :
    Roomy G (leftsIn xs) (rightsIn xs) m m' := by
  induction xs generalizing m with
  | nil => cases h; exact .refl
  | cons x xs ih =>
    cases x with
    | neither => exact (ih h).mono (by simp [leftsIn, toPair]) (by simp [rightsIn, toPair])
    | someLeft l =>
      obtain ⟨⟨o1, m1⟩, h1, h⟩ := bind_ok h
      exact ((insertLeft_roomy h1).trans (ih h)).mono (by simp [leftsIn, toPair]; omega) (by simp [rightsIn, toPair])
    | someRight r =>
      obtain ⟨⟨o1, m1⟩, h1, h⟩ := bind_ok h
      exact ((insertRight_roomy h1).trans (ih h)).mono (by simp [leftsIn, toPair]) (by simp [rightsIn, toPair]; omega)
    | someBoth l r =>
      obtain ⟨⟨o1, m1⟩, h1, h⟩ := bind_ok h
      exact ((insert_roomy h1).trans (ih h)).mono (by simp [leftsIn, toPair]; omega) (by simp [rightsIn, toPair]; omega)

theorem DrainIter.next_room {it it' : DrainIter L R} {p} (h : it.next = .ok (p, it')) :
    Room G 0 it.right it'.right := by
  simp only [DrainIter.next] at h
  repeat' split at h
  all_goals first | cases h; done | (cases h; room1) | (cases h; exact .clear)

theorem DrainIter.take_room {n} {it it' : DrainIter L R} {ps} (h : DrainIter.take n it = .ok (ps, it')) :
    Room G 0 it.right it'.right := by
  induction n generalizing it ps with
  | zero => cases h; exact .refl
  | succ n ih =>
    obtain ⟨o, h1, h⟩ := bind_ok h
    split at h
    · cases h; exact DrainIter.next_room h1
    · obtain ⟨⟨ps2, it2⟩, h2, h⟩ := bind_ok h
      cases h
      exact (DrainIter.next_room h1).trans0 (ih h2)

theorem DrainFilter.nextL_room {σ : Type} {f : σ → OptionalPair L R → Bool × σ} {kept todo right st o kept' todo' right' st'}
    (h : DrainFilter.nextL f kept todo right st = .ok (o, kept', todo', right', st')) :
    Room G 0 right right' ∧ (kept' ++ todo').Sublist (kept ++ todo) ∧ (todo = [] → right' = right ∧ o = none) := by
  induction todo generalizing kept st with
  | nil => cases h; exact ⟨.refl, .refl _, fun _ => ⟨rfl, rfl⟩⟩
  | cons e rest ih =>
    simp only [DrainFilter.nextL] at h
    have s : (kept ++ rest).Sublist (kept ++ e :: rest) := List.Sublist.append (.refl _) (List.sublist_cons_self _ _)
    repeat' split at h
    · cases h
    · cases h
      exact ⟨.removeEntry (by assumption), s, by simp⟩
    · have := ih h
      exact ⟨this.1, by simpa using this.2.1, by simp⟩
    · cases h
      exact ⟨.refl, s, by simp⟩
    · have := ih h
      exact ⟨this.1, by simpa using this.2.1, by simp⟩

theorem DrainFilter.nextR_room {σ : Type} {f : σ → OptionalPair L R → Bool × σ} {kept todo st} :
    ((DrainFilter.nextR f kept todo st).2.1 ++ (DrainFilter.nextR f kept todo st).2.2.1).Sublist (kept ++ todo) := by
  induction todo generalizing kept st with
  | nil => exact .refl _
  | cons e rest ih =>
    simp only [DrainFilter.nextR]
    split
    · exact List.Sublist.append (.refl _) (List.sublist_cons_self _ _)
    · simpa using ih (kept := kept ++ [e])

/-- before the second phase the right table is not yet visited, in it the left entries are used up -/
def DrainFilter.Fine {σ : Type} (it : DrainFilter σ L R) : Prop :=
  (it.keptR ++ it.todoR).Sublist it.right.entries ∧
    (it.reset = true ∧ it.keptR = [] ∧ it.todoR = [] ∨ it.reset = false ∧ it.todoL = [])

theorem DrainFilter.next_room {σ : Type} {f : σ → OptionalPair L R → Bool × σ} {it it' : DrainFilter σ L R} {o}
    (hf : it.Fine) (h : DrainFilter.next f it = .ok (o, it')) :
    it'.Fine ∧ Room G 0 it.right it'.right ∧ (it'.keptL ++ it'.todoL).Sublist (it.keptL ++ it.todoL) := by
  obtain ⟨x, h1, h⟩ := bind_ok h
  obtain ⟨o1, kl, tl, rt, s1⟩ := x
  obtain ⟨a, b, c⟩ := DrainFilter.nextL_room (G := G) h1
  obtain ⟨f1, f2⟩ := hf
  cases o1 with
  | some o1 =>
    cases h
    refine ⟨?_, a, b⟩
    rcases f2 with ⟨f2, f3, f4⟩ | ⟨_, f2⟩
    · exact ⟨by simp [f3, f4], .inl ⟨f2, f3, f4⟩⟩
    · cases (c f2).2
  | none =>
    have hb : (kl ++ []).Sublist (it.keptL ++ it.todoL) := by
      refine List.Sublist.trans ?_ b
      exact List.Sublist.append (.refl _) (List.nil_sublist _)
    cases hr : it.reset with
    | true =>
      simp only [hr, if_true] at h
      cases h
      exact ⟨⟨by simpa using DrainFilter.nextR_room (kept := []) (todo := rt.entries), .inr ⟨rfl, rfl⟩⟩, a, hb⟩
    | false =>
      simp only [hr, Bool.false_eq_true, if_false] at h
      cases h
      rcases f2 with ⟨f2, _⟩ | ⟨_, f2⟩
      · rw [hr] at f2; cases f2
      · obtain ⟨rfl, _⟩ := c f2
        exact ⟨⟨DrainFilter.nextR_room.trans f1, .inr ⟨rfl, rfl⟩⟩, a, hb⟩

theorem DrainFilter.take_room {σ : Type} {f : σ → OptionalPair L R → Bool × σ} {n} {it it' : DrainFilter σ L R} {ps}
    (hf : it.Fine) (h : DrainFilter.take f n it = .ok (ps, it')) :
    it'.Fine ∧ Room G 0 it.right it'.right ∧ (it'.keptL ++ it'.todoL).Sublist (it.keptL ++ it.todoL) := by
  induction n generalizing it ps with
  | zero => cases h; exact ⟨hf, .refl, .refl _⟩
  | succ n ih =>
    obtain ⟨o, h1, h⟩ := bind_ok h
    split at h
    · cases h; exact DrainFilter.next_room hf h1
    · obtain ⟨⟨ps2, it2⟩, h2, h⟩ := bind_ok h
      cases h
      have a := DrainFilter.next_room (G := G) hf h1
      have b := ih a.1 h2
      exact ⟨b.1, a.2.1.trans0 b.2.1, b.2.2.trans a.2.2⟩

theorem drainFilterTake_roomy {σ : Type} {f : σ → OptionalPair L R → Bool × σ} {st n o s}
    (h : m.drainFilterTake f st n = .ok (o, s, m')) : Roomy G 0 0 m m' := by
  obtain ⟨⟨o2, m2⟩, h2, h1⟩ := bind_ok h
  obtain ⟨⟨o3, m3⟩, h3, h1⟩ := bind_ok h1; cases h1
  have a := DrainFilter.take_room (G := G) ⟨by simp, .inl ⟨rfl, rfl, rfl⟩⟩ h2
  have b := DrainFilter.take_room (G := G) a.1 h3
  exact ⟨Room.erase (b.2.2.trans (by simpa using a.2.2)), (a.2.1.trans0 b.2.1).trans0 (Room.erase b.1.1)⟩

/-- the number of elements a call may put into the left table -/
def putsL : Op L R → Nat
  | .insert .. => 1
  | .insertLeft .. => 1
  | .swapLeft .. => 1
  | .swapLeftChecked .. => 1
  | .swapLeftOrInsert .. => 1
  | .swapRightOrInsert .. => 1
  | .extendPairs xs => xs.length
  | .extend xs => leftsIn xs
  | _ => 0

/-- the number of elements a call may put into the right table -/
def putsR : Op L R → Nat
  | .insert .. => 1
  | .insertRight .. => 1
  | .swapRight .. => 1
  | .swapRightChecked .. => 1
  | .swapRightOrInsert .. => 1
  | .swapLeftOrInsert .. => 1
  | .extendPairs xs => xs.length
  | .extend xs => rightsIn xs
  | _ => 0

/-- the calls that may give memory back -/
def shrinks : Op L R → Bool
  | .shrinkToLeft _ => true
  | .shrinkToRight _ => true
  | .shrinkToFit => true
  | _ => false

/-- the number of elements a call may put into the left table or make room for there, the latter counted as `cost` says -/
def asksL (cost : Nat → Nat) : Op L R → Nat
  | .reserveLeft n => cost n
  | .tryReserveLeft n _ => cost n
  | op => putsL op

/-- the number of elements a call may put into the right table or make room for there, the latter counted as `cost` says -/
def asksR (cost : Nat → Nat) : Op L R → Nat
  | .reserveRight n => cost n
  | .tryReserveRight n _ => cost n
  | op => putsR op

theorem asksL_zero (op : Op L R) : asksL (fun _ => 0) op = putsL op := by cases op <;> rfl
theorem asksR_zero (op : Op L R) : asksR (fun _ => 0) op = putsR op := by cases op <;> rfl

theorem exec_roomy {op : Op L R} {o} (hs : G.Shrinks ∨ shrinks op = false) (h : m.exec op = .ok (o, m')) :
    Roomy G (asksL G.cost op) (asksR G.cost op) m m' := by
  cases op <;> simp only [exec, asksL, asksR, putsL, putsR] at h ⊢
  case shrinkToLeft =>
    rcases hs with hs | hs
    · cases h; exact ⟨.shrink hs .., .refl⟩
    · cases hs
  case shrinkToRight =>
    rcases hs with hs | hs
    · cases h; exact ⟨.refl, .shrink hs ..⟩
    · cases hs
  case shrinkToFit =>
    rcases hs with hs | hs
    · cases h; exact ⟨.shrink hs .., .shrink hs ..⟩
    · cases hs
  case insert => obtain ⟨⟨o1, m1⟩, h1, h⟩ := bind_ok h; cases h; exact insert_roomy h1
  case insertLeft => obtain ⟨⟨o1, m1⟩, h1, h⟩ := bind_ok h; cases h; exact insertLeft_roomy h1
  case insertRight => obtain ⟨⟨o1, m1⟩, h1, h⟩ := bind_ok h; cases h; exact insertRight_roomy h1
  case pair => cases h; exact pair_roomy _ _
  case pairForced => obtain ⟨⟨o1, m1⟩, h1, h⟩ := bind_ok h; cases h; exact pairForced_roomy h1
  case pairForcedRemove => obtain ⟨⟨o1, m1⟩, h1, h⟩ := bind_ok h; cases h; exact pairForcedRemove_roomy h1
  case unpair => cases h; exact unpair_roomy _ _
  case remove => obtain ⟨⟨o1, m1⟩, h1, h⟩ := bind_ok h; cases h; exact remove_roomy h1
  case removeViaLeft => obtain ⟨⟨o1, m1⟩, h1, h⟩ := bind_ok h; cases h; exact removeViaLeft_roomy h1
  case removeViaRight => obtain ⟨⟨o1, m1⟩, h1, h⟩ := bind_ok h; cases h; exact removeViaRight_roomy h1
  case removeLeft => obtain ⟨⟨o1, m1⟩, h1, h⟩ := bind_ok h; cases h; exact removeLeft_roomy h1
  case removeRight => obtain ⟨⟨o1, m1⟩, h1, h⟩ := bind_ok h; cases h; exact removeRight_roomy h1
  case swapLeft => obtain ⟨⟨o1, m1⟩, h1, h⟩ := bind_ok h; cases h; exact swapLeft_roomy h1
  case swapRight => obtain ⟨⟨o1, m1⟩, h1, h⟩ := bind_ok h; cases h; exact swapRight_roomy h1
  case swapLeftChecked =>
    obtain ⟨⟨o1, m1⟩, h1, h⟩ := bind_ok h; cases h
    simp only [swapLeftChecked] at h1
    split at h1
    · cases h1; exact .refl
    · exact swapLeft_roomy h1
  case swapRightChecked =>
    obtain ⟨⟨o1, m1⟩, h1, h⟩ := bind_ok h; cases h
    simp only [swapRightChecked] at h1
    split at h1
    · cases h1; exact .refl
    · exact swapRight_roomy h1
  case swapLeftOrInsert =>
    obtain ⟨⟨o1, m1⟩, h1, h⟩ := bind_ok h; cases h
    simp only [swapLeftOrInsert] at h1
    split at h1
    · exact (swapLeft_roomy h1).mono (by omega) (by omega)
    · obtain ⟨⟨o2, m2⟩, h2, h1⟩ := bind_ok h1
      have e := insert_roomy (G := G) h2
      repeat' split at h1
      all_goals rename_i heq; first | (cases heq; cases h1; exact e) | cases h1
  case swapRightOrInsert =>
    obtain ⟨⟨o1, m1⟩, h1, h⟩ := bind_ok h; cases h
    simp only [swapRightOrInsert] at h1
    split at h1
    · exact (swapRight_roomy h1).mono (by omega) (by omega)
    · obtain ⟨⟨o2, m2⟩, h2, h1⟩ := bind_ok h1
      have e := insert_roomy (G := G) h2
      repeat' split at h1
      all_goals rename_i heq; first | (cases heq; cases h1; exact e) | cases h1
  case iterPaired => obtain ⟨ps, h1, h⟩ := bind_ok h; cases h; exact .refl
  case drain =>
    obtain ⟨⟨o1, m1⟩, h1, h⟩ := bind_ok h; cases h
    obtain ⟨⟨o2, m2⟩, h2, h1⟩ := bind_ok h1
    obtain ⟨⟨o3, m3⟩, h3, h1⟩ := bind_ok h1; cases h1
    exact ⟨.clear, (DrainIter.take_room h2).trans0 (DrainIter.take_room h3)⟩
  case drainFilter => obtain ⟨⟨o1, s1, m1⟩, h1, h⟩ := bind_ok h; cases h; exact drainFilterTake_roomy h1
  case retain =>
    obtain ⟨⟨o1, m1⟩, h1, h⟩ := bind_ok h; cases h
    obtain ⟨⟨o2, s2⟩, h2, h1⟩ := bind_ok h1
    obtain ⟨m3, h3, h1⟩ := bind_ok h1; cases h1
    exact retainDrop_roomy h3
  case retainPaired =>
    obtain ⟨⟨o1, m1⟩, h1, h⟩ := bind_ok h; cases h
    obtain ⟨ps, h2, h1⟩ := bind_ok h1
    obtain ⟨⟨m3, s3⟩, h3, h1⟩ := bind_ok h1; cases h1
    exact retainPairedDrop_roomy _
  case retainUnpaired =>
    obtain ⟨⟨o1, m1⟩, h1, h⟩ := bind_ok h; cases h
    obtain ⟨⟨o2, s2⟩, h2, h1⟩ := bind_ok h1
    obtain ⟨m3, h3, h1⟩ := bind_ok h1; cases h1
    exact retainUnpairedDrop_roomy h3
  case extendPairs => obtain ⟨m1, h1, h⟩ := bind_ok h; cases h; exact extendPairs_roomy h1
  case extend => obtain ⟨m1, h1, h⟩ := bind_ok h; cases h; exact extend_roomy h1
  case clear => cases h; exact ⟨.clear, .clear⟩
  case reserveLeft => cases h; exact ⟨.reserve .., .refl⟩
  case reserveRight => cases h; exact ⟨.refl, .reserve ..⟩
  case tryReserveLeft n a => cases h; cases a; exact .refl; exact ⟨.reserve .., .refl⟩
  case tryReserveRight n a => cases h; cases a; exact .refl; exact ⟨.refl, .reserve ..⟩
  case clone => cases h; exact ⟨.clone _, .clone _⟩
  all_goals cases h; exact .refl

theorem run_roomy {ops : List (Op L R)} {os} (hs : ∀ op ∈ ops, G.Shrinks ∨ shrinks op = false) (h : m.run ops = .ok (os, m')) :
    Roomy G (ops.map (asksL G.cost)).sum (ops.map (asksR G.cost)).sum m m' := by
  induction ops generalizing m os with
  | nil => cases h; exact .refl
  | cons op ops ih =>
    obtain ⟨⟨o1, m1⟩, h1, h⟩ := bind_ok h
    obtain ⟨⟨os2, m2⟩, h2, h⟩ := bind_ok h
    cases h
    simpa using (exec_roomy (hs op (by simp)) h1).trans (ih (fun o ho => hs o (by simp [ho])) h2)

end Verif.PartialMap
