import Verif.Room
import Verif.CycleMap.Counter
/-! The room and the memory of the two tables of a `CycleMap`, for arbitrary (also corrupted) maps. -/
set_option linter.unusedSectionVars false
set_option linter.unusedSimpArgs false
namespace Verif.CycleMap
open CycleSpec OptionalPair RawTable

variable [RawImpl] {L R : Type} [BEq L] [BEq R]
variable {G : Meter} [G.Lawful]
variable {m m' : CycleMap L R}

/-- both tables of `m'` compared with those of `m` -/
def Roomy (G : Meter) (k : Nat) (m m' : CycleMap L R) : Prop := Room G k m.left m'.left ∧ Room G k m.right m'.right

theorem Roomy.refl {k} : Roomy G k m m := ⟨Room.refl, Room.refl⟩
theorem Roomy.mono {k k'} (h : Roomy G k m m') (hk : k ≤ k') : Roomy G k' m m' := ⟨h.1.mono hk, h.2.mono hk⟩
theorem Roomy.trans {k k'} {m''} (h : Roomy G k m m') (h' : Roomy G k' m' m'') : Roomy G (k + k') m m'' :=
  ⟨h.1.trans h'.1, h.2.trans h'.2⟩
theorem Roomy.trans0 {k} {m''} (h : Roomy G 0 m m') (h' : Roomy G k m' m'') : Roomy G k m m'' :=
  ⟨h.1.trans0 h'.1, h.2.trans0 h'.2⟩

theorem removeViaLeft_roomy {l : L} {o} (h : m.removeViaLeft l = .ok (o, m')) : Roomy G 0 m m' := by
  simp only [removeViaLeft] at h
  split at h
  · cases h; exact .refl
  · rename_i e1
    split at h
    · cases h
    · rename_i e2; cases h; exact ⟨.removeEntry e1, .removeEntry e2⟩

theorem removeViaRight_roomy {r : R} {o} (h : m.removeViaRight r = .ok (o, m')) : Roomy G 0 m m' := by
  simp only [removeViaRight] at h
  split at h
  · cases h; exact .refl
  · rename_i e1
    split at h
    · cases h
    · rename_i e2; cases h; exact ⟨.removeEntry e2, .removeEntry e1⟩

theorem remove_roomy {l : L} {r : R} {o} (h : m.remove l r = .ok (o, m')) : Roomy G 0 m m' := by
  simp only [remove] at h
  split at h
  · exact removeViaLeft_roomy h
  · cases h; exact .refl

theorem removeViaHashesAndId_roomy {a b : UInt64} {i : Nat} {o} (h : m.removeViaHashesAndId a b i = .ok (o, m')) :
    Roomy G 0 m m' := by
  simp only [removeViaHashesAndId] at h
  split at h
  · cases h; exact .refl
  · rename_i e1
    split at h
    · cases h
    · rename_i e2; cases h; exact ⟨.removeEntry e1, .removeEntry e2⟩

theorem insert_roomy {l : L} {r : R} {o} (h : m.insert l r = .ok (o, m')) : Roomy G 1 m m' := by
  obtain ⟨⟨o1, m1⟩, h1, h⟩ := bind_ok h
  obtain ⟨⟨o2, m2⟩, h2, h⟩ := bind_ok h
  cases h
  exact (removeViaLeft_roomy h1).trans0 ((removeViaRight_roomy h2).trans0 ⟨.insert .., .insert ..⟩)

theorem swapLeftEqCheck_roomy {a b : L} {x : UInt64} {o} (h : m.swapLeftEqCheck a b x = .ok (o, m')) :
    Roomy G 0 m m' := by
  simp only [swapLeftEqCheck] at h
  repeat' split at h
  · cases h; exact .refl
  · exact removeViaLeft_roomy h
  · cases h; exact .refl

theorem swapRightEqCheck_roomy {a b : R} {x : UInt64} {o} (h : m.swapRightEqCheck a b x = .ok (o, m')) :
    Roomy G 0 m m' := by
  simp only [swapRightEqCheck] at h
  repeat' split at h
  · cases h; exact .refl
  · exact removeViaRight_roomy h
  · cases h; exact .refl

theorem swapLeft_roomy {a b : L} {o} (h : m.swapLeft a b = .ok (o, m')) : Roomy G 1 m m' := by
  obtain ⟨⟨o1, m1⟩, h1, h⟩ := bind_ok h
  refine (swapLeftEqCheck_roomy h1).trans0 ?_
  simp only at h
  split at h
  · cases h; exact .refl
  · split at h
    · cases h
    · rename_i e1
      split at h
      · cases h
      · rename_i e2
        have : Roomy G 1 m1 m' := by
          repeat' split at h
          all_goals cases h; exact ⟨(Room.removeEntry e2).trans0 (.insert ..), (Room.getMut e1 _).mono (Nat.zero_le _)⟩
        exact this

theorem swapRight_roomy {a b : R} {o} (h : m.swapRight a b = .ok (o, m')) : Roomy G 1 m m' := by
  obtain ⟨⟨o1, m1⟩, h1, h⟩ := bind_ok h
  refine (swapRightEqCheck_roomy h1).trans0 ?_
  simp only at h
  split at h
  · cases h; exact .refl
  · split at h
    · cases h
    · rename_i e1
      split at h
      · cases h
      · rename_i e2
        have : Roomy G 1 m1 m' := by
          repeat' split at h
          all_goals cases h; exact ⟨(Room.getMut e1 _).mono (Nat.zero_le _), (Room.removeEntry e2).trans0 (.insert ..)⟩
        exact this

theorem retainDrop_roomy {ks : List (UInt64 × UInt64 × Nat)} (h : m.retainDrop ks = .ok m') : Roomy G 0 m m' := by
  induction ks generalizing m with
  | nil => cases h; exact .refl
  | cons k ks ih =>
    obtain ⟨⟨o1, m1⟩, h1, h⟩ := bind_ok h
    exact (removeViaHashesAndId_roomy h1).trans0 (ih h)

theorem extend_roomy {xs : List (L × R)} (h : m.extend xs = .ok m') : Roomy G xs.length m m' := by
  induction xs generalizing m with
  | nil => cases h; exact .refl
  | cons x xs ih =>
    obtain ⟨⟨o1, m1⟩, h1, h⟩ := bind_ok h
    exact ((insert_roomy h1).trans (ih h)).mono (by simp; omega)

theorem DrainIter.next_room {it it' : DrainIter L R} {p} (h : it.next = .ok (some (p, it'))) :
    Room G 0 it.right it'.right := by
  simp only [DrainIter.next] at h
  split at h
  · cases h
  · split at h
    · cases h
    · rename_i e; cases h; exact .removeEntry e

theorem DrainIter.take_room {n} {it it' : DrainIter L R} {ps} (h : DrainIter.take n it = .ok (ps, it')) :
    Room G 0 it.right it'.right := by
  induction n generalizing it ps with
  | zero => cases h; exact .refl
  | succ n ih =>
    obtain ⟨o, h1, h⟩ := bind_ok h
    split at h
    · cases h; exact .refl
    · obtain ⟨⟨ps2, it2⟩, h2, h⟩ := bind_ok h
      cases h
      exact (DrainIter.next_room h1).trans0 (ih h2)

theorem DrainFilter.next_room {σ : Type} {f : σ → L → R → Bool × σ} {kept todo right st o} {it : DrainFilter σ L R}
    (h : DrainFilter.next f kept todo right st = .ok (o, it)) :
    Room G 0 right it.right ∧ (it.kept ++ it.todo).Sublist (kept ++ todo) := by
  induction todo generalizing kept st with
  | nil => cases h; exact ⟨.refl, .refl _⟩
  | cons e rest ih =>
    simp only [DrainFilter.next] at h
    split at h
    · cases h
    · rename_i e1
      split at h
      · cases h
        exact ⟨.removeEntry e1, List.Sublist.append (.refl _) (List.sublist_cons_self _ _)⟩
      · have := ih h
        exact ⟨this.1, by simpa using this.2⟩

theorem DrainFilter.take_room {σ : Type} {f : σ → L → R → Bool × σ} {n} {it it' : DrainFilter σ L R} {ps}
    (h : DrainFilter.take f n it = .ok (ps, it')) :
    Room G 0 it.right it'.right ∧ (it'.kept ++ it'.todo).Sublist (it.kept ++ it.todo) := by
  induction n generalizing it ps with
  | zero => cases h; exact ⟨.refl, .refl _⟩
  | succ n ih =>
    obtain ⟨o, h1, h⟩ := bind_ok h
    split at h
    · cases h; exact DrainFilter.next_room h1
    · obtain ⟨⟨ps2, it2⟩, h2, h⟩ := bind_ok h
      cases h
      have a := DrainFilter.next_room (G := G) h1
      have b := ih h2
      exact ⟨a.1.trans0 b.1, b.2.trans a.2⟩

theorem drainFilterTake_roomy {σ : Type} {f : σ → L → R → Bool × σ} {st n o s}
    (h : m.drainFilterTake f st n = .ok (o, s, m')) : Roomy G 0 m m' := by
  obtain ⟨⟨o2, m2⟩, h2, h1⟩ := bind_ok h
  obtain ⟨⟨o3, m3⟩, h3, h1⟩ := bind_ok h1; cases h1
  have a := DrainFilter.take_room (G := G) h2
  have b := DrainFilter.take_room (G := G) h3
  exact ⟨Room.erase (b.2.trans (by simpa using a.2)), a.1.trans0 b.1⟩

/-- the number of elements a call may put into a table -/
def puts : Op L R → Nat
  | .insert .. => 1
  | .swapLeft .. => 1
  | .swapLeftChecked .. => 1
  | .swapLeftOrInsert .. => 1
  | .swapRight .. => 1
  | .swapRightChecked .. => 1
  | .swapRightOrInsert .. => 1
  | .extend xs => xs.length
  | _ => 0

/-- the calls that may give memory back -/
def shrinks : Op L R → Bool
  | .shrinkTo _ => true
  | .shrinkToFit => true
  | _ => false

/-- the number of elements a call may put into a table or make room for, the latter counted as `cost` says -/
def asks (cost : Nat → Nat) : Op L R → Nat
  | .reserve n => cost n
  | .tryReserve n _ _ => cost n
  | op => puts op

theorem asks_zero (op : Op L R) : asks (fun _ => 0) op = puts op := by cases op <;> rfl

theorem exec_roomy {op : Op L R} {o} (hs : G.Shrinks ∨ shrinks op = false) (h : m.exec op = .ok (o, m')) :
    Roomy G (asks G.cost op) m m' := by
  cases op <;> simp only [exec, asks, puts] at h ⊢
  case shrinkTo =>
    rcases hs with hs | hs
    · cases h; exact ⟨.shrink hs .., .shrink hs ..⟩
    · cases hs
  case shrinkToFit =>
    rcases hs with hs | hs
    · cases h; exact ⟨.shrink hs .., .shrink hs ..⟩
    · cases hs
  case insert => obtain ⟨⟨o1, m1⟩, h1, h⟩ := bind_ok h; cases h; exact insert_roomy h1
  case remove => obtain ⟨⟨o1, m1⟩, h1, h⟩ := bind_ok h; cases h; exact remove_roomy h1
  case removeViaLeft => obtain ⟨⟨o1, m1⟩, h1, h⟩ := bind_ok h; cases h; exact removeViaLeft_roomy h1
  case removeViaRight => obtain ⟨⟨o1, m1⟩, h1, h⟩ := bind_ok h; cases h; exact removeViaRight_roomy h1
  case swapLeft => obtain ⟨⟨o1, m1⟩, h1, h⟩ := bind_ok h; cases h; exact swapLeft_roomy h1
  case swapRight => obtain ⟨⟨o1, m1⟩, h1, h⟩ := bind_ok h; cases h; exact swapRight_roomy h1
  case swapLeftChecked =>
    obtain ⟨⟨o1, m1⟩, h1, h⟩ := bind_ok h; cases h
    simp only [swapLeftChecked] at h1
    split at h1
    · cases h1; exact .refl
    · exact swapLeft_roomy h1
  case swapRightChecked =>
    obtain ⟨⟨o1, m1⟩, h1, h⟩ := bind_ok h; cases h
    simp only [swapRightChecked] at h1
    split at h1
    · cases h1; exact .refl
    · exact swapRight_roomy h1
  case swapLeftOrInsert =>
    obtain ⟨⟨o1, m1⟩, h1, h⟩ := bind_ok h; cases h
    simp only [swapLeftOrInsert] at h1
    split at h1
    · exact swapLeft_roomy h1
    · obtain ⟨⟨o2, m2⟩, h2, h1⟩ := bind_ok h1; cases h1; exact insert_roomy h2
  case swapRightOrInsert =>
    obtain ⟨⟨o1, m1⟩, h1, h⟩ := bind_ok h; cases h
    simp only [swapRightOrInsert] at h1
    split at h1
    · exact swapRight_roomy h1
    · obtain ⟨⟨o2, m2⟩, h2, h1⟩ := bind_ok h1
      cases o2 <;> cases h1 <;> exact insert_roomy h2
  case iter => obtain ⟨ps, h1, h⟩ := bind_ok h; cases h; exact .refl
  case drain =>
    obtain ⟨⟨o1, m1⟩, h1, h⟩ := bind_ok h; cases h
    obtain ⟨⟨o2, m2⟩, h2, h1⟩ := bind_ok h1; cases h1
    exact ⟨.clear, DrainIter.take_room h2⟩
  case drainFilter => obtain ⟨⟨o1, s1, m1⟩, h1, h⟩ := bind_ok h; cases h; exact drainFilterTake_roomy h1
  case drainFilterAll => obtain ⟨⟨o1, s1, m1⟩, h1, h⟩ := bind_ok h; cases h; exact drainFilterTake_roomy h1
  case retain =>
    obtain ⟨⟨o1, m1⟩, h1, h⟩ := bind_ok h; cases h
    obtain ⟨⟨o2, s2⟩, h2, h1⟩ := bind_ok h1
    obtain ⟨m3, h3, h1⟩ := bind_ok h1; cases h1
    exact retainDrop_roomy h3
  case extend => obtain ⟨m1, h1, h⟩ := bind_ok h; cases h; exact extend_roomy h1
  case clear => cases h; exact ⟨.clear, .clear⟩
  case reserve => cases h; exact ⟨.reserve .., .reserve ..⟩
  case tryReserve n a b =>
    cases h; cases a <;> cases b
    · exact .refl
    · exact .refl
    · exact ⟨.reserve .., .refl⟩
    · exact ⟨.reserve .., .reserve ..⟩
  case clone => cases h; exact ⟨.clone _, .clone _⟩
  all_goals cases h; exact .refl

theorem run_roomy {ops : List (Op L R)} {os} (hs : ∀ op ∈ ops, G.Shrinks ∨ shrinks op = false) (h : m.run ops = .ok (os, m')) :
    Roomy G (ops.map (asks G.cost)).sum m m' := by
  induction ops generalizing m os with
  | nil => cases h; exact .refl
  | cons op ops ih =>
    obtain ⟨⟨o1, m1⟩, h1, h⟩ := bind_ok h
    obtain ⟨⟨os2, m2⟩, h2, h⟩ := bind_ok h
    cases h
    simpa using (exec_roomy (hs op (by simp)) h1).trans (ih (fun o ho => hs o (by simp [ho])) h2)

end Verif.CycleMap
