import Verif.Room
import Verif.GroupMap.Counter
/-! The room and the memory of the two tables of a `GroupMap`, for arbitrary (also corrupted) maps. -/
set_option linter.unusedSectionVars false
set_option linter.unusedSimpArgs false
namespace Verif.GroupMap
open GroupSpec RawTable
open CycleMap (bind_ok)

variable [RawImpl] {L R : Type} [BEq L] [BEq R]
variable {G : Meter} [G.Lawful]
variable {m m' : GroupMap L R}

/-- both tables of `m'` compared with those of `m`, after `a` and `b` elements were put in -/
def Roomy (G : Meter) (a b : Nat) (m m' : GroupMap L R) : Prop := Room G a m.left m'.left ∧ Room G b m.right m'.right

theorem Roomy.refl {a b} : Roomy G a b m m := ⟨Room.refl, Room.refl⟩
theorem Roomy.mono {a b a' b'} (h : Roomy G a b m m') (ha : a ≤ a') (hb : b ≤ b') : Roomy G a' b' m m' :=
  ⟨h.1.mono ha, h.2.mono hb⟩
theorem Roomy.trans {a b a' b'} {m''} (h : Roomy G a b m m') (h' : Roomy G a' b' m' m'') : Roomy G (a + a') (b + b') m m'' :=
  ⟨h.1.trans h'.1, h.2.trans h'.2⟩
theorem Roomy.trans0 {a b} {m''} (h : Roomy G 0 0 m m') (h' : Roomy G a b m' m'') : Roomy G a b m m'' :=
  ⟨h.1.trans0 h'.1, h.2.trans0 h'.2⟩

local macro "room1" : tactic => `(tactic| first
  | exact Room.refl
  | exact Room.insert ..
  | exact Room.getMut (by assumption) _
  | exact (Room.getMut (by assumption) _).mono (Nat.zero_le _)
  | exact Room.removeEntry (by assumption)
  | exact (Room.getMut (by assumption) _).trans0 (Room.insert ..)
  | (refine Room.trans0 ?_ (Room.getMut (by assumption) _); exact Room.getMut (by assumption) _)
  | (refine Room.mono (Room.trans0 ?_ (Room.getMut (by assumption) _)) (Nat.zero_le _); exact Room.getMut (by assumption) _))

local macro "room" : tactic => `(tactic| (refine ⟨?_, ?_⟩ <;> room1))

theorem removeLeft_roomy {l : L} {o} (h : m.removeLeft l = .ok (o, m')) : Roomy G 0 0 m m' := by
  simp only [removeLeft] at h
  repeat' split at h
  all_goals first | cases h; done | (cases h; room)

theorem removeAll_room {left left' : RawTable (LeftItem L)} {ps ls} (h : removeAll left ps = .ok (ls, left')) :
    Room G 0 left left' := by
  induction ps generalizing left ls with
  | nil => cases h; exact .refl
  | cons p ps ih =>
    simp only [removeAll] at h
    split at h
    · cases h
    · rename_i e
      obtain ⟨⟨o1, m1⟩, h1, h⟩ := bind_ok h
      cases h
      exact (Room.removeEntry e).trans0 (ih h1)

theorem removeRight_roomy {r : R} {o} (h : m.removeRight r = .ok (o, m')) : Roomy G 0 0 m m' := by
  simp only [removeRight] at h
  split at h
  · cases h; exact .refl
  · obtain ⟨⟨o1, m1⟩, h1, h⟩ := bind_ok h
    cases h; exact ⟨removeAll_room h1, .removeEntry (by assumption)⟩

theorem removeViaHashAndId_roomy {a : UInt64} {i : Nat} {o} (h : m.removeViaHashAndId a i = .ok (o, m')) :
    Roomy G 0 0 m m' := by
  simp only [removeViaHashAndId] at h
  split at h
  · cases h; exact .refl
  · obtain ⟨⟨o1, m1⟩, h1, h⟩ := bind_ok h
    cases h; exact ⟨removeAll_room h1, .removeEntry (by assumption)⟩

theorem remove_roomy {l : L} {r : R} {o} (h : m.remove l r = .ok (o, m')) : Roomy G 0 0 m m' := by
  simp only [remove] at h
  split at h
  · exact removeRight_roomy h
  · cases h; exact .refl

theorem insert_roomy {l : L} {r : R} (h : m.insert l r = .ok m') : Roomy G 1 1 m m' := by
  simp only [insert] at h
  repeat' split at h
  all_goals first | cases h; done | (cases h; room)

theorem insertRemove_roomy {l : L} {r : R} {o} (h : m.insertRemove l r = .ok (o, m')) : Roomy G 1 1 m m' := by
  obtain ⟨⟨o1, m1⟩, h1, h⟩ := bind_ok h
  obtain ⟨⟨o2, m2⟩, h2, h⟩ := bind_ok h
  cases h
  exact (removeLeft_roomy h1).trans0 ((removeRight_roomy h2).trans0 ⟨.insert .., .insert ..⟩)

theorem insertLeft_roomy {l : L} {r : R} {o} (h : m.insertLeft l r = .ok (o, m')) : Roomy G 1 0 m m' := by
  simp only [insertLeft] at h
  split at h
  · cases h; exact .refl
  · rename_i e
    obtain ⟨⟨o1, m1⟩, h1, h⟩ := bind_ok h
    cases h
    have a := removeLeft_roomy (G := G) h1
    exact ⟨a.1.trans0 (.insert ..), (Room.getMut e _).trans0 a.2⟩

theorem insertRight_roomy {r : R} {o} (h : m.insertRight r = .ok (o, m')) : Roomy G 0 1 m m' := by
  obtain ⟨⟨o1, m1⟩, h1, h⟩ := bind_ok h
  cases h
  exact (removeRight_roomy h1).trans0 ⟨.refl, .insert ..⟩

theorem rehashAll_room {left left' : RawTable (LeftItem L)} {n ps} (h : rehashAll n left ps = .ok left') :
    Room G 0 left left' := by
  induction ps generalizing left with
  | nil => cases h; exact .refl
  | cons p ps ih =>
    simp only [rehashAll] at h
    split at h
    · cases h
    · rename_i e; exact (Room.getMut e _).trans0 (ih h)

theorem swapRight_roomy {a b : R} (h : m.swapRight a b = .ok m') : Roomy G 0 1 m m' := by
  simp only [swapRight] at h
  split at h
  · obtain ⟨⟨o1, m1⟩, h1, h⟩ := bind_ok h
    cases h; exact insertRight_roomy h1
  · rename_i e
    obtain ⟨o1, h1, h⟩ := bind_ok h
    cases h; exact ⟨rehashAll_room h1, (Room.getMut e _).trans0 (.insert ..)⟩

theorem swapRightRemove_roomy {a b : R} {o} (h : m.swapRightRemove a b = .ok (o, m')) : Roomy G 0 1 m m' := by
  simp only [swapRightRemove] at h
  split at h
  · obtain ⟨⟨o1, m1⟩, h1, h⟩ := bind_ok h
    cases h; exact insertRight_roomy h1
  · rename_i e
    obtain ⟨o1, h1, h⟩ := bind_ok h
    cases h; exact ⟨rehashAll_room h1, (Room.removeEntry e).trans0 (.insert ..)⟩

theorem pair_roomy {l : L} {r : R} {o} (h : m.pair l r = .ok (o, m')) : Roomy G 0 0 m m' := by
  simp only [pair] at h
  repeat' split at h
  all_goals first | cases h; done | (cases h; room)

theorem retainPairedDrop_room {left : RawTable (LeftItem L)} {ks} : Room G 0 left (retainPairedDrop left ks) := by
  induction ks generalizing left with
  | nil => exact .refl
  | cons k ks ih =>
    simp only [retainPairedDrop]
    split
    · exact ih
    · rename_i e; exact (Room.removeEntry e).trans0 ih

theorem retainPaired_roomy {σ : Type} {f : σ → L → R → Bool × σ} {s : σ} {o}
    (h : m.retainPaired f s = .ok (o, m')) : Roomy G 0 0 m m' := by
  obtain ⟨o1, h1, h⟩ := bind_ok h
  obtain ⟨⟨o2, s2⟩, h2, h⟩ := bind_ok h
  cases h; exact ⟨retainPairedDrop_room, .refl⟩

theorem retainUnpairedDrop_roomy {ks} (h : m.retainUnpairedDrop ks = .ok m') : Roomy G 0 0 m m' := by
  induction ks generalizing m with
  | nil => cases h; exact .refl
  | cons k ks ih =>
    obtain ⟨⟨o1, m1⟩, h1, h⟩ := bind_ok h
    exact (removeViaHashAndId_roomy h1).trans0 (ih h)

theorem retainUnpaired_roomy {σ : Type} {f : σ → R → Bool × σ} {s : σ} {o}
    (h : m.retainUnpaired f s = .ok (o, m')) : Roomy G 0 0 m m' := by
  obtain ⟨⟨o1, s1⟩, h1, h⟩ := bind_ok h
  obtain ⟨m2, h2, h⟩ := bind_ok h
  cases h; exact retainUnpairedDrop_roomy h2

theorem extend_roomy {xs : List (L × R)} (h : m.extend xs = .ok m') : Roomy G xs.length xs.length m m' := by
  induction xs generalizing m with
  | nil => cases h; exact .refl
  | cons x xs ih =>
    obtain ⟨m1, h1, h⟩ := bind_ok h
    exact ((insert_roomy h1).trans (ih h)).mono (by simp; omega) (by simp; omega)

theorem extendOpt_roomy {xs : List (Option L × R)} (h : m.extendOpt xs = .ok m') :
    Roomy G (xs.countP (·.1.isSome)) xs.length m m' := by
  induction xs generalizing m with
  | nil => cases h; exact .refl
  | cons x xs ih =>
    obtain ⟨l, r⟩ := x
    cases l with
    | none =>
      obtain ⟨⟨o1, m1⟩, h1, h⟩ := bind_ok h
      exact ((insertRight_roomy h1).trans (ih h)).mono (by simp) (by simp; omega)
    | some l =>
      obtain ⟨m1, h1, h⟩ := bind_ok h
      exact ((insert_roomy h1).trans (ih h)).mono (by simp; omega) (by simp; omega)

/-- the number of elements a call may put into the left table -/
def putsL : Op L R → Nat
  | .insert .. => 1
  | .insertRemove .. => 1
  | .insertLeft .. => 1
  | .extend xs => xs.length
  | .extendOpt xs => xs.countP (·.1.isSome)
  | _ => 0

/-- the number of elements a call may put into the right table -/
def putsR : Op L R → Nat
  | .insert .. => 1
  | .insertRemove .. => 1
  | .insertRight .. => 1
  | .swapRight .. => 1
  | .swapRightRemove .. => 1
  | .extend xs => xs.length
  | .extendOpt xs => xs.length
  | _ => 0

theorem exec_roomy {op : Op L R} {o} (h : m.exec op = .ok (o, m')) : Roomy G (putsL op) (putsR op) m m' := by
  cases op <;> simp only [exec, putsL, putsR] at h ⊢
  case insert => obtain ⟨m1, h1, h⟩ := bind_ok h; cases h; exact insert_roomy h1
  case insertRemove => obtain ⟨⟨o1, m1⟩, h1, h⟩ := bind_ok h; cases h; exact insertRemove_roomy h1
  case insertLeft => obtain ⟨⟨o1, m1⟩, h1, h⟩ := bind_ok h; cases h; exact insertLeft_roomy h1
  case insertRight => obtain ⟨⟨o1, m1⟩, h1, h⟩ := bind_ok h; cases h; exact insertRight_roomy h1
  case swapRight => obtain ⟨m1, h1, h⟩ := bind_ok h; cases h; exact swapRight_roomy h1
  case swapRightRemove => obtain ⟨⟨o1, m1⟩, h1, h⟩ := bind_ok h; cases h; exact swapRightRemove_roomy h1
  case pair => obtain ⟨⟨o1, m1⟩, h1, h⟩ := bind_ok h; cases h; exact pair_roomy h1
  case remove => obtain ⟨⟨o1, m1⟩, h1, h⟩ := bind_ok h; cases h; exact remove_roomy h1
  case removeLeft => obtain ⟨⟨o1, m1⟩, h1, h⟩ := bind_ok h; cases h; exact removeLeft_roomy h1
  case removeRight => obtain ⟨⟨o1, m1⟩, h1, h⟩ := bind_ok h; cases h; exact removeRight_roomy h1
  case retainPaired => obtain ⟨⟨o1, m1⟩, h1, h⟩ := bind_ok h; cases h; exact retainPaired_roomy h1
  case retainUnpaired => obtain ⟨⟨o1, m1⟩, h1, h⟩ := bind_ok h; cases h; exact retainUnpaired_roomy h1
  case extend => obtain ⟨m1, h1, h⟩ := bind_ok h; cases h; exact extend_roomy h1
  case extendOpt => obtain ⟨m1, h1, h⟩ := bind_ok h; cases h; exact extendOpt_roomy h1
  case getLeftIter => obtain ⟨o1, h1, h⟩ := bind_ok h; cases h; exact .refl
  case iter => obtain ⟨o1, h1, h⟩ := bind_ok h; cases h; exact .refl
  case iterPaired => obtain ⟨o1, h1, h⟩ := bind_ok h; cases h; exact .refl
  case clear => cases h; exact ⟨.clear, .clear⟩
  case clone => cases h; exact ⟨.clone _, .clone _⟩
  all_goals cases h; exact .refl

theorem run_roomy {ops : List (Op L R)} {os} (h : m.run ops = .ok (os, m')) :
    Roomy G (ops.map putsL).sum (ops.map putsR).sum m m' := by
  induction ops generalizing m os with
  | nil => cases h; exact .refl
  | cons op ops ih =>
    obtain ⟨⟨o1, m1⟩, h1, h⟩ := bind_ok h
    obtain ⟨⟨os2, m2⟩, h2, h⟩ := bind_ok h
    cases h
    simpa using (exec_roomy h1).trans (ih h2)

end Verif.GroupMap
