import Verif.Closed
import Verif.GroupMap.Counter
/-! A property of tables that all table calls preserve is preserved, for both tables, by the calls of a `GroupMap`. -/
set_option linter.unusedSectionVars false
set_option linter.unusedSimpArgs false
namespace Verif.GroupMap
open GroupSpec RawTable
open CycleMap (bind_ok)

variable [RawImpl] [LawfulRaw] {L R : Type} [BEq L] [BEq R]
variable {m m' : GroupMap L R}
variable {P : (T : Type) → RawTable T → Prop} [Closed P]

/-- the tables of `m'` have the property if those of `m` have it -/
def Kept (P : (T : Type) → RawTable T → Prop) (m m' : GroupMap L R) : Prop :=
  Keeps P m.left m'.left ∧ Keeps P m.right m'.right

theorem Kept.refl : Kept P m m := ⟨Keeps.refl, Keeps.refl⟩
theorem Kept.trans {m''} (h : Kept P m m') (h' : Kept P m' m'') : Kept P m m'' :=
  ⟨h.1.trans h'.1, h.2.trans h'.2⟩

local macro "kept1" : tactic => `(tactic| first
  | exact Keeps.refl
  | exact Keeps.insert ..
  | exact Keeps.getMut (by assumption) _
  | exact (Keeps.getMut (by assumption) _)
  | exact Keeps.removeEntry (by assumption)
  | exact (Keeps.getMut (by assumption) _).trans (Keeps.insert ..)
  | (refine Keeps.trans ?_ (Keeps.getMut (by assumption) _); exact Keeps.getMut (by assumption) _)
  | (refine Keeps.trans ?_ (Keeps.getMut (by assumption) _); exact Keeps.getMut (by assumption) _))

local macro "kept" : tactic => `(tactic| (refine ⟨?_, ?_⟩ <;> kept1))

theorem removeLeft_keeps {l : L} {o} (h : m.removeLeft l = .ok (o, m')) : Kept P m m' := by
  simp only [removeLeft] at h
  repeat' split at h
  all_goals first | cases h; done | (cases h; kept)

theorem removeAll_keeps {left left' : RawTable (LeftItem L)} {ps ls} (h : removeAll left ps = .ok (ls, left')) :
    Keeps P left left' := by
  induction ps generalizing left ls with
  | nil => cases h; exact .refl
  | cons p ps ih =>
    simp only [removeAll] at h
    split at h
    · cases h
    · rename_i e
      obtain ⟨⟨o1, m1⟩, h1, h⟩ := bind_ok h
      cases h
      exact (Keeps.removeEntry e).trans (ih h1)

theorem removeRight_keeps {r : R} {o} (h : m.removeRight r = .ok (o, m')) : Kept P m m' := by
  simp only [removeRight] at h
  split at h
  · cases h; exact .refl
  · obtain ⟨⟨o1, m1⟩, h1, h⟩ := bind_ok h
    cases h; exact ⟨removeAll_keeps h1, .removeEntry (by assumption)⟩

theorem removeViaHashAndId_keeps {a : UInt64} {i : Nat} {o} (h : m.removeViaHashAndId a i = .ok (o, m')) :
    Kept P m m' := by
  simp only [removeViaHashAndId] at h
  split at h
  · cases h; exact .refl
  · obtain ⟨⟨o1, m1⟩, h1, h⟩ := bind_ok h
    cases h; exact ⟨removeAll_keeps h1, .removeEntry (by assumption)⟩

theorem remove_keeps {l : L} {r : R} {o} (h : m.remove l r = .ok (o, m')) : Kept P m m' := by
  simp only [remove] at h
  split at h
  · exact removeRight_keeps h
  · cases h; exact .refl

theorem insert_keeps {l : L} {r : R} (h : m.insert l r = .ok m') : Kept P m m' := by
  simp only [insert] at h
  repeat' split at h
  all_goals first | cases h; done | (cases h; kept)

theorem insertRemove_keeps {l : L} {r : R} {o} (h : m.insertRemove l r = .ok (o, m')) : Kept P m m' := by
  obtain ⟨⟨o1, m1⟩, h1, h⟩ := bind_ok h
  obtain ⟨⟨o2, m2⟩, h2, h⟩ := bind_ok h
  cases h
  exact (removeLeft_keeps h1).trans ((removeRight_keeps h2).trans ⟨.insert .., .insert ..⟩)

theorem insertLeft_keeps {l : L} {r : R} {o} (h : m.insertLeft l r = .ok (o, m')) : Kept P m m' := by
  simp only [insertLeft] at h
  split at h
  · cases h; exact .refl
  · rename_i e
    obtain ⟨⟨o1, m1⟩, h1, h⟩ := bind_ok h
    cases h
    have a := removeLeft_keeps (P := P) h1
    exact ⟨a.1.trans (.insert ..), (Keeps.getMut e _).trans a.2⟩

theorem insertRight_keeps {r : R} {o} (h : m.insertRight r = .ok (o, m')) : Kept P m m' := by
  obtain ⟨⟨o1, m1⟩, h1, h⟩ := bind_ok h
  cases h
  exact (removeRight_keeps h1).trans ⟨.refl, .insert ..⟩

theorem rehashAll_keeps {left left' : RawTable (LeftItem L)} {n ps} (h : rehashAll n left ps = .ok left') :
    Keeps P left left' := by
  induction ps generalizing left with
  | nil => cases h; exact .refl
  | cons p ps ih =>
    simp only [rehashAll] at h
    split at h
    · cases h
    · rename_i e; exact (Keeps.getMut e _).trans (ih h)

theorem swapRight_keeps {a b : R} (h : m.swapRight a b = .ok m') : Kept P m m' := by
  simp only [swapRight] at h
  split at h
  · obtain ⟨⟨o1, m1⟩, h1, h⟩ := bind_ok h
    cases h; exact insertRight_keeps h1
  · rename_i e
    obtain ⟨o1, h1, h⟩ := bind_ok h
    cases h; exact ⟨rehashAll_keeps h1, (Keeps.getMut e _).trans (.insert ..)⟩

theorem swapRightRemove_keeps {a b : R} {o} (h : m.swapRightRemove a b = .ok (o, m')) : Kept P m m' := by
  simp only [swapRightRemove] at h
  split at h
  · obtain ⟨⟨o1, m1⟩, h1, h⟩ := bind_ok h
    cases h; exact insertRight_keeps h1
  · rename_i e
    obtain ⟨o1, h1, h⟩ := bind_ok h
    cases h; exact ⟨rehashAll_keeps h1, (Keeps.removeEntry e).trans (.insert ..)⟩

theorem pair_keeps {l : L} {r : R} {o} (h : m.pair l r = .ok (o, m')) : Kept P m m' := by
  simp only [pair] at h
  repeat' split at h
  all_goals first | cases h; done | (cases h; kept)

theorem retainPairedDrop_keeps {left : RawTable (LeftItem L)} {ks} : Keeps P left (retainPairedDrop left ks) := by
  induction ks generalizing left with
  | nil => exact .refl
  | cons k ks ih =>
    simp only [retainPairedDrop]
    split
    · exact ih
    · rename_i e; exact (Keeps.removeEntry e).trans ih

theorem retainPaired_keeps {σ : Type} {f : σ → L → R → Bool × σ} {s : σ} {o}
    (h : m.retainPaired f s = .ok (o, m')) : Kept P m m' := by
  obtain ⟨o1, h1, h⟩ := bind_ok h
  obtain ⟨⟨o2, s2⟩, h2, h⟩ := bind_ok h
  cases h; exact ⟨retainPairedDrop_keeps, .refl⟩

theorem retainUnpairedDrop_keeps {ks} (h : m.retainUnpairedDrop ks = .ok m') : Kept P m m' := by
  induction ks generalizing m with
  | nil => cases h; exact .refl
  | cons k ks ih =>
    obtain ⟨⟨o1, m1⟩, h1, h⟩ := bind_ok h
    exact (removeViaHashAndId_keeps h1).trans (ih h)

theorem retainUnpaired_keeps {σ : Type} {f : σ → R → Bool × σ} {s : σ} {o}
    (h : m.retainUnpaired f s = .ok (o, m')) : Kept P m m' := by
  obtain ⟨⟨o1, s1⟩, h1, h⟩ := bind_ok h
  obtain ⟨m2, h2, h⟩ := bind_ok h
  cases h; exact retainUnpairedDrop_keeps h2

theorem extend_keeps {xs : List (L × R)} (h : m.extend xs = .ok m') : Kept P m m' := by
  induction xs generalizing m with
  | nil => cases h; exact .refl
  | cons x xs ih =>
    obtain ⟨m1, h1, h⟩ := bind_ok h
    exact ((insert_keeps h1).trans (ih h))

theorem extendOpt_keeps {xs : List (Option L × R)} (h : m.extendOpt xs = .ok m') :
    Kept P m m' := by
  induction xs generalizing m with
  | nil => cases h; exact .refl
  | cons x xs ih =>
    obtain ⟨l, r⟩ := x
    cases l with
    | none =>
      obtain ⟨⟨o1, m1⟩, h1, h⟩ := bind_ok h
      exact ((insertRight_keeps h1).trans (ih h))
    | some l =>
      obtain ⟨m1, h1, h⟩ := bind_ok h
      exact ((insert_keeps h1).trans (ih h))

theorem exec_keeps {op : Op L R} {o} (h : m.exec op = .ok (o, m')) : Kept P m m' := by
  cases op <;> simp only [exec] at h ⊢
  case insert => obtain ⟨m1, h1, h⟩ := bind_ok h; cases h; exact insert_keeps h1
  case insertRemove => obtain ⟨⟨o1, m1⟩, h1, h⟩ := bind_ok h; cases h; exact insertRemove_keeps h1
  case insertLeft => obtain ⟨⟨o1, m1⟩, h1, h⟩ := bind_ok h; cases h; exact insertLeft_keeps h1
  case insertRight => obtain ⟨⟨o1, m1⟩, h1, h⟩ := bind_ok h; cases h; exact insertRight_keeps h1
  case swapRight => obtain ⟨m1, h1, h⟩ := bind_ok h; cases h; exact swapRight_keeps h1
  case swapRightRemove => obtain ⟨⟨o1, m1⟩, h1, h⟩ := bind_ok h; cases h; exact swapRightRemove_keeps h1
  case pair => obtain ⟨⟨o1, m1⟩, h1, h⟩ := bind_ok h; cases h; exact pair_keeps h1
  case remove => obtain ⟨⟨o1, m1⟩, h1, h⟩ := bind_ok h; cases h; exact remove_keeps h1
  case removeLeft => obtain ⟨⟨o1, m1⟩, h1, h⟩ := bind_ok h; cases h; exact removeLeft_keeps h1
  case removeRight => obtain ⟨⟨o1, m1⟩, h1, h⟩ := bind_ok h; cases h; exact removeRight_keeps h1
  case retainPaired => obtain ⟨⟨o1, m1⟩, h1, h⟩ := bind_ok h; cases h; exact retainPaired_keeps h1
  case retainUnpaired => obtain ⟨⟨o1, m1⟩, h1, h⟩ := bind_ok h; cases h; exact retainUnpaired_keeps h1
  case extend => obtain ⟨m1, h1, h⟩ := bind_ok h; cases h; exact extend_keeps h1
  case extendOpt => obtain ⟨m1, h1, h⟩ := bind_ok h; cases h; exact extendOpt_keeps h1
  case getLeftIter => obtain ⟨o1, h1, h⟩ := bind_ok h; cases h; exact .refl
  case iter => obtain ⟨o1, h1, h⟩ := bind_ok h; cases h; exact .refl
  case iterPaired => obtain ⟨o1, h1, h⟩ := bind_ok h; cases h; exact .refl
  case clear => cases h; exact ⟨.clear, .clear⟩
  case clone => cases h; exact ⟨.clone _, .clone _⟩
  all_goals cases h; exact .refl

theorem run_keeps {ops : List (Op L R)} {os} (h : m.run ops = .ok (os, m')) :
    Kept P m m' := by
  induction ops generalizing m os with
  | nil => cases h; exact .refl
  | cons op ops ih =>
    obtain ⟨⟨o1, m1⟩, h1, h⟩ := bind_ok h
    obtain ⟨⟨os2, m2⟩, h2, h⟩ := bind_ok h
    cases h
    simpa using (exec_keeps h1).trans (ih h2)

end Verif.GroupMap
