import Verif.Closed
import Verif.CycleMap.Counter
import Verif.CycleMap.Simulation
/-! A property of tables that all table calls preserve is preserved, for both tables, by the calls of a `CycleMap`. -/
set_option linter.unusedSectionVars false
set_option linter.unusedSimpArgs false
namespace Verif.CycleMap
open CycleSpec OptionalPair RawTable

variable [RawImpl] [LawfulRaw] {L R : Type} [BEq L] [BEq R]
variable {m m' : CycleMap L R}
variable {P : (T : Type) → RawTable T → Prop} [Closed P]

/-- the tables of `m'` have the property if those of `m` have it -/
def Kept (P : (T : Type) → RawTable T → Prop) (m m' : CycleMap L R) : Prop :=
  Keeps P m.left m'.left ∧ Keeps P m.right m'.right

theorem Kept.refl : Kept P m m := ⟨Keeps.refl, Keeps.refl⟩
theorem Kept.trans {m''} (h : Kept P m m') (h' : Kept P m' m'') : Kept P m m'' :=
  ⟨h.1.trans h'.1, h.2.trans h'.2⟩

theorem removeViaLeft_keeps {l : L} {o} (h : m.removeViaLeft l = .ok (o, m')) : Kept P m m' := by
  simp only [removeViaLeft] at h
  split at h
  · cases h; exact .refl
  · rename_i e1
    split at h
    · cases h
    · rename_i e2; cases h; exact ⟨.removeEntry e1, .removeEntry e2⟩

theorem removeViaRight_keeps {r : R} {o} (h : m.removeViaRight r = .ok (o, m')) : Kept P m m' := by
  simp only [removeViaRight] at h
  split at h
  · cases h; exact .refl
  · rename_i e1
    split at h
    · cases h
    · rename_i e2; cases h; exact ⟨.removeEntry e2, .removeEntry e1⟩

theorem remove_keeps {l : L} {r : R} {o} (h : m.remove l r = .ok (o, m')) : Kept P m m' := by
  simp only [remove] at h
  split at h
  · exact removeViaLeft_keeps h
  · cases h; exact .refl

theorem removeViaHashesAndId_keeps {a b : UInt64} {i : Nat} {o} (h : m.removeViaHashesAndId a b i = .ok (o, m')) :
    Kept P m m' := by
  simp only [removeViaHashesAndId] at h
  split at h
  · cases h; exact .refl
  · rename_i e1
    split at h
    · cases h
    · rename_i e2; cases h; exact ⟨.removeEntry e1, .removeEntry e2⟩

theorem insert_keeps {l : L} {r : R} {o} (h : m.insert l r = .ok (o, m')) : Kept P m m' := by
  obtain ⟨⟨o1, m1⟩, h1, h⟩ := bind_ok h
  obtain ⟨⟨o2, m2⟩, h2, h⟩ := bind_ok h
  cases h
  exact (removeViaLeft_keeps h1).trans ((removeViaRight_keeps h2).trans ⟨.insert .., .insert ..⟩)

theorem swapLeftEqCheck_keeps {a b : L} {x : UInt64} {o} (h : m.swapLeftEqCheck a b x = .ok (o, m')) :
    Kept P m m' := by
  simp only [swapLeftEqCheck] at h
  repeat' split at h
  · cases h; exact .refl
  · exact removeViaLeft_keeps h
  · cases h; exact .refl

theorem swapRightEqCheck_keeps {a b : R} {x : UInt64} {o} (h : m.swapRightEqCheck a b x = .ok (o, m')) :
    Kept P m m' := by
  simp only [swapRightEqCheck] at h
  repeat' split at h
  · cases h; exact .refl
  · exact removeViaRight_keeps h
  · cases h; exact .refl

theorem swapLeft_keeps {a b : L} {o} (h : m.swapLeft a b = .ok (o, m')) : Kept P m m' := by
  obtain ⟨⟨o1, m1⟩, h1, h⟩ := bind_ok h
  refine (swapLeftEqCheck_keeps h1).trans ?_
  simp only at h
  split at h
  · cases h; exact .refl
  · split at h
    · cases h
    · rename_i e1
      split at h
      · cases h
      · rename_i e2
        have : Kept P m1 m' := by
          repeat' split at h
          all_goals cases h; exact ⟨(Keeps.removeEntry e2).trans (.insert ..), (Keeps.getMut e1 _)⟩
        exact this

theorem swapRight_keeps {a b : R} {o} (h : m.swapRight a b = .ok (o, m')) : Kept P m m' := by
  obtain ⟨⟨o1, m1⟩, h1, h⟩ := bind_ok h
  refine (swapRightEqCheck_keeps h1).trans ?_
  simp only at h
  split at h
  · cases h; exact .refl
  · split at h
    · cases h
    · rename_i e1
      split at h
      · cases h
      · rename_i e2
        have : Kept P m1 m' := by
          repeat' split at h
          all_goals cases h; exact ⟨(Keeps.getMut e1 _), (Keeps.removeEntry e2).trans (.insert ..)⟩
        exact this

theorem retainDrop_keeps {ks : List (UInt64 × UInt64 × Nat)} (h : m.retainDrop ks = .ok m') : Kept P m m' := by
  induction ks generalizing m with
  | nil => cases h; exact .refl
  | cons k ks ih =>
    obtain ⟨⟨o1, m1⟩, h1, h⟩ := bind_ok h
    exact (removeViaHashesAndId_keeps h1).trans (ih h)

theorem extend_keeps {xs : List (L × R)} (h : m.extend xs = .ok m') : Kept P m m' := by
  induction xs generalizing m with
  | nil => cases h; exact .refl
  | cons x xs ih =>
    obtain ⟨⟨o1, m1⟩, h1, h⟩ := bind_ok h
    exact ((insert_keeps h1).trans (ih h))

theorem DrainIter.next_keeps {it it' : DrainIter L R} {p} (h : it.next = .ok (some (p, it'))) :
    Keeps P it.right it'.right := by
  simp only [DrainIter.next] at h
  split at h
  · cases h
  · split at h
    · cases h
    · rename_i e; cases h; exact .removeEntry e

theorem DrainIter.take_keeps {n} {it it' : DrainIter L R} {ps} (h : DrainIter.take n it = .ok (ps, it')) :
    Keeps P it.right it'.right := by
  induction n generalizing it ps with
  | zero => cases h; exact .refl
  | succ n ih =>
    obtain ⟨o, h1, h⟩ := bind_ok h
    split at h
    · cases h; exact .refl
    · obtain ⟨⟨ps2, it2⟩, h2, h⟩ := bind_ok h
      cases h
      exact (DrainIter.next_keeps h1).trans (ih h2)

theorem DrainFilter.next_keeps {σ : Type} {f : σ → L → R → Bool × σ} {kept todo right st o} {it : DrainFilter σ L R}
    (h : DrainFilter.next f kept todo right st = .ok (o, it)) :
    Keeps P right it.right ∧ (it.kept ++ it.todo).Sublist (kept ++ todo) := by
  induction todo generalizing kept st with
  | nil => cases h; exact ⟨.refl, .refl _⟩
  | cons e rest ih =>
    simp only [DrainFilter.next] at h
    split at h
    · cases h
    · rename_i e1
      split at h
      · cases h
        exact ⟨.removeEntry e1, List.Sublist.append (.refl _) (List.sublist_cons_self _ _)⟩
      · have := ih h
        exact ⟨this.1, by simpa using this.2⟩

theorem DrainFilter.take_keeps {σ : Type} {f : σ → L → R → Bool × σ} {n} {it it' : DrainFilter σ L R} {ps}
    (h : DrainFilter.take f n it = .ok (ps, it')) :
    Keeps P it.right it'.right ∧ (it'.kept ++ it'.todo).Sublist (it.kept ++ it.todo) := by
  induction n generalizing it ps with
  | zero => cases h; exact ⟨.refl, .refl _⟩
  | succ n ih =>
    obtain ⟨o, h1, h⟩ := bind_ok h
    split at h
    · cases h; exact DrainFilter.next_keeps h1
    · obtain ⟨⟨ps2, it2⟩, h2, h⟩ := bind_ok h
      cases h
      have a := DrainFilter.next_keeps (P := P) h1
      have b := ih h2
      exact ⟨a.1.trans b.1, b.2.trans a.2⟩

theorem drainFilterTake_keeps {σ : Type} {f : σ → L → R → Bool × σ} {st n o s}
    (hn : (m.left.entries.map (·.2.id)).Nodup)
    (h : m.drainFilterTake f st n = .ok (o, s, m')) : Kept P m m' := by
  obtain ⟨⟨o2, m2⟩, h2, h1⟩ := bind_ok h
  obtain ⟨⟨o3, m3⟩, h3, h1⟩ := bind_ok h1; cases h1
  have a := DrainFilter.take_keeps (P := P) h2
  have b := DrainFilter.take_keeps (P := P) h3
  exact ⟨Keeps.erase hn (b.2.trans (by simpa using a.2)), a.1.trans b.1⟩

theorem exec_keeps {op : Op L R} {o} (hn : (m.left.entries.map (·.2.id)).Nodup) (h : m.exec op = .ok (o, m')) :
    Kept P m m' := by
  cases op <;> simp only [exec] at h ⊢
  case insert => obtain ⟨⟨o1, m1⟩, h1, h⟩ := bind_ok h; cases h; exact insert_keeps h1
  case remove => obtain ⟨⟨o1, m1⟩, h1, h⟩ := bind_ok h; cases h; exact remove_keeps h1
  case removeViaLeft => obtain ⟨⟨o1, m1⟩, h1, h⟩ := bind_ok h; cases h; exact removeViaLeft_keeps h1
  case removeViaRight => obtain ⟨⟨o1, m1⟩, h1, h⟩ := bind_ok h; cases h; exact removeViaRight_keeps h1
  case swapLeft => obtain ⟨⟨o1, m1⟩, h1, h⟩ := bind_ok h; cases h; exact swapLeft_keeps h1
  case swapRight => obtain ⟨⟨o1, m1⟩, h1, h⟩ := bind_ok h; cases h; exact swapRight_keeps h1
  case swapLeftChecked =>
    obtain ⟨⟨o1, m1⟩, h1, h⟩ := bind_ok h; cases h
    simp only [swapLeftChecked] at h1
    split at h1
    · cases h1; exact .refl
    · exact swapLeft_keeps h1
  case swapRightChecked =>
    obtain ⟨⟨o1, m1⟩, h1, h⟩ := bind_ok h; cases h
    simp only [swapRightChecked] at h1
    split at h1
    · cases h1; exact .refl
    · exact swapRight_keeps h1
  case swapLeftOrInsert =>
    obtain ⟨⟨o1, m1⟩, h1, h⟩ := bind_ok h; cases h
    simp only [swapLeftOrInsert] at h1
    split at h1
    · exact swapLeft_keeps h1
    · obtain ⟨⟨o2, m2⟩, h2, h1⟩ := bind_ok h1; cases h1; exact insert_keeps h2
  case swapRightOrInsert =>
    obtain ⟨⟨o1, m1⟩, h1, h⟩ := bind_ok h; cases h
    simp only [swapRightOrInsert] at h1
    split at h1
    · exact swapRight_keeps h1
    · obtain ⟨⟨o2, m2⟩, h2, h1⟩ := bind_ok h1
      cases o2 <;> cases h1 <;> exact insert_keeps h2
  case iter => obtain ⟨ps, h1, h⟩ := bind_ok h; cases h; exact .refl
  case drain =>
    obtain ⟨⟨o1, m1⟩, h1, h⟩ := bind_ok h; cases h
    obtain ⟨⟨o2, m2⟩, h2, h1⟩ := bind_ok h1; cases h1
    exact ⟨.clear, DrainIter.take_keeps h2⟩
  case drainFilter => obtain ⟨⟨o1, s1, m1⟩, h1, h⟩ := bind_ok h; cases h; exact drainFilterTake_keeps hn h1
  case drainFilterAll => obtain ⟨⟨o1, s1, m1⟩, h1, h⟩ := bind_ok h; cases h; exact drainFilterTake_keeps hn h1
  case retain =>
    obtain ⟨⟨o1, m1⟩, h1, h⟩ := bind_ok h; cases h
    obtain ⟨⟨o2, s2⟩, h2, h1⟩ := bind_ok h1
    obtain ⟨m3, h3, h1⟩ := bind_ok h1; cases h1
    exact retainDrop_keeps h3
  case extend => obtain ⟨m1, h1, h⟩ := bind_ok h; cases h; exact extend_keeps h1
  case shrinkTo => cases h; exact ⟨.shrinkTo .., .shrinkTo ..⟩
  case shrinkToFit => cases h; exact ⟨.shrinkTo .., .shrinkTo ..⟩
  case clear => cases h; exact ⟨.clear, .clear⟩
  case reserve => cases h; exact ⟨.reserve .., .reserve ..⟩
  case tryReserve n a b =>
    cases h; cases a <;> cases b
    · exact .refl
    · exact .refl
    · exact ⟨.reserve .., .refl⟩
    · exact ⟨.reserve .., .reserve ..⟩
  case clone => cases h; exact ⟨.clone _, .clone _⟩
  all_goals cases h; exact .refl

/-- A property of tables that every call of `RawTable` preserves holds of the tables of every reachable map. -/
theorem Reachable.closed [EquivBEq L] [EquivBEq R] (h : Reachable m) : P _ m.left ∧ P _ m.right := by
  induction h with
  | new hb => exact ⟨Closed.new _, Closed.new _⟩
  | withCapacity n hb => exact ⟨Closed.new _, Closed.new _⟩
  | @step m op o m' hm hd hcl e ih =>
    obtain ⟨c, ps, hps, -⟩ := hm.repr
    have hn : (m.left.entries.map (·.2.id)).Nodup := by
      rw [(hps.left.map _).nodup_iff, List.map_map, List.Nodup, List.pairwise_map]
      exact hps.apart.imp fun h => h.1
    have hk := exec_keeps (P := P) hn e
    exact ⟨hk.1.imp ih.1, hk.2.imp ih.2⟩

end Verif.CycleMap
