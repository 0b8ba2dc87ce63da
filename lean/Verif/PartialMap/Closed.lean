import Verif.Closed
import Verif.PartialMap.Counter
import Verif.PartialMap.Simulation
/-! A property of tables that all table calls preserve is preserved, for both tables, by the calls of a `PartialCycleMap`. -/
set_option linter.unusedSectionVars false
set_option linter.unusedSimpArgs false
namespace Verif.PartialMap
open PartialSpec OptionalPair RawTable
open CycleMap (bind_ok)

variable [RawImpl] [LawfulRaw] {L R : Type} [BEq L] [BEq R]
variable {m m' : PartialMap L R}
variable {P : (T : Type) → RawTable T → Prop} [Closed P]

/-- the tables of `m'` have the property if those of `m` have it -/
def Kept (P : (T : Type) → RawTable T → Prop) (m m' : PartialMap L R) : Prop :=
  Keeps P m.left m'.left ∧ Keeps P m.right m'.right

theorem Kept.refl : Kept P m m := ⟨Keeps.refl, Keeps.refl⟩
theorem Kept.trans {m''} (h : Kept P m m') (h' : Kept P m' m'') : Kept P m m'' :=
  ⟨h.1.trans h'.1, h.2.trans h'.2⟩

local macro "kept1" : tactic => `(tactic| first
  | exact Keeps.refl
  | exact Keeps.getMut (by assumption) _
  | exact Keeps.removeEntry (by assumption)
  | (refine Keeps.trans ?_ (Keeps.getMut (by assumption) _); exact Keeps.getMut (by assumption) _)
  | (refine Keeps.trans ?_ (Keeps.removeEntry (by assumption)); exact Keeps.getMut (by assumption) _))

local macro "kept" : tactic => `(tactic| (refine ⟨?_, ?_⟩ <;> kept1))

theorem removeViaLeft_keeps {l : L} {o} (h : m.removeViaLeft l = .ok (o, m')) : Kept P m m' := by
  simp only [removeViaLeft] at h
  repeat' split at h
  all_goals first | cases h; done | (cases h; kept)

theorem removeViaRight_keeps {r : R} {o} (h : m.removeViaRight r = .ok (o, m')) : Kept P m m' := by
  simp only [removeViaRight] at h
  repeat' split at h
  all_goals first | cases h; done | (cases h; kept)

theorem removeLeft_keeps {l : L} {o} (h : m.removeLeft l = .ok (o, m')) : Kept P m m' := by
  simp only [removeLeft] at h
  repeat' split at h
  all_goals first | cases h; done | (cases h; kept)

theorem removeRight_keeps {r : R} {o} (h : m.removeRight r = .ok (o, m')) : Kept P m m' := by
  simp only [removeRight] at h
  repeat' split at h
  all_goals first | cases h; done | (cases h; kept)

theorem remove_keeps {l : L} {r : R} {o} (h : m.remove l r = .ok (o, m')) : Kept P m m' := by
  simp only [remove] at h
  split at h
  · obtain ⟨⟨o1, m1⟩, h1, h⟩ := bind_ok h
    have e := removeViaLeft_keeps (P := P) h1
    simp only at h
    split at h
    all_goals first | (cases h; exact e) | cases h
  · cases h; exact .refl

theorem insert_keeps {l : L} {r : R} {o} (h : m.insert l r = .ok (o, m')) : Kept P m m' := by
  obtain ⟨⟨o1, m1⟩, h1, h⟩ := bind_ok h
  obtain ⟨⟨o2, m2⟩, h2, h⟩ := bind_ok h
  cases h
  exact (removeViaLeft_keeps h1).trans ((removeViaRight_keeps h2).trans ⟨.insert .., .insert ..⟩)

theorem insertLeft_keeps {l : L} {o} (h : m.insertLeft l = .ok (o, m')) : Kept P m m' := by
  obtain ⟨⟨o1, m1⟩, h1, h⟩ := bind_ok h
  cases h
  exact (removeViaLeft_keeps h1).trans ⟨.insert .., .refl⟩

theorem insertRight_keeps {r : R} {o} (h : m.insertRight r = .ok (o, m')) : Kept P m m' := by
  obtain ⟨⟨o1, m1⟩, h1, h⟩ := bind_ok h
  cases h
  exact (removeViaRight_keeps h1).trans ⟨.refl, .insert ..⟩

theorem pair_keeps (l : L) (r : R) : Kept P m (m.pair l r).2 := by
  simp only [pair]
  repeat' split
  all_goals kept

theorem unpair_keeps (l : L) (r : R) : Kept P m (m.unpair l r).2 := by
  simp only [unpair]
  repeat' split
  all_goals kept

theorem pairForced_keeps {l : L} {r : R} {o} (h : m.pairForced l r = .ok (o, m')) : Kept P m m' := by
  simp only [pairForced] at h
  repeat' split at h
  all_goals first | cases h; done | (cases h; kept)

theorem pairForcedRemove_keeps {l : L} {r : R} {o} (h : m.pairForcedRemove l r = .ok (o, m')) : Kept P m m' := by
  simp only [pairForcedRemove] at h
  repeat' split at h
  all_goals first | cases h; done | (cases h; kept)

theorem swapLeft_keeps {a b : L} {o} (h : m.swapLeft a b = .ok (o, m')) : Kept P m m' := by
  obtain ⟨⟨o1, m1⟩, h1, h⟩ := bind_ok h
  have e : Kept P m m1 := by
    simp only [swapLeftEqCheck] at h1
    split at h1
    · exact removeViaLeft_keeps h1
    · cases h1; exact .refl
  refine e.trans ?_
  simp only at h
  split at h
  · cases h; exact .refl
  · simp only [bind, Except.bind, pure, Except.pure] at h
    repeat' split at h
    all_goals first
      | cases h; done
      | (cases h; exact ⟨(Keeps.removeEntry (by assumption)).trans (.insert ..), by kept1⟩)

theorem swapRight_keeps {a b : R} {o} (h : m.swapRight a b = .ok (o, m')) : Kept P m m' := by
  obtain ⟨⟨o1, m1⟩, h1, h⟩ := bind_ok h
  have e : Kept P m m1 := by
    simp only [swapRightEqCheck] at h1
    split at h1
    · exact removeViaRight_keeps h1
    · cases h1; exact .refl
  refine e.trans ?_
  simp only at h
  split at h
  · cases h; exact .refl
  · simp only [bind, Except.bind, pure, Except.pure] at h
    repeat' split at h
    all_goals first
      | cases h; done
      | (cases h; exact ⟨by kept1, (Keeps.removeEntry (by assumption)).trans (.insert ..)⟩)

theorem removeViaHashesAndId_keeps (a b : UInt64) (i : Nat) : Kept P m (m.removeViaHashesAndId a b i).2 := by
  simp only [removeViaHashesAndId]
  refine ⟨?_, ?_⟩ <;> simp only <;> split <;> kept1

theorem retainDrop_keeps {ks} (h : m.retainDrop ks = .ok m') : Kept P m m' := by
  induction ks generalizing m with
  | nil => cases h; exact .refl
  | cons k ks ih =>
    obtain ⟨a, b, i⟩ := k
    cases a <;> cases b <;> simp only [retainDrop] at h
    · cases h
    · refine Kept.trans ?_ (ih h)
      split <;> kept
    · refine Kept.trans ?_ (ih h)
      split <;> kept
    · exact (removeViaHashesAndId_keeps ..).trans (ih h)

theorem retainPairedDrop_keeps (ks) : Kept P m (m.retainPairedDrop ks) := by
  induction ks generalizing m with
  | nil => exact .refl
  | cons k ks ih =>
    exact (removeViaHashesAndId_keeps ..).trans (ih (m := (m.removeViaHashesAndId k.1 k.2.1 k.2.2).2))

theorem retainUnpairedDrop_keeps {ks} (h : m.retainUnpairedDrop ks = .ok m') : Kept P m m' := by
  induction ks generalizing m with
  | nil => cases h; exact .refl
  | cons k ks ih =>
    obtain ⟨a, b, i⟩ := k
    cases a <;> cases b <;> simp only [retainUnpairedDrop] at h
    · cases h
    · refine Kept.trans ?_ (ih h)
      split <;> kept
    · refine Kept.trans ?_ (ih h)
      split <;> kept
    · cases h

theorem extendPairs_keeps {xs : List (L × R)} (h : m.extendPairs xs = .ok m') : Kept P m m' := by
  induction xs generalizing m with
  | nil => cases h; exact .refl
  | cons x xs ih =>
    obtain ⟨⟨o1, m1⟩, h1, h⟩ := bind_ok h
    exact ((insert_keeps h1).trans (ih h))

theorem extend_keeps {xs : List (OptionalPair L R)} (h : m.extend xs = .ok m') :
    Kept P m m' := by
  induction xs generalizing m with
  | nil => cases h; exact .refl
  | cons x xs ih =>
    cases x with
    | neither => exact (ih h)
    | someLeft l =>
      obtain ⟨⟨o1, m1⟩, h1, h⟩ := bind_ok h
      exact ((insertLeft_keeps h1).trans (ih h))
    | someRight r =>
      obtain ⟨⟨o1, m1⟩, h1, h⟩ := bind_ok h
      exact ((insertRight_keeps h1).trans (ih h))
    | someBoth l r =>
      obtain ⟨⟨o1, m1⟩, h1, h⟩ := bind_ok h
      exact ((insert_keeps h1).trans (ih h))

theorem DrainIter.next_keeps {it it' : DrainIter L R} {p} (h : it.next = .ok (p, it')) :
    Keeps P it.right it'.right := by
  simp only [DrainIter.next] at h
  repeat' split at h
  all_goals first | cases h; done | (cases h; kept1) | (cases h; exact .clear)

theorem DrainIter.take_keeps {n} {it it' : DrainIter L R} {ps} (h : DrainIter.take n it = .ok (ps, it')) :
    Keeps P it.right it'.right := by
  induction n generalizing it ps with
  | zero => cases h; exact .refl
  | succ n ih =>
    obtain ⟨o, h1, h⟩ := bind_ok h
    split at h
    · cases h; exact DrainIter.next_keeps h1
    · obtain ⟨⟨ps2, it2⟩, h2, h⟩ := bind_ok h
      cases h
      exact (DrainIter.next_keeps h1).trans (ih h2)

theorem DrainFilter.nextL_keeps {σ : Type} {f : σ → OptionalPair L R → Bool × σ} {kept todo right st o kept' todo' right' st'}
    (h : DrainFilter.nextL f kept todo right st = .ok (o, kept', todo', right', st')) :
    Lost P right right' ∧ (kept' ++ todo').Sublist (kept ++ todo) ∧ (todo = [] → right' = right ∧ o = none) := by
  induction todo generalizing kept st with
  | nil => cases h; exact ⟨.refl, .refl _, fun _ => ⟨rfl, rfl⟩⟩
  | cons e rest ih =>
    simp only [DrainFilter.nextL] at h
    have s : (kept ++ rest).Sublist (kept ++ e :: rest) := List.Sublist.append (.refl _) (List.sublist_cons_self _ _)
    repeat' split at h
    · cases h
    · cases h
      exact ⟨.removeEntry (by assumption), s, by simp⟩
    · have := ih h
      exact ⟨this.1, by simpa using this.2.1, by simp⟩
    · cases h
      exact ⟨.refl, s, by simp⟩
    · have := ih h
      exact ⟨this.1, by simpa using this.2.1, by simp⟩

theorem DrainFilter.nextR_keeps {σ : Type} {f : σ → OptionalPair L R → Bool × σ} {kept todo st} :
    ((DrainFilter.nextR f kept todo st).2.1 ++ (DrainFilter.nextR f kept todo st).2.2.1).Sublist (kept ++ todo) := by
  induction todo generalizing kept st with
  | nil => exact .refl _
  | cons e rest ih =>
    simp only [DrainFilter.nextR]
    split
    · exact List.Sublist.append (.refl _) (List.sublist_cons_self _ _)
    · simpa using ih (kept := kept ++ [e])

/-- before the second phase the right table is not yet visited, in it the left entries are used up -/
def DrainFilter.Tidy {σ : Type} (it : DrainFilter σ L R) : Prop :=
  (it.keptR ++ it.todoR).Sublist it.right.entries ∧
    (it.reset = true ∧ it.keptR = [] ∧ it.todoR = [] ∨ it.reset = false ∧ it.todoL = [])

theorem DrainFilter.next_keeps {σ : Type} {f : σ → OptionalPair L R → Bool × σ} {it it' : DrainFilter σ L R} {o}
    (hf : it.Tidy) (h : DrainFilter.next f it = .ok (o, it')) :
    it'.Tidy ∧ Lost P it.right it'.right ∧ (it'.keptL ++ it'.todoL).Sublist (it.keptL ++ it.todoL) := by
  obtain ⟨x, h1, h⟩ := bind_ok h
  obtain ⟨o1, kl, tl, rt, s1⟩ := x
  obtain ⟨a, b, c⟩ := DrainFilter.nextL_keeps (P := P) h1
  obtain ⟨f1, f2⟩ := hf
  cases o1 with
  | some o1 =>
    cases h
    refine ⟨?_, a, b⟩
    rcases f2 with ⟨f2, f3, f4⟩ | ⟨_, f2⟩
    · exact ⟨by simp [f3, f4], .inl ⟨f2, f3, f4⟩⟩
    · cases (c f2).2
  | none =>
    have hb : (kl ++ []).Sublist (it.keptL ++ it.todoL) := by
      refine List.Sublist.trans ?_ b
      exact List.Sublist.append (.refl _) (List.nil_sublist _)
    cases hr : it.reset with
    | true =>
      simp only [hr, if_true] at h
      cases h
      exact ⟨⟨by simpa using DrainFilter.nextR_keeps (kept := []) (todo := rt.entries), .inr ⟨rfl, rfl⟩⟩, a, hb⟩
    | false =>
      simp only [hr, Bool.false_eq_true, if_false] at h
      cases h
      rcases f2 with ⟨f2, _⟩ | ⟨_, f2⟩
      · rw [hr] at f2; cases f2
      · obtain ⟨rfl, _⟩ := c f2
        exact ⟨⟨DrainFilter.nextR_keeps.trans f1, .inr ⟨rfl, rfl⟩⟩, a, hb⟩

theorem DrainFilter.take_keeps {σ : Type} {f : σ → OptionalPair L R → Bool × σ} {n} {it it' : DrainFilter σ L R} {ps}
    (hf : it.Tidy) (h : DrainFilter.take f n it = .ok (ps, it')) :
    it'.Tidy ∧ Lost P it.right it'.right ∧ (it'.keptL ++ it'.todoL).Sublist (it.keptL ++ it.todoL) := by
  induction n generalizing it ps with
  | zero => cases h; exact ⟨hf, .refl, .refl _⟩
  | succ n ih =>
    obtain ⟨o, h1, h⟩ := bind_ok h
    split at h
    · cases h; exact DrainFilter.next_keeps hf h1
    · obtain ⟨⟨ps2, it2⟩, h2, h⟩ := bind_ok h
      cases h
      have a := DrainFilter.next_keeps (P := P) hf h1
      have b := ih a.1 h2
      exact ⟨b.1, a.2.1.trans b.2.1, b.2.2.trans a.2.2⟩

theorem drainFilterTake_keeps {σ : Type} {f : σ → OptionalPair L R → Bool × σ} {st n o s}
    (hn : (m.left.entries.map (·.2.id)).Nodup)
    (hn' : (m.right.entries.map (·.2.id)).Nodup)
    (h : m.drainFilterTake f st n = .ok (o, s, m')) : Kept P m m' := by
  obtain ⟨⟨o2, m2⟩, h2, h1⟩ := bind_ok h
  obtain ⟨⟨o3, m3⟩, h3, h1⟩ := bind_ok h1; cases h1
  have a := DrainFilter.take_keeps (P := P) ⟨by simp, .inl ⟨rfl, rfl, rfl⟩⟩ h2
  have b := DrainFilter.take_keeps (P := P) a.1 h3
  exact ⟨Keeps.erase hn (b.2.2.trans (by simpa using a.2.2)),
    (a.2.1.trans b.2.1).keeps.trans (Keeps.erase ((a.2.1.trans b.2.1).nodup hn') b.1.1)⟩

theorem exec_keeps {op : Op L R} {o} (hn : (m.left.entries.map (·.2.id)).Nodup)
    (hn' : (m.right.entries.map (·.2.id)).Nodup) (h : m.exec op = .ok (o, m')) :
    Kept P m m' := by
  cases op <;> simp only [exec] at h ⊢
  case insert => obtain ⟨⟨o1, m1⟩, h1, h⟩ := bind_ok h; cases h; exact insert_keeps h1
  case insertLeft => obtain ⟨⟨o1, m1⟩, h1, h⟩ := bind_ok h; cases h; exact insertLeft_keeps h1
  case insertRight => obtain ⟨⟨o1, m1⟩, h1, h⟩ := bind_ok h; cases h; exact insertRight_keeps h1
  case pair => cases h; exact pair_keeps _ _
  case pairForced => obtain ⟨⟨o1, m1⟩, h1, h⟩ := bind_ok h; cases h; exact pairForced_keeps h1
  case pairForcedRemove => obtain ⟨⟨o1, m1⟩, h1, h⟩ := bind_ok h; cases h; exact pairForcedRemove_keeps h1
  case unpair => cases h; exact unpair_keeps _ _
  case remove => obtain ⟨⟨o1, m1⟩, h1, h⟩ := bind_ok h; cases h; exact remove_keeps h1
  case removeViaLeft => obtain ⟨⟨o1, m1⟩, h1, h⟩ := bind_ok h; cases h; exact removeViaLeft_keeps h1
  case removeViaRight => obtain ⟨⟨o1, m1⟩, h1, h⟩ := bind_ok h; cases h; exact removeViaRight_keeps h1
  case removeLeft => obtain ⟨⟨o1, m1⟩, h1, h⟩ := bind_ok h; cases h; exact removeLeft_keeps h1
  case removeRight => obtain ⟨⟨o1, m1⟩, h1, h⟩ := bind_ok h; cases h; exact removeRight_keeps h1
  case swapLeft => obtain ⟨⟨o1, m1⟩, h1, h⟩ := bind_ok h; cases h; exact swapLeft_keeps h1
  case swapRight => obtain ⟨⟨o1, m1⟩, h1, h⟩ := bind_ok h; cases h; exact swapRight_keeps h1
  case swapLeftChecked =>
    obtain ⟨⟨o1, m1⟩, h1, h⟩ := bind_ok h; cases h
    simp only [swapLeftChecked] at h1
    split at h1
    · cases h1; exact .refl
    · exact swapLeft_keeps h1
  case swapRightChecked =>
    obtain ⟨⟨o1, m1⟩, h1, h⟩ := bind_ok h; cases h
    simp only [swapRightChecked] at h1
    split at h1
    · cases h1; exact .refl
    · exact swapRight_keeps h1
  case swapLeftOrInsert =>
    obtain ⟨⟨o1, m1⟩, h1, h⟩ := bind_ok h; cases h
    simp only [swapLeftOrInsert] at h1
    split at h1
    · exact (swapLeft_keeps h1)
    · obtain ⟨⟨o2, m2⟩, h2, h1⟩ := bind_ok h1
      have e := insert_keeps (P := P) h2
      repeat' split at h1
      all_goals rename_i heq; first | (cases heq; cases h1; exact e) | cases h1
  case swapRightOrInsert =>
    obtain ⟨⟨o1, m1⟩, h1, h⟩ := bind_ok h; cases h
    simp only [swapRightOrInsert] at h1
    split at h1
    · exact (swapRight_keeps h1)
    · obtain ⟨⟨o2, m2⟩, h2, h1⟩ := bind_ok h1
      have e := insert_keeps (P := P) h2
      repeat' split at h1
      all_goals rename_i heq; first | (cases heq; cases h1; exact e) | cases h1
  case iterPaired => obtain ⟨ps, h1, h⟩ := bind_ok h; cases h; exact .refl
  case drain =>
    obtain ⟨⟨o1, m1⟩, h1, h⟩ := bind_ok h; cases h
    obtain ⟨⟨o2, m2⟩, h2, h1⟩ := bind_ok h1
    obtain ⟨⟨o3, m3⟩, h3, h1⟩ := bind_ok h1; cases h1
    exact ⟨.clear, (DrainIter.take_keeps h2).trans (DrainIter.take_keeps h3)⟩
  case drainFilter => obtain ⟨⟨o1, s1, m1⟩, h1, h⟩ := bind_ok h; cases h; exact drainFilterTake_keeps hn hn' h1
  case retain =>
    obtain ⟨⟨o1, m1⟩, h1, h⟩ := bind_ok h; cases h
    obtain ⟨⟨o2, s2⟩, h2, h1⟩ := bind_ok h1
    obtain ⟨m3, h3, h1⟩ := bind_ok h1; cases h1
    exact retainDrop_keeps h3
  case retainPaired =>
    obtain ⟨⟨o1, m1⟩, h1, h⟩ := bind_ok h; cases h
    obtain ⟨ps, h2, h1⟩ := bind_ok h1
    obtain ⟨⟨m3, s3⟩, h3, h1⟩ := bind_ok h1; cases h1
    exact retainPairedDrop_keeps _
  case retainUnpaired =>
    obtain ⟨⟨o1, m1⟩, h1, h⟩ := bind_ok h; cases h
    obtain ⟨⟨o2, s2⟩, h2, h1⟩ := bind_ok h1
    obtain ⟨m3, h3, h1⟩ := bind_ok h1; cases h1
    exact retainUnpairedDrop_keeps h3
  case extendPairs => obtain ⟨m1, h1, h⟩ := bind_ok h; cases h; exact extendPairs_keeps h1
  case extend => obtain ⟨m1, h1, h⟩ := bind_ok h; cases h; exact extend_keeps h1
  case shrinkToLeft => cases h; exact ⟨.shrinkTo .., .refl⟩
  case shrinkToRight => cases h; exact ⟨.refl, .shrinkTo ..⟩
  case shrinkToFit => cases h; exact ⟨.shrinkTo .., .shrinkTo ..⟩
  case clear => cases h; exact ⟨.clear, .clear⟩
  case reserveLeft => cases h; exact ⟨.reserve .., .refl⟩
  case reserveRight => cases h; exact ⟨.refl, .reserve ..⟩
  case tryReserveLeft n a => cases h; cases a; exact .refl; exact ⟨.reserve .., .refl⟩
  case tryReserveRight n a => cases h; cases a; exact .refl; exact ⟨.refl, .reserve ..⟩
  case clone => cases h; exact ⟨.clone _, .clone _⟩
  all_goals cases h; exact .refl

/-- A property of tables that every call of `RawTable` preserves holds of the tables of every reachable map. -/
theorem Reachable.closed [EquivBEq L] [EquivBEq R] (h : Reachable m) : P _ m.left ∧ P _ m.right := by
  induction h with
  | new hb => exact ⟨Closed.new _, Closed.new _⟩
  | withCapacity n hb => exact ⟨Closed.new _, Closed.new _⟩
  | @step m op o m' hm hu hd hcl e ih =>
    obtain ⟨c, ps, hps, -⟩ := hm.repr
    have hn : (m.left.entries.map (·.2.id)).Nodup := by
      rw [(hps.left.map _).nodup_iff]
      have hs : ((tabL m.hb ps).map (·.2.id)).Sublist (ps.map Rec.id) := by
        clear hps
        induction ps with
        | nil => exact .slnil
        | cons p ps ih =>
          simp only [tabL, List.filterMap_cons] at ih ⊢
          obtain ⟨e, i⟩ := p
          cases e <;> simp only [toL, List.map_cons]
          all_goals first | exact ih.cons_cons _ | exact ih.cons _
      refine hs.nodup ?_
      rw [List.Nodup, List.pairwise_map]
      exact hps.apart.imp fun h => h.1
    have hn' : (m.right.entries.map (·.2.id)).Nodup := by
      rw [(hps.right.map _).nodup_iff]
      have hs : ((tabR m.hb ps).map (·.2.id)).Sublist (ps.map Rec.id) := by
        clear hps
        induction ps with
        | nil => exact .slnil
        | cons p ps ih =>
          simp only [tabR, List.filterMap_cons] at ih ⊢
          obtain ⟨e, i⟩ := p
          cases e <;> simp only [toR, List.map_cons]
          all_goals first | exact ih.cons_cons _ | exact ih.cons _
      refine hs.nodup ?_
      rw [List.Nodup, List.pairwise_map]
      exact hps.apart.imp fun h => h.1
    have hk := exec_keeps (P := P) hn hn' e
    exact ⟨hk.1.imp ih.1, hk.2.imp ih.2⟩

end Verif.PartialMap
