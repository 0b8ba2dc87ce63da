import Verif.Keyed
import Verif.PartialMap.Closed
/-! What holds of every `PartialCycleMap`, also after the calls that break it (`unpair` of items that collide twice,
`drain_filter`): each item is stored under its own hash and the items of each side are pairwise different. -/
set_option linter.unusedSectionVars false
set_option linter.unusedSimpArgs false
namespace Verif.PartialMap
open PartialSpec OptionalPair RawTable
open CycleMap (bind_ok)

variable [RawImpl] [LawfulRaw]

/-- different items -/
def Away {T : Type} [BEq T] (a b : MappingPair T) : Prop := (a.value == b.value) = false

theorem Away.symm {T : Type} [BEq T] [EquivBEq T] (a b : MappingPair T) (h : Away a b) : Away b a := by
  rw [Away, BEq.comm]; exact h

/-- items under their own hash, pairwise different, all satisfying `q` -/
abbrev Own {T : Type} [BEq T] (hf : T → UInt64) (q : T → Prop) (t : RawTable (MappingPair T)) : Prop :=
  RawTable.Keyed (·.hashWith hf) Away (fun x => q x.value) t

/-- what is so of the items of `t` is so of the items of `t'` -/
structure Fewer {T : Type} [BEq T] (hf : T → UInt64) (t t' : RawTable (MappingPair T)) : Prop where
  imp : ∀ q, Own hf q t → Own hf q t'

section
variable {T : Type} [BEq T] [EquivBEq T] {hf : T → UInt64} {t t' t'' : RawTable (MappingPair T)}

omit [RawImpl] [LawfulRaw] [EquivBEq T] in
theorem Fewer.refl : Fewer hf t t := ⟨fun _ h => h⟩
omit [RawImpl] [LawfulRaw] [EquivBEq T] in
theorem Fewer.trans (h : Fewer hf t t') (h' : Fewer hf t' t'') : Fewer hf t t'' := ⟨fun q k => h'.imp q (h.imp q k)⟩

theorem Fewer.getMut {h p x w} (e : t.getMut h p = some (x, w)) {o : Option UInt64} {i : Nat} :
    Fewer hf t (w { x with hash := o, id := i }) :=
  ⟨fun q k => k.write (v := { x with hash := o, id := i }) Away.symm e rfl (fun _ h => h) (fun h => h)⟩

theorem Fewer.removeEntry {h p x} (e : t.removeEntry h p = some (x, t')) : Fewer hf t t' :=
  ⟨fun q k => (k.removed Away.symm e).1⟩

omit [RawImpl] [LawfulRaw] [EquivBEq T] in
theorem Fewer.sublist (h : t'.entries.Sublist t.entries) : Fewer hf t t' :=
  ⟨fun q k => ⟨fun e he => k.hash e (h.subset he), k.apart.sublist h, fun e he => k.all e (h.subset he)⟩⟩

theorem Fewer.perm (h : t'.entries.Perm t.entries) : Fewer hf t t' := ⟨fun q k => k.of_perm Away.symm h⟩

theorem Fewer.clear : Fewer hf t t.clear := ⟨fun _ _ => .of_nil (RawTable.clear_entries _)⟩

theorem Fewer.reserve (n : Nat) (h : Own hf (fun _ => True) t) : Fewer hf t (t.reserve n (·.hashWith hf)) :=
  .perm (RawTable.reserve_perm _ _ h.hash)

theorem Fewer.shrinkTo (n : Nat) (h : Own hf (fun _ => True) t) : Fewer hf t (t.shrinkTo n (·.hashWith hf)) :=
  .perm (RawTable.shrinkTo_perm _ _ h.hash)

/-- an item taken out is away from those that stay -/
theorem Own.out {q} (h : Own hf q t) (hh : ∀ a b : T, (a == b) = true → hf a = hf b) {a : T}
    (e : match t.removeEntry (hf a) (equivalentKey a) with | none => t' = t | some (_, s) => t' = s) :
    Own hf (fun x => q x ∧ (a == x) = false) t' := by
  split at e
  · rename_i h1
    subst e
    have := h.absent_removeEntry (fun x hx => (hh _ _ hx).symm) h1
    exact ⟨h.hash, h.apart, fun e he => ⟨h.all e he, this e he⟩⟩
  · rename_i x s h1
    subst e
    obtain ⟨h3, h4, h5, h6⟩ := h.removed Away.symm h1
    refine ⟨h3.hash, h3.apart, fun e he => ⟨h3.all e he, ?_⟩⟩
    rw [BEq.congr_left (show (a == x.value) = true from h4)]; exact h6 e he

theorem Own.add {a : T} (h : Own hf (fun x => (a == x) = false) t) (o : Option UInt64) (i : Nat) :
    Own hf (fun _ => True) (t.insert (hf a) ⟨a, o, i⟩ (·.hashWith hf)) :=
  RawTable.Keyed.inserted (hash := (·.hashWith hf)) (v := ⟨a, o, i⟩) Away.symm
    (h.mono fun _ _ => trivial) (fun e he => h.all e he) trivial

omit [RawImpl] [LawfulRaw] [EquivBEq T] in
theorem Own.weaken {q} (h : Own hf q t) : Own hf (fun _ => True) t := h.mono fun _ _ => trivial

end

variable {L R : Type} [BEq L] [BEq R] [EquivBEq L] [EquivBEq R]
variable {m m' : PartialMap L R}

structure Always (m : PartialMap L R) : Prop where
  left : Own m.hb.hl (fun _ => True) m.left
  right : Own m.hb.hr (fun _ => True) m.right

/-- how a call that puts no item in acts on the tables -/
structure Less (m m' : PartialMap L R) : Prop where
  hb : m'.hb = m.hb
  left : Fewer m.hb.hl m.left m'.left
  right : Fewer m.hb.hr m.right m'.right

theorem Less.refl : Less m m := ⟨rfl, .refl, .refl⟩
theorem Less.trans {m''} (h : Less m m') (h' : Less m' m'') : Less m m'' :=
  ⟨h'.hb.trans h.hb, h.left.trans (h.hb ▸ h'.left), h.right.trans (h.hb ▸ h'.right)⟩
theorem Less.always (h : Less m m') (ha : Always m) : Always m' :=
  ⟨h.hb ▸ h.left.imp _ ha.left, h.hb ▸ h.right.imp _ ha.right⟩

/-- `m'` is in order and hashes as `m` does -/
def Then (m m' : PartialMap L R) : Prop := Always m' ∧ m'.hb = m.hb

theorem Less.then (h : Less m m') (ha : Always m) : Then m m' := ⟨h.always ha, h.hb⟩
theorem Then.trans {m''} (h : Then m m') (h' : Then m' m'') : Then m m'' := ⟨h'.1, h'.2.trans h.2⟩
theorem Then.refl (ha : Always m) : Then m m := ⟨ha, rfl⟩

local macro "kept1" : tactic => `(tactic| first
  | exact Fewer.refl
  | exact Fewer.getMut (by assumption)
  | exact Fewer.removeEntry (by assumption)
  | (refine Fewer.trans ?_ (Fewer.getMut (by assumption)); exact Fewer.getMut (by assumption))
  | (refine Fewer.trans ?_ (Fewer.removeEntry (by assumption)); exact Fewer.getMut (by assumption)))

local macro "kept" : tactic => `(tactic| (refine ⟨rfl, ?_, ?_⟩ <;> kept1))

theorem removeViaLeft_less {l : L} {o} (h : m.removeViaLeft l = .ok (o, m')) : Less m m' := by
  simp only [removeViaLeft] at h
  repeat' split at h
  all_goals first | cases h; done | (cases h; kept)

theorem removeViaRight_less {r : R} {o} (h : m.removeViaRight r = .ok (o, m')) : Less m m' := by
  simp only [removeViaRight] at h
  repeat' split at h
  all_goals first | cases h; done | (cases h; kept)

theorem removeLeft_less {l : L} {o} (h : m.removeLeft l = .ok (o, m')) : Less m m' := by
  simp only [removeLeft] at h
  repeat' split at h
  all_goals first | cases h; done | (cases h; kept)

theorem removeRight_less {r : R} {o} (h : m.removeRight r = .ok (o, m')) : Less m m' := by
  simp only [removeRight] at h
  repeat' split at h
  all_goals first | cases h; done | (cases h; kept)

theorem remove_less {l : L} {r : R} {o} (h : m.remove l r = .ok (o, m')) : Less m m' := by
  simp only [remove] at h
  split at h
  · obtain ⟨⟨o1, m1⟩, h1, h⟩ := bind_ok h
    have e := removeViaLeft_less h1
    simp only at h
    split at h
    all_goals first | (cases h; exact e) | cases h
  · cases h; exact .refl

theorem removeViaLeft_away (ha : Always m) {l : L} {o} (h : m.removeViaLeft l = .ok (o, m')) :
    Own m.hb.hl (fun x => (l == x) = false) m'.left := by
  have : Own m.hb.hl (fun x => True ∧ (l == x) = false) m'.left := by
    refine ha.left.out m.hb.hl_congr ?_
    simp only [removeViaLeft] at h
    split at h
    · rename_i h1; rw [h1]; cases h; rfl
    · rename_i h1; rw [h1]
      repeat' split at h
      all_goals first | cases h; done | (cases h; rfl)
  exact this.mono fun _ h => h.2

theorem removeViaRight_away (ha : Always m) {r : R} {o} (h : m.removeViaRight r = .ok (o, m')) :
    Own m.hb.hr (fun x => (r == x) = false) m'.right := by
  have : Own m.hb.hr (fun x => True ∧ (r == x) = false) m'.right := by
    refine ha.right.out m.hb.hr_congr ?_
    simp only [removeViaRight] at h
    split at h
    · rename_i h1; rw [h1]; cases h; rfl
    · rename_i h1; rw [h1]
      repeat' split at h
      all_goals first | cases h; done | (cases h; rfl)
  exact this.mono fun _ h => h.2

theorem insert_always (ha : Always m) {l : L} {r : R} {o} (h : m.insert l r = .ok (o, m')) : Then m m' := by
  obtain ⟨⟨o1, m1⟩, h1, h⟩ := bind_ok h
  obtain ⟨⟨o2, m2⟩, h2, h⟩ := bind_ok h
  cases h
  have a1 := removeViaLeft_less h1
  have a2 := removeViaRight_less h2
  have k1 := removeViaLeft_away ha h1
  have k2 := removeViaRight_away (a1.always ha) h2
  rw [← a1.hb] at k1
  have k3 := a2.left.imp _ k1
  rw [← a2.hb] at k2 k3
  exact ⟨⟨k3.add _ _, k2.add _ _⟩, a2.hb.trans a1.hb⟩

theorem insertLeft_always (ha : Always m) {l : L} {o} (h : m.insertLeft l = .ok (o, m')) : Then m m' := by
  obtain ⟨⟨o1, m1⟩, h1, h⟩ := bind_ok h
  cases h
  have a1 := removeViaLeft_less h1
  have k1 := removeViaLeft_away ha h1
  rw [← a1.hb] at k1
  exact ⟨⟨k1.add _ _, (a1.always ha).right⟩, a1.hb⟩

theorem insertRight_always (ha : Always m) {r : R} {o} (h : m.insertRight r = .ok (o, m')) : Then m m' := by
  obtain ⟨⟨o1, m1⟩, h1, h⟩ := bind_ok h
  cases h
  have a1 := removeViaRight_less h1
  have k1 := removeViaRight_away ha h1
  rw [← a1.hb] at k1
  exact ⟨⟨(a1.always ha).left, k1.add _ _⟩, a1.hb⟩

theorem pair_less (l : L) (r : R) : Less m (m.pair l r).2 := by
  simp only [pair]
  repeat' split
  all_goals kept

theorem unpair_less (l : L) (r : R) : Less m (m.unpair l r).2 := by
  simp only [unpair]
  repeat' split
  all_goals kept

theorem pairForced_less {l : L} {r : R} {o} (h : m.pairForced l r = .ok (o, m')) : Less m m' := by
  simp only [pairForced] at h
  repeat' split at h
  all_goals first | cases h; done | (cases h; kept)

theorem pairForcedRemove_less {l : L} {r : R} {o} (h : m.pairForcedRemove l r = .ok (o, m')) : Less m m' := by
  simp only [pairForcedRemove] at h
  repeat' split at h
  all_goals first | cases h; done | (cases h; kept)

/-- after the equality check only `old` may equal `new` -/
theorem swapLeftEqCheck_less (ha : Always m) {a b : L} {o} (h : m.swapLeftEqCheck a b (m.hb.hl b) = .ok (o, m')) :
    Less m m' ∧ ((b == a) = false → Own m.hb.hl (fun x => (b == x) = false) m'.left) := by
  simp only [swapLeftEqCheck] at h
  split at h
  · exact ⟨removeViaLeft_less h, fun _ => removeViaLeft_away ha h⟩
  · rename_i hne
    cases h
    refine ⟨.refl, fun hf => ⟨ha.left.hash, ha.left.apart, fun e he => ?_⟩⟩
    have h1 : (m.left.get (m.hb.hl b) (equivalentKey b)).isSome = false := by simpa [bne, hf] using hne
    rw [ha.left.get_isSome (p := equivalentKey b) (fun x hx => (m.hb.hl_congr _ _ hx).symm)] at h1
    have := List.any_eq_false.1 h1 e.2 (List.mem_map.2 ⟨e, he, rfl⟩)
    simpa [equivalentKey] using this

theorem swapRightEqCheck_less (ha : Always m) {a b : R} {o} (h : m.swapRightEqCheck a b (m.hb.hr b) = .ok (o, m')) :
    Less m m' ∧ ((b == a) = false → Own m.hb.hr (fun x => (b == x) = false) m'.right) := by
  simp only [swapRightEqCheck] at h
  split at h
  · exact ⟨removeViaRight_less h, fun _ => removeViaRight_away ha h⟩
  · rename_i hne
    cases h
    refine ⟨.refl, fun hf => ⟨ha.right.hash, ha.right.apart, fun e he => ?_⟩⟩
    have h1 : (m.right.get (m.hb.hr b) (equivalentKey b)).isSome = false := by simpa [bne, hf] using hne
    rw [ha.right.get_isSome (p := equivalentKey b) (fun x hx => (m.hb.hr_congr _ _ hx).symm)] at h1
    have := List.any_eq_false.1 h1 e.2 (List.mem_map.2 ⟨e, he, rfl⟩)
    simpa [equivalentKey] using this

/-- exchanging an item for one that equals it or no other -/
theorem Own.exchange {T : Type} [BEq T] [EquivBEq T] {hf : T → UInt64} {t t' : RawTable (MappingPair T)}
    (ht : Own hf (fun _ => True) t) {a b : T} {h x} (e : t.removeEntry h (equivalentKey a) = some (x, t'))
    (hb : (b == a) = false → Own hf (fun y => (b == y) = false) t) (o : Option UInt64) (i : Nat) :
    Own hf (fun _ => True) (t'.insert (hf b) ⟨b, o, i⟩ (·.hashWith hf)) := by
  obtain ⟨c1, c2, -, c4⟩ := ht.removed Away.symm e
  refine Own.add ⟨c1.hash, c1.apart, fun e' he => ?_⟩ o i
  cases hba : b == a with
  | true => rw [BEq.congr_left hba, BEq.congr_left (show (a == x.value) = true from c2)]; exact c4 e' he
  | false => exact (((hb hba).removed Away.symm e).1).all e' he

theorem swapLeft_always (ha : Always m) {a b : L} {o} (h : m.swapLeft a b = .ok (o, m')) : Then m m' := by
  obtain ⟨⟨o1, m1⟩, h1, h⟩ := bind_ok h
  obtain ⟨e, k⟩ := swapLeftEqCheck_less ha h1
  have a1 := e.always ha
  simp only at h
  split at h
  · cases h; exact ⟨a1, e.hb⟩
  · simp only [bind, Except.bind, pure, Except.pure] at h
    rw [← e.hb] at k
    have g : ∀ {right' left' x t oo i}, Fewer m1.hb.hr m1.right right' →
        m1.left.removeEntry (m1.hb.hl a) (equivalentKey a) = some (x, t) →
        left' = t.insert (m.hb.hl b) ⟨b, oo, i⟩ (·.hashWith m1.hb.hl) →
        Then m { m1 with left := left', right := right' } := by
      intro right' left' x t oo i hr hx hl
      rw [← e.hb] at hl
      subst hl
      exact ⟨⟨a1.left.exchange hx k _ _, hr.imp _ a1.right⟩, e.hb⟩
    repeat' split at h
    all_goals first
      | cases h; done
      | (cases h; exact g (by kept1) (by assumption) rfl)

theorem swapRight_always (ha : Always m) {a b : R} {o} (h : m.swapRight a b = .ok (o, m')) : Then m m' := by
  obtain ⟨⟨o1, m1⟩, h1, h⟩ := bind_ok h
  obtain ⟨e, k⟩ := swapRightEqCheck_less ha h1
  have a1 := e.always ha
  simp only at h
  split at h
  · cases h; exact ⟨a1, e.hb⟩
  · simp only [bind, Except.bind, pure, Except.pure] at h
    rw [← e.hb] at k
    have g : ∀ {right' left' x t oo i}, Fewer m1.hb.hl m1.left left' →
        m1.right.removeEntry (m1.hb.hr a) (equivalentKey a) = some (x, t) →
        right' = t.insert (m.hb.hr b) ⟨b, oo, i⟩ (·.hashWith m1.hb.hr) →
        Then m { m1 with left := left', right := right' } := by
      intro right' left' x t oo i hr hx hl
      rw [← e.hb] at hl
      subst hl
      exact ⟨⟨hr.imp _ a1.left, a1.right.exchange hx k _ _⟩, e.hb⟩
    repeat' split at h
    all_goals first
      | cases h; done
      | (cases h; exact g (by kept1) (by assumption) rfl)

theorem removeViaHashesAndId_less (a b : UInt64) (i : Nat) : Less m (m.removeViaHashesAndId a b i).2 := by
  simp only [removeViaHashesAndId]
  refine ⟨rfl, ?_, ?_⟩ <;> simp only <;> split <;> kept1

theorem retainDrop_less {ks} (h : m.retainDrop ks = .ok m') : Less m m' := by
  induction ks generalizing m with
  | nil => cases h; exact .refl
  | cons k ks ih =>
    obtain ⟨a, b, i⟩ := k
    cases a <;> cases b <;> simp only [retainDrop] at h
    · cases h
    · refine Less.trans ?_ (ih h)
      split <;> kept
    · refine Less.trans ?_ (ih h)
      split <;> kept
    · exact (removeViaHashesAndId_less ..).trans (ih h)

theorem retainPairedDrop_less (ks) : Less m (m.retainPairedDrop ks) := by
  induction ks generalizing m with
  | nil => exact .refl
  | cons k ks ih =>
    exact (removeViaHashesAndId_less ..).trans (ih (m := (m.removeViaHashesAndId k.1 k.2.1 k.2.2).2))

theorem retainUnpairedDrop_less {ks} (h : m.retainUnpairedDrop ks = .ok m') : Less m m' := by
  induction ks generalizing m with
  | nil => cases h; exact .refl
  | cons k ks ih =>
    obtain ⟨a, b, i⟩ := k
    cases a <;> cases b <;> simp only [retainUnpairedDrop] at h
    · cases h
    · refine Less.trans ?_ (ih h)
      split <;> kept
    · refine Less.trans ?_ (ih h)
      split <;> kept
    · cases h

theorem extendPairs_always (ha : Always m) {xs : List (L × R)} (h : m.extendPairs xs = .ok m') : Then m m' := by
  induction xs generalizing m with
  | nil => cases h; exact .refl ha
  | cons x xs ih =>
    obtain ⟨⟨o1, m1⟩, h1, h⟩ := bind_ok h
    have a := insert_always ha h1
    exact a.trans (ih a.1 h)

theorem extend_always (ha : Always m) {xs : List (OptionalPair L R)} (h : m.extend xs = .ok m') : Then m m' := by
  induction xs generalizing m with
  | nil => cases h; exact .refl ha
  | cons x xs ih =>
    cases x with
    | neither => exact ih ha h
    | someLeft l =>
      obtain ⟨⟨o1, m1⟩, h1, h⟩ := bind_ok h
      have a := insertLeft_always ha h1
      exact a.trans (ih a.1 h)
    | someRight r =>
      obtain ⟨⟨o1, m1⟩, h1, h⟩ := bind_ok h
      have a := insertRight_always ha h1
      exact a.trans (ih a.1 h)
    | someBoth l r =>
      obtain ⟨⟨o1, m1⟩, h1, h⟩ := bind_ok h
      have a := insert_always ha h1
      exact a.trans (ih a.1 h)

theorem DrainIter.next_fewer {hf : R → UInt64} {it it' : DrainIter L R} {p} (h : it.next = .ok (p, it')) :
    Fewer hf it.right it'.right := by
  simp only [DrainIter.next] at h
  repeat' split at h
  all_goals first | cases h; done | (cases h; kept1) | (cases h; exact .clear)

theorem DrainIter.take_fewer {n} {hf : R → UInt64} {it it' : DrainIter L R} {ps} (h : DrainIter.take n it = .ok (ps, it')) :
    Fewer hf it.right it'.right := by
  induction n generalizing it ps with
  | zero => cases h; exact .refl
  | succ n ih =>
    obtain ⟨o, h1, h⟩ := bind_ok h
    split at h
    · cases h; exact DrainIter.next_fewer h1
    · obtain ⟨⟨ps2, it2⟩, h2, h⟩ := bind_ok h
      cases h
      exact (DrainIter.next_fewer h1).trans (ih h2)

theorem DrainFilter.nextL_fewer {σ : Type} {hf : R → UInt64} {f : σ → OptionalPair L R → Bool × σ} {kept todo right st o kept' todo' right' st'}
    (h : DrainFilter.nextL f kept todo right st = .ok (o, kept', todo', right', st')) :
    Fewer hf right right' ∧ (kept' ++ todo').Sublist (kept ++ todo) ∧ (todo = [] → right' = right ∧ o = none) := by
  induction todo generalizing kept st with
  | nil => cases h; exact ⟨.refl, .refl _, fun _ => ⟨rfl, rfl⟩⟩
  | cons e rest ih =>
    simp only [DrainFilter.nextL] at h
    have s : (kept ++ rest).Sublist (kept ++ e :: rest) := List.Sublist.append (.refl _) (List.sublist_cons_self _ _)
    repeat' split at h
    · cases h
    · cases h
      exact ⟨.removeEntry (by assumption), s, by simp⟩
    · have := ih h
      exact ⟨this.1, by simpa using this.2.1, by simp⟩
    · cases h
      exact ⟨.refl, s, by simp⟩
    · have := ih h
      exact ⟨this.1, by simpa using this.2.1, by simp⟩

theorem DrainFilter.next_fewer {σ : Type} {hf : R → UInt64} {f : σ → OptionalPair L R → Bool × σ} {it it' : DrainFilter σ L R} {o}
    (ht : it.Tidy) (h : DrainFilter.next f it = .ok (o, it')) :
    it'.Tidy ∧ Fewer hf it.right it'.right ∧ (it'.keptL ++ it'.todoL).Sublist (it.keptL ++ it.todoL) := by
  obtain ⟨x, h1, h⟩ := bind_ok h
  obtain ⟨o1, kl, tl, rt, s1⟩ := x
  obtain ⟨a, b, c⟩ := DrainFilter.nextL_fewer h1
  obtain ⟨f1, f2⟩ := ht
  cases o1 with
  | some o1 =>
    cases h
    refine ⟨?_, a, b⟩
    rcases f2 with ⟨f2, f3, f4⟩ | ⟨_, f2⟩
    · exact ⟨by simp [f3, f4], .inl ⟨f2, f3, f4⟩⟩
    · cases (c f2).2
  | none =>
    have hb : (kl ++ []).Sublist (it.keptL ++ it.todoL) := by
      refine List.Sublist.trans ?_ b
      exact List.Sublist.append (.refl _) (List.nil_sublist _)
    cases hr : it.reset with
    | true =>
      simp only [hr, if_true] at h
      cases h
      exact ⟨⟨by simpa using DrainFilter.nextR_keeps (kept := []) (todo := rt.entries), .inr ⟨rfl, rfl⟩⟩, a, hb⟩
    | false =>
      simp only [hr, Bool.false_eq_true, if_false] at h
      cases h
      rcases f2 with ⟨f2, _⟩ | ⟨_, f2⟩
      · rw [hr] at f2; cases f2
      · obtain ⟨rfl, _⟩ := c f2
        exact ⟨⟨DrainFilter.nextR_keeps.trans f1, .inr ⟨rfl, rfl⟩⟩, a, hb⟩

theorem DrainFilter.take_fewer {σ : Type} {hf : R → UInt64} {f : σ → OptionalPair L R → Bool × σ} {n} {it it' : DrainFilter σ L R} {ps}
    (ht : it.Tidy) (h : DrainFilter.take f n it = .ok (ps, it')) :
    it'.Tidy ∧ Fewer hf it.right it'.right ∧ (it'.keptL ++ it'.todoL).Sublist (it.keptL ++ it.todoL) := by
  induction n generalizing it ps with
  | zero => cases h; exact ⟨ht, .refl, .refl _⟩
  | succ n ih =>
    obtain ⟨o, h1, h⟩ := bind_ok h
    split at h
    · cases h; exact DrainFilter.next_fewer ht h1
    · obtain ⟨⟨ps2, it2⟩, h2, h⟩ := bind_ok h
      cases h
      have a := DrainFilter.next_fewer (hf := hf) ht h1
      have b := ih a.1 h2
      exact ⟨b.1, a.2.1.trans b.2.1, b.2.2.trans a.2.2⟩

theorem drainFilterTake_less {σ : Type} {f : σ → OptionalPair L R → Bool × σ} {st n o s}
    (h : m.drainFilterTake f st n = .ok (o, s, m')) : Less m m' := by
  obtain ⟨⟨o2, m2⟩, h2, h1⟩ := bind_ok h
  obtain ⟨⟨o3, m3⟩, h3, h1⟩ := bind_ok h1; cases h1
  have a := DrainFilter.take_fewer (hf := m.hb.hr) ⟨by simp, .inl ⟨rfl, rfl, rfl⟩⟩ h2
  have b := DrainFilter.take_fewer (hf := m.hb.hr) a.1 h3
  exact ⟨rfl, (Fewer.sublist (t' := { m.left with entries := m3.keptL ++ m3.todoL })
      (b.2.2.trans (by simpa using a.2.2))).trans (.perm (LawfulRaw.touch_perm _ _)),
    (a.2.1.trans b.2.1).trans ((Fewer.sublist (t' := { m3.right with entries := m3.keptR ++ m3.todoR }) b.1.1).trans
      (.perm (LawfulRaw.touch_perm _ _)))⟩

theorem Own.clone {T : Type} [BEq T] [EquivBEq T] {hf : T → UInt64} {t : RawTable (MappingPair T)}
    (hh : ∀ a b : T, (a == b) = true → hf a = hf b) (h : Own hf (fun _ => True) t) {c : T → T}
    (hc : ∀ x, (c x == x) = true) : Own hf (fun _ => True) (t.clone (MappingPair.clone c)) := by
  refine ⟨?_, ?_, fun _ _ => trivial⟩
  · intro e he
    obtain ⟨a, ha, rfl⟩ := List.mem_map.1 he
    exact (hh _ _ (hc _)).trans (h.hash a ha)
  · refine List.pairwise_map.2 (h.apart.imp fun {a b} hab => ?_)
    show (c a.2.value == c b.2.value) = false
    rw [BEq.congr_left (hc _), BEq.congr_right (hc _)]
    exact hab

/-- clones made by a history use lawful `Clone` implementations -/
def LawfulClones (ops : List (Op L R)) : Prop :=
  ∀ cl cr, Op.clone cl cr ∈ ops → (∀ x, (cl x == x) = true) ∧ (∀ x, (cr x == x) = true)

theorem exec_always (ha : Always m) {op : Op L R} {o} (hc : LawfulClones [op]) (h : m.exec op = .ok (o, m')) :
    Then m m' := by
  cases op <;> simp only [exec] at h ⊢
  case insert => obtain ⟨⟨o1, m1⟩, h1, h⟩ := bind_ok h; cases h; exact insert_always ha h1
  case insertLeft => obtain ⟨⟨o1, m1⟩, h1, h⟩ := bind_ok h; cases h; exact insertLeft_always ha h1
  case insertRight => obtain ⟨⟨o1, m1⟩, h1, h⟩ := bind_ok h; cases h; exact insertRight_always ha h1
  case pair => cases h; exact Less.then (pair_less _ _) ha
  case pairForced => obtain ⟨⟨o1, m1⟩, h1, h⟩ := bind_ok h; cases h; exact Less.then (pairForced_less h1) ha
  case pairForcedRemove => obtain ⟨⟨o1, m1⟩, h1, h⟩ := bind_ok h; cases h; exact Less.then (pairForcedRemove_less h1) ha
  case unpair => cases h; exact Less.then (unpair_less _ _) ha
  case remove => obtain ⟨⟨o1, m1⟩, h1, h⟩ := bind_ok h; cases h; exact Less.then (remove_less h1) ha
  case removeViaLeft => obtain ⟨⟨o1, m1⟩, h1, h⟩ := bind_ok h; cases h; exact Less.then (removeViaLeft_less h1) ha
  case removeViaRight => obtain ⟨⟨o1, m1⟩, h1, h⟩ := bind_ok h; cases h; exact Less.then (removeViaRight_less h1) ha
  case removeLeft => obtain ⟨⟨o1, m1⟩, h1, h⟩ := bind_ok h; cases h; exact Less.then (removeLeft_less h1) ha
  case removeRight => obtain ⟨⟨o1, m1⟩, h1, h⟩ := bind_ok h; cases h; exact Less.then (removeRight_less h1) ha
  case swapLeft => obtain ⟨⟨o1, m1⟩, h1, h⟩ := bind_ok h; cases h; exact swapLeft_always ha h1
  case swapRight => obtain ⟨⟨o1, m1⟩, h1, h⟩ := bind_ok h; cases h; exact swapRight_always ha h1
  case swapLeftChecked =>
    obtain ⟨⟨o1, m1⟩, h1, h⟩ := bind_ok h; cases h
    simp only [swapLeftChecked] at h1
    split at h1
    · cases h1; exact .refl ha
    · exact swapLeft_always ha h1
  case swapRightChecked =>
    obtain ⟨⟨o1, m1⟩, h1, h⟩ := bind_ok h; cases h
    simp only [swapRightChecked] at h1
    split at h1
    · cases h1; exact .refl ha
    · exact swapRight_always ha h1
  case swapLeftOrInsert =>
    obtain ⟨⟨o1, m1⟩, h1, h⟩ := bind_ok h; cases h
    simp only [swapLeftOrInsert] at h1
    split at h1
    · exact (swapLeft_always ha h1)
    · obtain ⟨⟨o2, m2⟩, h2, h1⟩ := bind_ok h1
      have e := insert_always ha h2
      repeat' split at h1
      all_goals rename_i heq; first | (cases heq; cases h1; exact e) | cases h1
  case swapRightOrInsert =>
    obtain ⟨⟨o1, m1⟩, h1, h⟩ := bind_ok h; cases h
    simp only [swapRightOrInsert] at h1
    split at h1
    · exact (swapRight_always ha h1)
    · obtain ⟨⟨o2, m2⟩, h2, h1⟩ := bind_ok h1
      have e := insert_always ha h2
      repeat' split at h1
      all_goals rename_i heq; first | (cases heq; cases h1; exact e) | cases h1
  case iterPaired => obtain ⟨ps, h1, h⟩ := bind_ok h; cases h; exact .refl ha
  case drain =>
    obtain ⟨⟨o1, m1⟩, h1, h⟩ := bind_ok h; cases h
    obtain ⟨⟨o2, m2⟩, h2, h1⟩ := bind_ok h1
    obtain ⟨⟨o3, m3⟩, h3, h1⟩ := bind_ok h1; cases h1
    exact Less.then ⟨rfl, .clear, (DrainIter.take_fewer h2).trans (DrainIter.take_fewer h3)⟩ ha
  case drainFilter => obtain ⟨⟨o1, s1, m1⟩, h1, h⟩ := bind_ok h; cases h; exact Less.then (drainFilterTake_less h1) ha
  case retain =>
    obtain ⟨⟨o1, m1⟩, h1, h⟩ := bind_ok h; cases h
    obtain ⟨⟨o2, s2⟩, h2, h1⟩ := bind_ok h1
    obtain ⟨m3, h3, h1⟩ := bind_ok h1; cases h1
    exact Less.then (retainDrop_less h3) ha
  case retainPaired =>
    obtain ⟨⟨o1, m1⟩, h1, h⟩ := bind_ok h; cases h
    obtain ⟨ps, h2, h1⟩ := bind_ok h1
    obtain ⟨⟨m3, s3⟩, h3, h1⟩ := bind_ok h1; cases h1
    exact Less.then (retainPairedDrop_less _) ha
  case retainUnpaired =>
    obtain ⟨⟨o1, m1⟩, h1, h⟩ := bind_ok h; cases h
    obtain ⟨⟨o2, s2⟩, h2, h1⟩ := bind_ok h1
    obtain ⟨m3, h3, h1⟩ := bind_ok h1; cases h1
    exact Less.then (retainUnpairedDrop_less h3) ha
  case extendPairs => obtain ⟨m1, h1, h⟩ := bind_ok h; cases h; exact extendPairs_always ha h1
  case extend => obtain ⟨m1, h1, h⟩ := bind_ok h; cases h; exact extend_always ha h1
  case shrinkToLeft => cases h; exact Less.then ⟨rfl, .shrinkTo _ ha.left, .refl⟩ ha
  case shrinkToRight => cases h; exact Less.then ⟨rfl, .refl, .shrinkTo _ ha.right⟩ ha
  case shrinkToFit => cases h; exact Less.then ⟨rfl, .shrinkTo _ ha.left, .shrinkTo _ ha.right⟩ ha
  case clear => cases h; exact Less.then ⟨rfl, .clear, .clear⟩ ha
  case reserveLeft => cases h; exact Less.then ⟨rfl, .reserve _ ha.left, .refl⟩ ha
  case reserveRight => cases h; exact Less.then ⟨rfl, .refl, .reserve _ ha.right⟩ ha
  case tryReserveLeft n a => cases h; cases a; exact .refl ha; exact Less.then ⟨rfl, .reserve _ ha.left, .refl⟩ ha
  case tryReserveRight n a => cases h; cases a; exact .refl ha; exact Less.then ⟨rfl, .refl, .reserve _ ha.right⟩ ha
  case clone cl cr =>
    cases h
    obtain ⟨h1, h2⟩ := hc cl cr (by simp)
    exact ⟨⟨ha.left.clone m.hb.hl_congr h1, ha.right.clone m.hb.hr_congr h2⟩, rfl⟩
  all_goals cases h; exact .refl ha

theorem run_always (h : Always m) {ops : List (Op L R)} {os} (hc : LawfulClones ops) (e : m.run ops = .ok (os, m')) :
    Then m m' := by
  induction ops generalizing m os with
  | nil => cases e; exact .refl h
  | cons op ops ih =>
    obtain ⟨⟨o1, m1⟩, h1, e⟩ := bind_ok e
    obtain ⟨⟨os, m2⟩, h2, e⟩ := bind_ok e
    cases e
    have a1 := exec_always h (fun cl cr hm => hc cl cr (by
      rcases List.mem_cons.1 hm with rfl | hm
      · exact List.mem_cons_self
      · cases hm)) h1
    exact a1.trans (ih a1.1 (fun cl cr hm => hc cl cr (List.mem_cons_of_mem _ hm)) h2)

theorem withCapacity_always (n : Nat) (hb : BuildHasher L R) : Always (withCapacityAndHasher n hb) :=
  ⟨.of_nil (RawTable.withCapacity_entries _), .of_nil (RawTable.withCapacity_entries _)⟩

end Verif.PartialMap
