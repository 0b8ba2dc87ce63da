import Verif.Keyed
import Verif.CycleMap.Room
import Verif.CycleMap.Closed
/-! What holds of every `CycleMap`, also after a `drain` that was dropped early: each item is stored under its own
hash, the items of each side are pairwise different, and the ids on the left are in use once and below the counter. -/
set_option linter.unusedSectionVars false
set_option linter.unusedSimpArgs false
namespace Verif.CycleMap
open CycleSpec OptionalPair

variable [RawImpl] [LawfulRaw] {L R : Type} [BEq L] [BEq R] [EquivBEq L] [EquivBEq R]
variable {m m' : CycleMap L R}

def AwayL (a b : MappingPair L) : Prop := a.id ≠ b.id ∧ (a.value == b.value) = false
def AwayR (a b : MappingPair R) : Prop := (a.value == b.value) = false

theorem AwayL.symm (a b : MappingPair L) (h : AwayL a b) : AwayL b a := ⟨h.1.symm, by rw [BEq.comm]; exact h.2⟩
theorem AwayR.symm (a b : MappingPair R) (h : AwayR a b) : AwayR b a := by rw [AwayR, BEq.comm]; exact h

abbrev KeyedL (hb : BuildHasher L R) (Q : MappingPair L → Prop) (t : RawTable (MappingPair L)) : Prop :=
  RawTable.Keyed (·.hashWith hb.hl) AwayL Q t

abbrev KeyedR (hb : BuildHasher L R) (Q : MappingPair R → Prop) (t : RawTable (MappingPair R)) : Prop :=
  RawTable.Keyed (·.hashWith hb.hr) AwayR Q t

structure Always (m : CycleMap L R) : Prop where
  left : KeyedL m.hb (·.id < m.counter) m.left
  right : KeyedR m.hb (fun _ => True) m.right

theorem hash_left (hb : BuildHasher L R) (l : L) (x : MappingPair L) (h : equivalentKey l x = true) :
    x.hashWith hb.hl = hb.hl l := (hb.hl_congr _ _ h).symm

theorem hash_right (hb : BuildHasher L R) (r : R) (x : MappingPair R) (h : equivalentKey r x = true) :
    x.hashWith hb.hr = hb.hr r := (hb.hr_congr _ _ h).symm

variable {hb : BuildHasher L R}

theorem KeyedL.write {t : RawTable (MappingPair L)} {n : Nat} (ht : KeyedL hb (·.id < n) t) {h p x w}
    (e : t.getMut h p = some (x, w)) {a : UInt64} : KeyedL hb (·.id < n) (w { x with hash := a }) :=
  RawTable.Keyed.write (v := { x with hash := a }) AwayL.symm ht e rfl (fun _ h => h) (fun h => h)

theorem KeyedR.write {t : RawTable (MappingPair R)} (ht : KeyedR hb (fun _ => True) t) {h p x w}
    (e : t.getMut h p = some (x, w)) {a : UInt64} : KeyedR hb (fun _ => True) (w { x with hash := a }) :=
  RawTable.Keyed.write (v := { x with hash := a }) AwayR.symm ht e rfl (fun _ h => h) (fun h => h)

/-- how a call that only takes items out acts on the tables -/
structure Less (m m' : CycleMap L R) : Prop where
  hb : m'.hb = m.hb
  counter : m'.counter = m.counter
  left : ∀ Q, KeyedL m.hb Q m.left → KeyedL m.hb Q m'.left
  right : ∀ Q, KeyedR m.hb Q m.right → KeyedR m.hb Q m'.right

theorem Less.refl : Less m m := ⟨rfl, rfl, fun _ h => h, fun _ h => h⟩

theorem Less.trans {m''} (h : Less m m') (h' : Less m' m'') : Less m m'' :=
  ⟨h'.hb.trans h.hb, h'.counter.trans h.counter, fun Q hQ => h.hb ▸ h'.left Q (h.hb ▸ h.left Q hQ),
    fun Q hQ => h.hb ▸ h'.right Q (h.hb ▸ h.right Q hQ)⟩

theorem Less.always (h : Less m m') (ha : Always m) : Always m' :=
  ⟨by rw [h.hb, h.counter]; exact h.left _ ha.left, by rw [h.hb]; exact h.right _ ha.right⟩

/-- after `remove_via_left` no left item equals the given one -/
theorem removeViaLeft_less (h : Always m) {l : L} {o} (e : m.removeViaLeft l = .ok (o, m')) :
    Less m m' ∧ KeyedL m.hb (fun x => x.id < m.counter ∧ (l == x.value) = false) m'.left := by
  simp only [removeViaLeft] at e
  split at e
  · rename_i h1
    cases e
    have := h.left.absent_removeEntry (hash_left m.hb l) h1
    exact ⟨.refl, h.left.hash, h.left.apart, fun e he => ⟨h.left.all e he, this e he⟩⟩
  · rename_i x t1 h1
    split at e
    · cases e
    · rename_i y t2 h2
      cases e
      obtain ⟨h3, h4, h5, h6⟩ := h.left.removed AwayL.symm h1
      refine ⟨⟨rfl, rfl, fun Q hQ => (hQ.removed AwayL.symm h1).1, fun Q hQ => (hQ.removed AwayR.symm h2).1⟩,
        h3.hash, h3.apart, fun e he => ⟨h3.all e he, ?_⟩⟩
      rw [BEq.congr_left (show (l == x.value) = true from h4)]; exact (h6 e he).2

/-- after `remove_via_right` no right item equals the given one -/
theorem removeViaRight_less (h : Always m) {r : R} {o} (e : m.removeViaRight r = .ok (o, m')) :
    Less m m' ∧ KeyedR m.hb (fun x => (r == x.value) = false) m'.right := by
  simp only [removeViaRight] at e
  split at e
  · rename_i h1
    cases e
    have := h.right.absent_removeEntry (hash_right m.hb r) h1
    exact ⟨.refl, h.right.hash, h.right.apart, fun e he => this e he⟩
  · rename_i x t1 h1
    split at e
    · cases e
    · rename_i y t2 h2
      cases e
      obtain ⟨h3, h4, h5, h6⟩ := h.right.removed AwayR.symm h1
      refine ⟨⟨rfl, rfl, fun Q hQ => (hQ.removed AwayL.symm h2).1, fun Q hQ => (hQ.removed AwayR.symm h1).1⟩,
        h3.hash, h3.apart, fun e he => ?_⟩
      rw [BEq.congr_left (show (r == x.value) = true from h4)]; exact h6 e he

theorem removeViaHashesAndId_less {a b : UInt64} {i : Nat} {o} (e : m.removeViaHashesAndId a b i = .ok (o, m')) :
    Less m m' := by
  simp only [removeViaHashesAndId] at e
  split at e
  · cases e; exact .refl
  · rename_i h1
    split at e
    · cases e
    · rename_i h2
      cases e
      exact ⟨rfl, rfl, fun Q hQ => (hQ.removed AwayL.symm h1).1, fun Q hQ => (hQ.removed AwayR.symm h2).1⟩

theorem remove_less (h : Always m) {l : L} {r : R} {o} (e : m.remove l r = .ok (o, m')) : Less m m' := by
  simp only [remove] at e
  split at e
  · exact (removeViaLeft_less h e).1
  · cases e; exact .refl

theorem addL {t : RawTable (MappingPair L)} {n : Nat} {l : L} {i : Nat}
    (ht : KeyedL hb (fun x => x.id < n ∧ x.id ≠ i ∧ (l == x.value) = false) t) (hi : i < n) (a : UInt64) :
    KeyedL hb (·.id < n) (t.insert (hb.hl l) ⟨l, a, i⟩ (·.hashWith hb.hl)) := by
  refine RawTable.Keyed.inserted (hash := (·.hashWith hb.hl)) (v := ⟨l, a, i⟩) AwayL.symm
    (ht.mono fun x hx => hx.1) (fun e he => ⟨(ht.all e he).2.1.symm, (ht.all e he).2.2⟩) hi

theorem addR {t : RawTable (MappingPair R)} {r : R}
    (ht : KeyedR hb (fun x => (r == x.value) = false) t) (a : UInt64) (i : Nat) :
    KeyedR hb (fun _ => True) (t.insert (hb.hr r) ⟨r, a, i⟩ (·.hashWith hb.hr)) :=
  RawTable.Keyed.inserted (hash := (·.hashWith hb.hr)) (v := ⟨r, a, i⟩) AwayR.symm
    (ht.mono fun _ _ => trivial) (fun e he => ht.all e he) trivial

/-- `insert` puts both items in -/
theorem insert_always (h : Always m) {l : L} {r : R} {o} (e : m.insert l r = .ok (o, m')) : Always m' ∧ m'.hb = m.hb := by
  obtain ⟨⟨o1, m1⟩, h1, e⟩ := bind_ok e
  obtain ⟨⟨o2, m2⟩, h2, e⟩ := bind_ok e
  obtain ⟨a1, k1⟩ := removeViaLeft_less h h1
  have b1 := a1.always h
  obtain ⟨a2, k2⟩ := removeViaRight_less b1 h2
  cases e
  rw [← a1.hb] at k1
  have k3 := a2.left _ k1
  rw [← a1.counter, ← a2.counter, ← a2.hb] at k3
  rw [← a2.hb] at k2
  refine ⟨⟨addL ?_ (Nat.lt_succ_self _) _, addR k2 _ _⟩, a2.hb.trans a1.hb⟩
  exact k3.mono fun x hx => ⟨Nat.lt_succ_of_lt hx.1, Nat.ne_of_lt hx.1, hx.2⟩

theorem get_removeEntry {T : Type} {t t' : RawTable T} {h p x y} (e1 : t.get h p = some x)
    (e2 : t.removeEntry h p = some (y, t')) : x = y := by
  simp only [RawTable.get] at e1
  simp only [RawTable.removeEntry] at e2
  split at e1
  · cases e1
  · rename_i i hi
    rw [hi] at e2
    simp only at e2
    obtain ⟨a, ha, e1⟩ := Option.map_eq_some_iff.1 e1
    obtain ⟨b, hb, e2⟩ := Option.map_eq_some_iff.1 e2
    rw [ha] at hb; cases hb
    cases e2; exact e1.symm

theorem swapLeftEqCheck_less (h : Always m) {a b : L} {o} (e : m.swapLeftEqCheck a b (m.hb.hl b) = .ok (o, m')) :
    Less m m' ∧ ((b == a) = false → KeyedL m.hb (fun x => x.id < m.counter ∧ (b == x.value) = false) m'.left) := by
  simp only [swapLeftEqCheck] at e
  split at e
  · rename_i h1
    cases e
    refine ⟨.refl, fun _ => ⟨h.left.hash, h.left.apart, fun e he => ⟨h.left.all e he, ?_⟩⟩⟩
    have := h.left.get_isSome (hash_left m.hb b)
    rw [h1] at this
    have := List.any_eq_false.1 this.symm e.2 (List.mem_map.2 ⟨e, he, rfl⟩)
    simpa [equivalentKey] using this
  · split at e
    · obtain ⟨h1, h2⟩ := removeViaLeft_less h e
      exact ⟨h1, fun _ => h2⟩
    · rename_i hne
      cases e
      refine ⟨.refl, fun hf => ?_⟩
      simp [bne, hf] at hne

theorem swapRightEqCheck_less (h : Always m) {a b : R} {o} (e : m.swapRightEqCheck a b (m.hb.hr b) = .ok (o, m')) :
    Less m m' ∧ ((b == a) = false → KeyedR m.hb (fun x => (b == x.value) = false) m'.right) := by
  simp only [swapRightEqCheck] at e
  split at e
  · rename_i h1
    cases e
    refine ⟨.refl, fun _ => ⟨h.right.hash, h.right.apart, fun e he => ?_⟩⟩
    have := h.right.get_isSome (hash_right m.hb b)
    rw [h1] at this
    have := List.any_eq_false.1 this.symm e.2 (List.mem_map.2 ⟨e, he, rfl⟩)
    simpa [equivalentKey] using this
  · split at e
    · obtain ⟨h1, h2⟩ := removeViaRight_less h e
      exact ⟨h1, fun _ => h2⟩
    · rename_i hne
      cases e
      refine ⟨.refl, fun hf => ?_⟩
      simp [bne, hf] at hne

theorem swapLeft_always (h : Always m) {a b : L} {o} (e : m.swapLeft a b = .ok (o, m')) : Always m' ∧ m'.hb = m.hb := by
  obtain ⟨⟨o1, m1⟩, h1, e⟩ := bind_ok e
  obtain ⟨l1, k1⟩ := swapLeftEqCheck_less h h1
  have a1 := l1.always h
  simp only at e
  split at e
  · cases e; exact ⟨a1, l1.hb⟩
  · rename_i x hx
    split at e
    · cases e
    · rename_i y w hy
      split at e
      · cases e
      · rename_i z t hz
        cases e
        have hxz := get_removeEntry hx hz
        subst hxz
        obtain ⟨c1, c2, c3, c4⟩ := a1.left.removed AwayL.symm hz
        refine ⟨⟨?_, KeyedR.write a1.right hy⟩, l1.hb⟩
        simp only [← l1.hb]
        refine addL ⟨c1.hash, c1.apart, fun e he => ⟨c1.all e he, ?_, ?_⟩⟩ c3 _
        · exact ((c4 e he).1).symm
        · cases hba : b == a with
          | true => rw [BEq.congr_left hba, BEq.congr_left (show (a == x.value) = true from c2)]; exact (c4 e he).2
          | false =>
            have k2 := k1 hba
            rw [← l1.hb] at k2
            exact (((k2.removed AwayL.symm hz).1).all e he).2

theorem swapRight_always (h : Always m) {a b : R} {o} (e : m.swapRight a b = .ok (o, m')) : Always m' ∧ m'.hb = m.hb := by
  obtain ⟨⟨o1, m1⟩, h1, e⟩ := bind_ok e
  obtain ⟨l1, k1⟩ := swapRightEqCheck_less h h1
  have a1 := l1.always h
  simp only at e
  split at e
  · cases e; exact ⟨a1, l1.hb⟩
  · rename_i x hx
    split at e
    · cases e
    · rename_i y w hy
      split at e
      · cases e
      · rename_i z t hz
        cases e
        obtain ⟨c1, c2, c3, c4⟩ := a1.right.removed AwayR.symm hz
        refine ⟨⟨KeyedL.write a1.left hy, ?_⟩, l1.hb⟩
        refine addR ⟨c1.hash, c1.apart, fun e he => ?_⟩ _ _
        cases hba : b == a with
        | true => rw [BEq.congr_left hba, BEq.congr_left (show (a == z.value) = true from c2)]; exact c4 e he
        | false =>
          have k2 := k1 hba
          rw [← l1.hb] at k2
          exact ((k2.removed AwayR.symm hz).1).all e he

theorem retainDrop_less {ks : List (UInt64 × UInt64 × Nat)} (e : m.retainDrop ks = .ok m') : Less m m' := by
  induction ks generalizing m with
  | nil => cases e; exact .refl
  | cons k ks ih =>
    obtain ⟨⟨o1, m1⟩, h1, e⟩ := bind_ok e
    exact (removeViaHashesAndId_less h1).trans (ih e)

theorem extend_always (h : Always m) {xs : List (L × R)} (e : m.extend xs = .ok m') : Always m' ∧ m'.hb = m.hb := by
  induction xs generalizing m with
  | nil => cases e; exact ⟨h, rfl⟩
  | cons x xs ih =>
    obtain ⟨⟨o1, m1⟩, h1, e⟩ := bind_ok e
    obtain ⟨a1, b1⟩ := insert_always h h1
    obtain ⟨a2, b2⟩ := ih a1 e
    exact ⟨a2, b2.trans b1⟩

variable {Q : MappingPair R → Prop}

theorem DrainIter.take_keyed {n} {it it' : DrainIter L R} {ps} (h : KeyedR hb Q it.right)
    (e : DrainIter.take n it = .ok (ps, it')) : KeyedR hb Q it'.right := by
  induction n generalizing it ps with
  | zero => cases e; exact h
  | succ n ih =>
    obtain ⟨o, h1, e⟩ := bind_ok e
    split at e
    · cases e; exact h
    · obtain ⟨⟨ps2, it2⟩, h2, e⟩ := bind_ok e
      cases e
      refine ih ?_ h2
      simp only [DrainIter.next] at h1
      split at h1
      · cases h1
      · split at h1
        · cases h1
        · rename_i h3; cases h1; exact (h.removed AwayR.symm h3).1

theorem DrainFilter.next_keyed {σ : Type} {f : σ → L → R → Bool × σ} {kept todo right st o} {it : DrainFilter σ L R}
    (h : KeyedR hb Q right) (e : DrainFilter.next f kept todo right st = .ok (o, it)) : KeyedR hb Q it.right := by
  induction todo generalizing kept st with
  | nil => cases e; exact h
  | cons x rest ih =>
    simp only [DrainFilter.next] at e
    split at e
    · cases e
    · rename_i h1
      split at e
      · cases e; exact (h.removed AwayR.symm h1).1
      · exact ih e

theorem DrainFilter.take_keyed {σ : Type} {f : σ → L → R → Bool × σ} {n} {it it' : DrainFilter σ L R} {ps}
    (h : KeyedR hb Q it.right) (e : DrainFilter.take f n it = .ok (ps, it')) : KeyedR hb Q it'.right := by
  induction n generalizing it ps with
  | zero => cases e; exact h
  | succ n ih =>
    obtain ⟨o, h1, e⟩ := bind_ok e
    split at e
    · cases e; exact DrainFilter.next_keyed h h1
    · obtain ⟨⟨ps2, it2⟩, h2, e⟩ := bind_ok e
      cases e
      exact ih (DrainFilter.next_keyed h h1) h2

theorem drainFilterTake_less {σ : Type} {f : σ → L → R → Bool × σ} {st n o s}
    (e : m.drainFilterTake f st n = .ok (o, s, m')) : Less m m' := by
  obtain ⟨⟨o2, it2⟩, h2, e⟩ := bind_ok e
  obtain ⟨⟨o3, it3⟩, h3, e⟩ := bind_ok e; cases e
  have a := DrainFilter.take_sublist h2
  have b := DrainFilter.take_sublist h3
  have hs : (it3.kept ++ it3.todo).Sublist m.left.entries := b.trans (by simpa using a)
  refine ⟨rfl, rfl, fun Q hQ => ?_, fun Q hQ => DrainFilter.take_keyed (DrainFilter.take_keyed hQ h2) h3⟩
  refine RawTable.Keyed.of_perm (t := ⟨it3.kept ++ it3.todo, 0⟩) AwayL.symm ?_ (LawfulRaw.touch_perm _ _)
  exact ⟨fun e he => hQ.hash e (hs.subset he), hQ.apart.sublist hs, fun e he => hQ.all e (hs.subset he)⟩
where
  next_sublist {σ : Type} {f : σ → L → R → Bool × σ} {kept todo right st o} {it : DrainFilter σ L R}
      (h : DrainFilter.next f kept todo right st = .ok (o, it)) : (it.kept ++ it.todo).Sublist (kept ++ todo) := by
    induction todo generalizing kept st with
    | nil => cases h; exact .refl _
    | cons e rest ih =>
      simp only [DrainFilter.next] at h
      split at h
      · cases h
      · split at h
        · cases h
          exact List.Sublist.append (.refl _) (List.sublist_cons_self _ _)
        · simpa using ih h
  DrainFilter.take_sublist {σ : Type} {f : σ → L → R → Bool × σ} {n} {it it' : DrainFilter σ L R} {ps}
      (h : DrainFilter.take f n it = .ok (ps, it')) : (it'.kept ++ it'.todo).Sublist (it.kept ++ it.todo) := by
    induction n generalizing it ps with
    | zero => cases h; exact .refl _
    | succ n ih =>
      obtain ⟨o, h1, h⟩ := bind_ok h
      split at h
      · cases h; exact next_sublist h1
      · obtain ⟨⟨ps2, it2⟩, h2, h⟩ := bind_ok h
        cases h
        exact (ih h2).trans (next_sublist h1)

theorem Always.of_tables (h : Always m) {left' : RawTable (MappingPair L)} {right' : RawTable (MappingPair R)}
    (hl : left'.entries.Perm m.left.entries) (hr : right'.entries.Perm m.right.entries) :
    Always { m with left := left', right := right' } :=
  ⟨h.left.of_perm AwayL.symm hl, h.right.of_perm AwayR.symm hr⟩

theorem clone_always (h : Always m) {cl : L → L} {cr : R → R} (hl : ∀ x, (cl x == x) = true)
    (hr : ∀ x, (cr x == x) = true) : Always (m.clone cl cr) where
  left := by
    refine ⟨?_, ?_, ?_⟩
    · intro e he
      obtain ⟨a, ha, rfl⟩ := List.mem_map.1 he
      exact (m.hb.hl_congr _ _ (hl _)).trans (h.left.hash a ha)
    · refine List.pairwise_map.2 (h.left.apart.imp fun {a b} hab => ⟨hab.1, ?_⟩)
      show (cl a.2.value == cl b.2.value) = false
      rw [BEq.congr_left (hl _), BEq.congr_right (hl _)]
      exact hab.2
    · intro e he
      obtain ⟨a, ha, rfl⟩ := List.mem_map.1 he
      exact h.left.all a ha
  right := by
    refine ⟨?_, ?_, fun _ _ => trivial⟩
    · intro e he
      obtain ⟨a, ha, rfl⟩ := List.mem_map.1 he
      exact (m.hb.hr_congr _ _ (hr _)).trans (h.right.hash a ha)
    · refine List.pairwise_map.2 (h.right.apart.imp fun {a b} hab => ?_)
      show (cr a.2.value == cr b.2.value) = false
      rw [BEq.congr_left (hr _), BEq.congr_right (hr _)]
      exact hab

/-- clones made by a history use lawful `Clone` implementations -/
def LawfulClones (ops : List (Op L R)) : Prop :=
  ∀ cl cr, Op.clone cl cr ∈ ops → (∀ x, (cl x == x) = true) ∧ (∀ x, (cr x == x) = true)

theorem exec_always (h : Always m) {op : Op L R} {o} (hc : LawfulClones [op]) (e : m.exec op = .ok (o, m')) :
    Always m' ∧ m'.hb = m.hb := by
  have less : ∀ {m'}, Less m m' → Always m' ∧ m'.hb = m.hb := fun hl => ⟨hl.always h, hl.hb⟩
  cases op <;> simp only [exec] at e
  case insert => obtain ⟨⟨o1, m1⟩, h1, e⟩ := bind_ok e; cases e; exact insert_always h h1
  case remove => obtain ⟨⟨o1, m1⟩, h1, e⟩ := bind_ok e; cases e; exact less (remove_less h h1)
  case removeViaLeft => obtain ⟨⟨o1, m1⟩, h1, e⟩ := bind_ok e; cases e; exact less (removeViaLeft_less h h1).1
  case removeViaRight => obtain ⟨⟨o1, m1⟩, h1, e⟩ := bind_ok e; cases e; exact less (removeViaRight_less h h1).1
  case swapLeft => obtain ⟨⟨o1, m1⟩, h1, e⟩ := bind_ok e; cases e; exact swapLeft_always h h1
  case swapRight => obtain ⟨⟨o1, m1⟩, h1, e⟩ := bind_ok e; cases e; exact swapRight_always h h1
  case swapLeftChecked =>
    obtain ⟨⟨o1, m1⟩, h1, e⟩ := bind_ok e; cases e
    simp only [swapLeftChecked] at h1
    split at h1
    · cases h1; exact ⟨h, rfl⟩
    · exact swapLeft_always h h1
  case swapRightChecked =>
    obtain ⟨⟨o1, m1⟩, h1, e⟩ := bind_ok e; cases e
    simp only [swapRightChecked] at h1
    split at h1
    · cases h1; exact ⟨h, rfl⟩
    · exact swapRight_always h h1
  case swapLeftOrInsert =>
    obtain ⟨⟨o1, m1⟩, h1, e⟩ := bind_ok e; cases e
    simp only [swapLeftOrInsert] at h1
    split at h1
    · exact swapLeft_always h h1
    · obtain ⟨⟨o2, m2⟩, h2, h1⟩ := bind_ok h1; cases h1; exact insert_always h h2
  case swapRightOrInsert =>
    obtain ⟨⟨o1, m1⟩, h1, e⟩ := bind_ok e; cases e
    simp only [swapRightOrInsert] at h1
    split at h1
    · exact swapRight_always h h1
    · obtain ⟨⟨o2, m2⟩, h2, h1⟩ := bind_ok h1
      cases o2 <;> cases h1 <;> exact insert_always h h2
  case iter => obtain ⟨ps, h1, e⟩ := bind_ok e; cases e; exact ⟨h, rfl⟩
  case drain =>
    obtain ⟨⟨o1, m1⟩, h1, e⟩ := bind_ok e; cases e
    obtain ⟨⟨o2, m2⟩, h2, h1⟩ := bind_ok h1; cases h1
    exact ⟨⟨.of_nil (RawTable.clear_entries _), DrainIter.take_keyed (hb := m.hb) h.right h2⟩, rfl⟩
  case drainFilter => obtain ⟨⟨o1, s1, m1⟩, h1, e⟩ := bind_ok e; cases e; exact less (drainFilterTake_less h1)
  case drainFilterAll => obtain ⟨⟨o1, s1, m1⟩, h1, e⟩ := bind_ok e; cases e; exact less (drainFilterTake_less h1)
  case retain =>
    obtain ⟨⟨o1, m1⟩, h1, e⟩ := bind_ok e; cases e
    obtain ⟨⟨o2, s2⟩, h2, h1⟩ := bind_ok h1
    obtain ⟨m3, h3, h1⟩ := bind_ok h1; cases h1
    exact less (retainDrop_less h3)
  case extend => obtain ⟨m1, h1, e⟩ := bind_ok e; cases e; exact extend_always h h1
  case clear =>
    cases e
    exact ⟨⟨.of_nil (RawTable.clear_entries _), .of_nil (RawTable.clear_entries _)⟩, rfl⟩
  case reserve =>
    cases e
    exact ⟨h.of_tables (RawTable.reserve_perm _ _ h.left.hash) (RawTable.reserve_perm _ _ h.right.hash), rfl⟩
  case tryReserve n a b =>
    cases e; cases a <;> cases b
    · exact ⟨h, rfl⟩
    · exact ⟨h, rfl⟩
    · exact ⟨h.of_tables (RawTable.reserve_perm _ _ h.left.hash) (.refl _), rfl⟩
    · exact ⟨h.of_tables (RawTable.reserve_perm _ _ h.left.hash) (RawTable.reserve_perm _ _ h.right.hash), rfl⟩
  case shrinkTo =>
    cases e
    exact ⟨h.of_tables (RawTable.shrinkTo_perm _ _ h.left.hash) (RawTable.shrinkTo_perm _ _ h.right.hash), rfl⟩
  case shrinkToFit =>
    cases e
    exact ⟨h.of_tables (RawTable.shrinkTo_perm _ _ h.left.hash) (RawTable.shrinkTo_perm _ _ h.right.hash), rfl⟩
  case clone cl cr =>
    cases e
    obtain ⟨h1, h2⟩ := hc cl cr (by simp)
    exact ⟨clone_always h h1 h2, rfl⟩
  all_goals cases e; exact ⟨h, rfl⟩

theorem run_always (h : Always m) {ops : List (Op L R)} {os} (hc : LawfulClones ops) (e : m.run ops = .ok (os, m')) :
    Always m' ∧ m'.hb = m.hb := by
  induction ops generalizing m os with
  | nil => cases e; exact ⟨h, rfl⟩
  | cons op ops ih =>
    obtain ⟨⟨o1, m1⟩, h1, e⟩ := bind_ok e
    obtain ⟨⟨os, m2⟩, h2, e⟩ := bind_ok e
    cases e
    obtain ⟨a1, b1⟩ := exec_always h (fun cl cr hm => hc cl cr (by
      rcases List.mem_cons.1 hm with rfl | hm
      · exact List.mem_cons_self
      · cases hm)) h1
    obtain ⟨a2, b2⟩ := ih a1 (fun cl cr hm => hc cl cr (List.mem_cons_of_mem _ hm)) h2
    exact ⟨a2, b2.trans b1⟩

theorem withCapacity_always (n : Nat) (hb : BuildHasher L R) : Always (withCapacityAndHasher n hb) :=
  ⟨.of_nil (RawTable.withCapacity_entries _), .of_nil (RawTable.withCapacity_entries _)⟩

/-- A property of tables that every call of `RawTable` preserves holds of the tables of every map. -/
theorem run_keeps {P : (T : Type) → RawTable T → Prop} [RawTable.Closed P] (h : Always m) {ops : List (Op L R)} {os}
    (hc : LawfulClones ops) (e : m.run ops = .ok (os, m')) : Kept P m m' := by
  induction ops generalizing m os with
  | nil => cases e; exact .refl
  | cons op ops ih =>
    obtain ⟨⟨o1, m1⟩, h1, e⟩ := bind_ok e
    obtain ⟨⟨os, m2⟩, h2, e⟩ := bind_ok e
    cases e
    have a1 := (exec_always h (fun cl cr hm => hc cl cr (by
      rcases List.mem_cons.1 hm with rfl | hm
      · exact List.mem_cons_self
      · cases hm)) h1).1
    have hn : (m.left.entries.map (·.2.id)).Nodup := by
      rw [List.Nodup, List.pairwise_map]
      exact h.left.apart.imp fun h => h.1
    exact (exec_keeps hn h1).trans (ih a1 (fun cl cr hm => hc cl cr (List.mem_cons_of_mem _ hm)) h2)

end Verif.CycleMap
