import Verif.Keyed
import Verif.GroupMap.Counter
/-! What holds of every `GroupMap`, also after the calls that break it: each item is stored under its own hash,
left items are pairwise different, and ids are in use once and below their counter. -/
set_option linter.unusedSectionVars false
set_option linter.unusedSimpArgs false
namespace Verif.GroupMap
open GroupSpec
open CycleMap (bind_ok)

variable [RawImpl] [LawfulRaw] {L R : Type} [BEq L] [BEq R] [EquivBEq L] [EquivBEq R]
variable {m m' : GroupMap L R}

def AwayL (a b : LeftItem L) : Prop := a.id ≠ b.id ∧ (a.value == b.value) = false
def AwayR (a b : RightItem R) : Prop := a.id ≠ b.id

theorem AwayL.symm (a b : LeftItem L) (h : AwayL a b) : AwayL b a := ⟨h.1.symm, by rw [BEq.comm]; exact h.2⟩
omit [RawImpl] [LawfulRaw] [BEq R] [EquivBEq R] in
theorem AwayR.symm (a b : RightItem R) (h : AwayR a b) : AwayR b a := Ne.symm h

abbrev KeyedL (hb : BuildHasher L R) (Q : LeftItem L → Prop) (t : RawTable (LeftItem L)) : Prop :=
  RawTable.Keyed (·.hashWith hb.hl) AwayL Q t

abbrev KeyedR (hb : BuildHasher L R) (Q : RightItem R → Prop) (t : RawTable (RightItem R)) : Prop :=
  RawTable.Keyed (·.hashWith hb.hr) AwayR Q t

structure Always (m : GroupMap L R) : Prop where
  left : KeyedL m.hb (·.id < m.leftCounter) m.left
  right : KeyedR m.hb (·.id < m.rightCounter) m.right

theorem hash_left (hb : BuildHasher L R) (l : L) (x : LeftItem L) (h : equivalentKeyLeft l x = true) :
    x.hashWith hb.hl = hb.hl l := hb.hl_congr _ _ h

theorem hash_right (hb : BuildHasher L R) (r : R) (x : RightItem R) (h : equivalentKeyRight r x = true) :
    x.hashWith hb.hr = hb.hr r := hb.hr_congr _ _ h

variable {hb : BuildHasher L R} {Q : LeftItem L → Prop} {Q' : RightItem R → Prop}

theorem KeyedL.write {t : RawTable (LeftItem L)} {n : Nat} (ht : KeyedL hb (·.id < n) t) {h p x w}
    (e : t.getMut h p = some (x, w)) {a : UInt64} {i : Nat} :
    KeyedL hb (·.id < n) (w { x with hash := a, rid := i }) :=
  RawTable.Keyed.write (v := { x with hash := a, rid := i }) AwayL.symm ht e rfl (fun _ h => h) (fun h => h)

theorem KeyedR.write {t : RawTable (RightItem R)} {n : Nat} (ht : KeyedR hb (·.id < n) t) {h p x w}
    (e : t.getMut h p = some (x, w)) {s : PairSet} : KeyedR hb (·.id < n) (w { x with pairs := s }) :=
  RawTable.Keyed.write (v := { x with pairs := s }) AwayR.symm ht e rfl (fun _ h => h) (fun h => h)

theorem removeAll_keyed {ks : List (UInt64 × Nat)} {t t' : RawTable (LeftItem L)} {o}
    (ht : KeyedL hb Q t) (e : removeAll t ks = .ok (o, t')) : KeyedL hb Q t' := by
  induction ks generalizing t o with
  | nil => cases e; exact ht
  | cons k ks ih =>
    simp only [removeAll] at e
    split at e
    · cases e
    · rename_i h1
      obtain ⟨⟨o1, t1⟩, h2, e⟩ := bind_ok e
      cases e
      exact ih (ht.removed AwayL.symm h1).1 h2

theorem rehashAll_keyed {ks : List (UInt64 × Nat)} {t t' : RawTable (LeftItem L)} {a : UInt64} {n : Nat}
    (ht : KeyedL hb (·.id < n) t) (e : rehashAll a t ks = .ok t') : KeyedL hb (·.id < n) t' := by
  induction ks generalizing t with
  | nil => cases e; exact ht
  | cons k ks ih =>
    simp only [rehashAll] at e
    split at e
    · cases e
    · rename_i h1
      exact ih (KeyedL.write ht h1) e

theorem retainPairedDrop_keyed {ks : List (UInt64 × Nat)} {t : RawTable (LeftItem L)}
    (ht : KeyedL hb Q t) : KeyedL hb Q (retainPairedDrop t ks) := by
  induction ks generalizing t with
  | nil => exact ht
  | cons k ks ih =>
    simp only [retainPairedDrop]
    split
    · exact ih ht
    · rename_i h1
      exact ih (ht.removed AwayL.symm h1).1

/-- after `remove_left` no left item equals the given one -/
theorem removeLeft_always (h : Always m) {l : L} {o} (e : m.removeLeft l = .ok (o, m')) :
    Always m' ∧ m'.hb = m.hb ∧ m'.leftCounter = m.leftCounter ∧ m'.rightCounter = m.rightCounter ∧
      KeyedL m.hb (fun x => x.id < m.leftCounter ∧ (l == x.value) = false) m'.left := by
  simp only [removeLeft] at e
  split at e
  · rename_i h1
    cases e
    have := h.left.absent_removeEntry (hash_left m.hb l) h1
    exact ⟨h, rfl, rfl, rfl, h.left.hash, h.left.apart, fun e he => ⟨h.left.all e he, BEq.symm_false (this e he)⟩⟩
  · rename_i x t1 h1
    split at e
    · cases e
    · rename_i y w h2
      cases e
      obtain ⟨h3, h4, h5, h6⟩ := h.left.removed AwayL.symm h1
      refine ⟨⟨h3, KeyedR.write h.right h2⟩, rfl, rfl, rfl, h3.hash, h3.apart, fun e he => ⟨h3.all e he, ?_⟩⟩
      rw [BEq.congr_left (BEq.symm (show (x.value == l) = true from h4))]; exact (h6 e he).2

theorem removeRight_always (h : Always m) {r : R} {o} (e : m.removeRight r = .ok (o, m')) :
    Always m' ∧ m'.hb = m.hb ∧ m'.leftCounter = m.leftCounter ∧ m'.rightCounter = m.rightCounter ∧
      ∀ Q, KeyedL m.hb Q m.left → KeyedL m.hb Q m'.left := by
  simp only [removeRight] at e
  split at e
  · cases e; exact ⟨h, rfl, rfl, rfl, fun _ h => h⟩
  · rename_i h1
    obtain ⟨⟨o1, t1⟩, h2, e⟩ := bind_ok e
    cases e
    exact ⟨⟨removeAll_keyed h.left h2, (h.right.removed AwayR.symm h1).1⟩, rfl, rfl, rfl, fun Q hQ => removeAll_keyed hQ h2⟩

theorem removeViaHashAndId_always (h : Always m) {a : UInt64} {i : Nat} {o}
    (e : m.removeViaHashAndId a i = .ok (o, m')) : Always m' ∧ m'.hb = m.hb := by
  simp only [removeViaHashAndId] at e
  split at e
  · cases e; exact ⟨h, rfl⟩
  · rename_i h1
    obtain ⟨⟨o1, t1⟩, h2, e⟩ := bind_ok e
    cases e
    exact ⟨⟨removeAll_keyed h.left h2, (h.right.removed AwayR.symm h1).1⟩, rfl⟩

theorem remove_always (h : Always m) {l : L} {r : R} {o} (e : m.remove l r = .ok (o, m')) : Always m' ∧ m'.hb = m.hb := by
  simp only [remove] at e
  split at e
  · exact ⟨(removeRight_always h e).1, (removeRight_always h e).2.1⟩
  · cases e; exact ⟨h, rfl⟩

/-- a new left item -/
theorem addL {t : RawTable (LeftItem L)} {n : Nat} {l : L}
    (ht : KeyedL hb (fun x => x.id < n ∧ (l == x.value) = false) t) (a : UInt64) (i : Nat) :
    KeyedL hb (·.id < n + 1) (t.insert (hb.hl l) ⟨l, a, i, n⟩ (·.hashWith hb.hl)) := by
  refine RawTable.Keyed.inserted (hash := (·.hashWith hb.hl)) (v := ⟨l, a, i, n⟩) AwayL.symm
    (ht.mono fun x hx => Nat.lt_succ_of_lt hx.1) (fun e he => ⟨?_, (ht.all e he).2⟩) (Nat.lt_succ_self _)
  exact (Nat.ne_of_lt (ht.all e he).1).symm

/-- a new right item -/
theorem addR {t : RawTable (RightItem R)} {n : Nat} (ht : KeyedR hb (·.id < n) t) (r : R) (s : PairSet) :
    KeyedR hb (·.id < n + 1) (t.insert (hb.hr r) ⟨r, s, n⟩ (·.hashWith hb.hr)) :=
  RawTable.Keyed.inserted (hash := (·.hashWith hb.hr)) (v := ⟨r, s, n⟩) AwayR.symm
    (ht.mono fun _ hx => Nat.lt_succ_of_lt hx) (fun e he => (Nat.ne_of_lt (ht.all e he)).symm) (Nat.lt_succ_self _)

theorem Always.absent (h : Always m) {l : L} (hn : m.left.getMut (m.hb.hl l) (equivalentKeyLeft l) = none) :
    KeyedL m.hb (fun x => x.id < m.leftCounter ∧ (l == x.value) = false) m.left :=
  ⟨h.left.hash, h.left.apart, fun e he => ⟨h.left.all e he, BEq.symm_false (h.left.absent_getMut (hash_left m.hb l) hn e he)⟩⟩

theorem insert_always (h : Always m) {l : L} {r : R} (e : m.insert l r = .ok m') : Always m' ∧ m'.hb = m.hb := by
  simp only [insert] at e
  split at e
  · rename_i h1 h2
    cases e
    exact ⟨⟨addL (h.absent h1) _ _, addR h.right _ _⟩, rfl⟩
  · rename_i x w h1 h2
    split at e
    · cases e
    · rename_i y w' h3
      cases e
      exact ⟨⟨KeyedL.write h.left h1, addR (KeyedR.write h.right h3) _ _⟩, rfl⟩
  · rename_i y w h1 h2
    cases e
    exact ⟨⟨addL (h.absent h1) _ _, KeyedR.write h.right h2⟩, rfl⟩
  · rename_i x w y w' h1 h2
    split at e
    · cases e
    · rename_i z w'' h3
      cases e
      exact ⟨⟨KeyedL.write h.left h1, KeyedR.write (KeyedR.write h.right h2) h3⟩, rfl⟩

theorem insertRemove_always (h : Always m) {l : L} {r : R} {o} (e : m.insertRemove l r = .ok (o, m')) :
    Always m' ∧ m'.hb = m.hb := by
  obtain ⟨⟨o1, m1⟩, h1, e⟩ := bind_ok e
  obtain ⟨⟨o2, m2⟩, h2, e⟩ := bind_ok e
  obtain ⟨a1, b1, c1, d1, k1⟩ := removeLeft_always h h1
  obtain ⟨a2, b2, c2, d2, k2⟩ := removeRight_always a1 h2
  cases e
  rw [← b1] at k1
  have k3 := k2 _ k1
  rw [← c1, ← c2, ← b2] at k3
  exact ⟨⟨addL k3 _ _, addR a2.right _ _⟩, b2.trans b1⟩

theorem insertLeft_always (h : Always m) {l : L} {r : R} {o} (e : m.insertLeft l r = .ok (o, m')) :
    Always m' ∧ m'.hb = m.hb := by
  simp only [insertLeft] at e
  split at e
  · cases e; exact ⟨h, rfl⟩
  · rename_i y w h0
    obtain ⟨⟨o1, m1⟩, h1, e⟩ := bind_ok e
    obtain ⟨a1, b1, c1, d1, k1⟩ := removeLeft_always
      (m := { m with right := w { y with pairs := y.pairs.insert (m.hb.hl l, m.leftCounter) } })
      ⟨h.left, KeyedR.write h.right h0⟩ h1
    cases e
    change m1.hb = m.hb at b1
    change m1.leftCounter = m.leftCounter at c1
    change KeyedL m.hb (fun x => x.id < m.leftCounter ∧ (l == x.value) = false) m1.left at k1
    rw [← b1, ← c1] at k1
    refine ⟨⟨?_, a1.right⟩, b1⟩
    simp only [← b1]
    exact addL k1 _ _

theorem insertRight_always (h : Always m) {r : R} {o} (e : m.insertRight r = .ok (o, m')) : Always m' ∧ m'.hb = m.hb := by
  obtain ⟨⟨o1, m1⟩, h1, e⟩ := bind_ok e
  obtain ⟨a1, b1, -⟩ := removeRight_always h h1
  cases e
  exact ⟨⟨a1.left, addR a1.right _ _⟩, b1⟩

theorem swapRight_always (h : Always m) {a b : R} (e : m.swapRight a b = .ok m') : Always m' ∧ m'.hb = m.hb := by
  simp only [swapRight] at e
  split at e
  · obtain ⟨⟨o1, m1⟩, h1, e⟩ := bind_ok e
    cases e; exact insertRight_always h h1
  · rename_i h0
    obtain ⟨t1, h1, e⟩ := bind_ok e
    cases e
    exact ⟨⟨rehashAll_keyed h.left h1, addR (KeyedR.write h.right h0) _ _⟩, rfl⟩

theorem swapRightRemove_always (h : Always m) {a b : R} {o} (e : m.swapRightRemove a b = .ok (o, m')) :
    Always m' ∧ m'.hb = m.hb := by
  simp only [swapRightRemove] at e
  split at e
  · obtain ⟨⟨o1, m1⟩, h1, e⟩ := bind_ok e
    cases e; exact insertRight_always h h1
  · rename_i h0
    obtain ⟨t1, h1, e⟩ := bind_ok e
    cases e
    exact ⟨⟨rehashAll_keyed h.left h1, addR (h.right.removed AwayR.symm h0).1 _ _⟩, rfl⟩

theorem pair_always (h : Always m) {l : L} {r : R} {o} (e : m.pair l r = .ok (o, m')) : Always m' ∧ m'.hb = m.hb := by
  simp only [pair] at e
  split at e
  · rename_i h1 h2
    split at e
    · cases e
    · rename_i h3
      split at e
      · cases e
      · rename_i h4
        cases e
        exact ⟨⟨KeyedL.write h.left h1, KeyedR.write (KeyedR.write h.right h3) h4⟩, rfl⟩
  · cases e; exact ⟨h, rfl⟩

theorem retainPaired_always (h : Always m) {σ : Type} {f : σ → L → R → Bool × σ} {s : σ} {o}
    (e : m.retainPaired f s = .ok (o, m')) : Always m' ∧ m'.hb = m.hb := by
  obtain ⟨o1, h1, e⟩ := bind_ok e
  obtain ⟨⟨o2, s2⟩, h2, e⟩ := bind_ok e
  cases e
  exact ⟨⟨retainPairedDrop_keyed h.left, h.right⟩, rfl⟩

theorem retainUnpairedDrop_always (h : Always m) {ks} (e : m.retainUnpairedDrop ks = .ok m') : Always m' ∧ m'.hb = m.hb := by
  induction ks generalizing m with
  | nil => cases e; exact ⟨h, rfl⟩
  | cons k ks ih =>
    obtain ⟨⟨o1, m1⟩, h1, e⟩ := bind_ok e
    obtain ⟨a1, b1⟩ := removeViaHashAndId_always h h1
    obtain ⟨a2, b2⟩ := ih a1 e
    exact ⟨a2, b2.trans b1⟩

theorem retainUnpaired_always (h : Always m) {σ : Type} {f : σ → R → Bool × σ} {s : σ} {o}
    (e : m.retainUnpaired f s = .ok (o, m')) : Always m' ∧ m'.hb = m.hb := by
  obtain ⟨⟨o1, s1⟩, h1, e⟩ := bind_ok e
  obtain ⟨m2, h2, e⟩ := bind_ok e
  cases e; exact retainUnpairedDrop_always h h2

theorem extend_always (h : Always m) {xs : List (L × R)} (e : m.extend xs = .ok m') : Always m' ∧ m'.hb = m.hb := by
  induction xs generalizing m with
  | nil => cases e; exact ⟨h, rfl⟩
  | cons x xs ih =>
    obtain ⟨m1, h1, e⟩ := bind_ok e
    obtain ⟨a1, b1⟩ := insert_always h h1
    obtain ⟨a2, b2⟩ := ih a1 e
    exact ⟨a2, b2.trans b1⟩

theorem extendOpt_always (h : Always m) {xs : List (Option L × R)} (e : m.extendOpt xs = .ok m') :
    Always m' ∧ m'.hb = m.hb := by
  induction xs generalizing m with
  | nil => cases e; exact ⟨h, rfl⟩
  | cons x xs ih =>
    obtain ⟨l, r⟩ := x
    cases l with
    | none =>
      obtain ⟨⟨o1, m1⟩, h1, e⟩ := bind_ok e
      obtain ⟨a1, b1⟩ := insertRight_always h h1
      obtain ⟨a2, b2⟩ := ih a1 e
      exact ⟨a2, b2.trans b1⟩
    | some l =>
      obtain ⟨m1, h1, e⟩ := bind_ok e
      obtain ⟨a1, b1⟩ := insert_always h h1
      obtain ⟨a2, b2⟩ := ih a1 e
      exact ⟨a2, b2.trans b1⟩

theorem clone_always (h : Always m) {cl : L → L} {cr : R → R} (hl : ∀ x, (cl x == x) = true)
    (hr : ∀ x, (cr x == x) = true) : Always (m.clone cl cr) where
  left := by
    refine ⟨?_, ?_, ?_⟩
    · intro e he
      obtain ⟨a, ha, rfl⟩ := List.mem_map.1 he
      exact (m.hb.hl_congr _ _ (hl _)).trans (h.left.hash a ha)
    · refine List.pairwise_map.2 (h.left.apart.imp fun {a b} hab => ⟨hab.1, ?_⟩)
      show (cl a.2.value == cl b.2.value) = false
      rw [BEq.congr_left (hl _), BEq.congr_right (hl _)]
      exact hab.2
    · intro e he
      obtain ⟨a, ha, rfl⟩ := List.mem_map.1 he
      exact h.left.all a ha
  right := by
    refine ⟨?_, ?_, ?_⟩
    · intro e he
      obtain ⟨a, ha, rfl⟩ := List.mem_map.1 he
      exact (m.hb.hr_congr _ _ (hr _)).trans (h.right.hash a ha)
    · exact List.pairwise_map.2 (h.right.apart.imp fun {a b} hab => hab)
    · intro e he
      obtain ⟨a, ha, rfl⟩ := List.mem_map.1 he
      exact h.right.all a ha

/-- clones made by a history use lawful `Clone` implementations -/
def LawfulClones (ops : List (Op L R)) : Prop :=
  ∀ cl cr, Op.clone cl cr ∈ ops → (∀ x, (cl x == x) = true) ∧ (∀ x, (cr x == x) = true)

theorem exec_always (h : Always m) {op : Op L R} {o} (hc : LawfulClones [op]) (e : m.exec op = .ok (o, m')) :
    Always m' ∧ m'.hb = m.hb := by
  cases op <;> simp only [exec] at e
  case insert => obtain ⟨m1, h1, e⟩ := bind_ok e; cases e; exact insert_always h h1
  case insertRemove => obtain ⟨⟨o1, m1⟩, h1, e⟩ := bind_ok e; cases e; exact insertRemove_always h h1
  case insertLeft => obtain ⟨⟨o1, m1⟩, h1, e⟩ := bind_ok e; cases e; exact insertLeft_always h h1
  case insertRight => obtain ⟨⟨o1, m1⟩, h1, e⟩ := bind_ok e; cases e; exact insertRight_always h h1
  case swapRight => obtain ⟨m1, h1, e⟩ := bind_ok e; cases e; exact swapRight_always h h1
  case swapRightRemove => obtain ⟨⟨o1, m1⟩, h1, e⟩ := bind_ok e; cases e; exact swapRightRemove_always h h1
  case pair => obtain ⟨⟨o1, m1⟩, h1, e⟩ := bind_ok e; cases e; exact pair_always h h1
  case remove => obtain ⟨⟨o1, m1⟩, h1, e⟩ := bind_ok e; cases e; exact remove_always h h1
  case removeLeft =>
    obtain ⟨⟨o1, m1⟩, h1, e⟩ := bind_ok e; cases e
    exact ⟨(removeLeft_always h h1).1, (removeLeft_always h h1).2.1⟩
  case removeRight =>
    obtain ⟨⟨o1, m1⟩, h1, e⟩ := bind_ok e; cases e
    exact ⟨(removeRight_always h h1).1, (removeRight_always h h1).2.1⟩
  case retainPaired => obtain ⟨⟨o1, m1⟩, h1, e⟩ := bind_ok e; cases e; exact retainPaired_always h h1
  case retainUnpaired => obtain ⟨⟨o1, m1⟩, h1, e⟩ := bind_ok e; cases e; exact retainUnpaired_always h h1
  case extend => obtain ⟨m1, h1, e⟩ := bind_ok e; cases e; exact extend_always h h1
  case extendOpt => obtain ⟨m1, h1, e⟩ := bind_ok e; cases e; exact extendOpt_always h h1
  case getLeftIter => obtain ⟨o1, h1, e⟩ := bind_ok e; cases e; exact ⟨h, rfl⟩
  case iter => obtain ⟨o1, h1, e⟩ := bind_ok e; cases e; exact ⟨h, rfl⟩
  case iterPaired => obtain ⟨o1, h1, e⟩ := bind_ok e; cases e; exact ⟨h, rfl⟩
  case clear =>
    cases e
    exact ⟨⟨.of_nil (RawTable.clear_entries _), .of_nil (RawTable.clear_entries _)⟩, rfl⟩
  case clone cl cr =>
    cases e
    obtain ⟨h1, h2⟩ := hc cl cr (by simp)
    exact ⟨clone_always h h1 h2, rfl⟩
  all_goals cases e; exact ⟨h, rfl⟩

theorem run_always (h : Always m) {ops : List (Op L R)} {os} (hc : LawfulClones ops) (e : m.run ops = .ok (os, m')) :
    Always m' ∧ m'.hb = m.hb := by
  induction ops generalizing m os with
  | nil => cases e; exact ⟨h, rfl⟩
  | cons op ops ih =>
    obtain ⟨⟨o1, m1⟩, h1, e⟩ := bind_ok e
    obtain ⟨⟨os, m2⟩, h2, e⟩ := bind_ok e
    cases e
    obtain ⟨a1, b1⟩ := exec_always h (fun cl cr hm => hc cl cr (by
      rcases List.mem_cons.1 hm with rfl | hm
      · exact List.mem_cons_self
      · cases hm)) h1
    obtain ⟨a2, b2⟩ := ih a1 (fun cl cr hm => hc cl cr (List.mem_cons_of_mem _ hm)) h2
    exact ⟨a2, b2.trans b1⟩

theorem withCapacity_always (n : Nat) (hb : BuildHasher L R) : Always (withCapacityAndHasher n hb) :=
  ⟨.of_nil (RawTable.withCapacity_entries _), .of_nil (RawTable.withCapacity_entries _)⟩

end Verif.GroupMap
