import Verif.RawLemmas
import Verif.CycleMap.Spec
/-! Representation invariant of `CycleMap` and the effect of the primitive operations on it. -/
set_option linter.unusedSectionVars false
namespace Verif.CycleMap
open CycleSpec

variable [RawImpl] [LawfulRaw] {L R : Type} [BEq L] [BEq R] [EquivBEq L] [EquivBEq R]

/-- a pair together with its id -/
structure Rec (L R : Type) where
  l : L
  r : R
  id : Nat

def Rec.pair (p : Rec L R) : L × R := (p.l, p.r)

def toL (hb : BuildHasher L R) (p : Rec L R) : UInt64 × MappingPair L := (hb.hl p.l, ⟨p.l, hb.hr p.r, p.id⟩)
def toR (hb : BuildHasher L R) (p : Rec L R) : UInt64 × MappingPair R := (hb.hr p.r, ⟨p.r, hb.hl p.l, p.id⟩)

def Apart (a b : Rec L R) : Prop := a.id ≠ b.id ∧ (a.l == b.l) = false ∧ (a.r == b.r) = false

theorem Apart.symm {a b : Rec L R} (h : Apart a b) : Apart b a :=
  ⟨h.1.symm, by rw [BEq.comm]; exact h.2.1, by rw [BEq.comm]; exact h.2.2⟩

structure Rep (m : CycleMap L R) (ps : List (Rec L R)) : Prop where
  left : m.left.entries.Perm (ps.map (toL m.hb))
  right : m.right.entries.Perm (ps.map (toR m.hb))
  apart : ps.Pairwise Apart
  bound : ∀ p ∈ ps, p.id < m.counter

theorem hashesL {hb : BuildHasher L R} {t : RawTable (MappingPair L)} {ps : List (Rec L R)}
    (h : t.entries.Perm (ps.map (toL hb))) : ∀ e ∈ t.entries, e.2.hashWith hb.hl = e.1 := by
  intro e he
  obtain ⟨p, -, rfl⟩ := List.mem_map.1 (h.mem_iff.1 he)
  rfl

theorem hashesR {hb : BuildHasher L R} {t : RawTable (MappingPair R)} {ps : List (Rec L R)}
    (h : t.entries.Perm (ps.map (toR hb))) : ∀ e ∈ t.entries, e.2.hashWith hb.hr = e.1 := by
  intro e he
  obtain ⟨p, -, rfl⟩ := List.mem_map.1 (h.mem_iff.1 he)
  rfl

theorem Rep.perm {m : CycleMap L R} {ps qs} (h : Rep m ps) (hp : ps.Perm qs) : Rep m qs where
  left := h.left.trans (hp.map _)
  right := h.right.trans (hp.map _)
  apart := (hp.pairwise_iff (fun h => h.symm)).1 h.apart
  bound := fun p hm => h.bound p (hp.mem_iff.2 hm)

theorem Rep.tailApart {m : CycleMap L R} {p ps} (h : Rep m (p :: ps)) : ∀ q ∈ ps, Apart p q :=
  (List.pairwise_cons.1 h.apart).1

theorem eq_false_of_ne_true' {b : Bool} (h : ¬ b = true) : b = false := by simpa using h

theorem beq_false_of_left {T : Type} [BEq T] [EquivBEq T] {a b c : T} (h : (a == b) = true)
    (h' : (b == c) = false) : (a == c) = false := by
  rw [BEq.congr_left h]; exact h'

/-- split at the record of a left item -/
theorem Rep.casesL {m : CycleMap L R} {ps} (h : Rep m ps) (l : L) :
    (∀ p ∈ ps, (l == p.l) = false) ∨
    ∃ p qs, ps.Perm (p :: qs) ∧ Rep m (p :: qs) ∧ (l == p.l) = true ∧ ∀ q ∈ qs, (l == q.l) = false := by
  by_cases hx : ∃ p ∈ ps, (l == p.l) = true
  · obtain ⟨p, hp, hl⟩ := hx
    obtain ⟨qs, hq⟩ := perm_cons_of_mem hp
    have hr := h.perm hq
    exact .inr ⟨p, qs, hq, hr, hl, fun q hm => beq_false_of_left hl (hr.tailApart q hm).2.1⟩
  · refine .inl fun p hp => eq_false_of_ne_true' fun hc => hx ⟨p, hp, hc⟩

theorem Rep.casesR {m : CycleMap L R} {ps} (h : Rep m ps) (r : R) :
    (∀ p ∈ ps, (r == p.r) = false) ∨
    ∃ p qs, ps.Perm (p :: qs) ∧ Rep m (p :: qs) ∧ (r == p.r) = true ∧ ∀ q ∈ qs, (r == q.r) = false := by
  by_cases hx : ∃ p ∈ ps, (r == p.r) = true
  · obtain ⟨p, hp, hl⟩ := hx
    obtain ⟨qs, hq⟩ := perm_cons_of_mem hp
    have hr := h.perm hq
    exact .inr ⟨p, qs, hq, hr, hl, fun q hm => beq_false_of_left hl (hr.tailApart q hm).2.2⟩
  · refine .inl fun p hp => eq_false_of_ne_true' fun hc => hx ⟨p, hp, hc⟩

/-! ### Probes -/

theorem Rep.noneL {m : CycleMap L R} {ps} (h : Rep m ps) {P : MappingPair L → Bool}
    (hx : ∀ p ∈ ps, P (toL m.hb p).2 = false) : ∀ e ∈ m.left.entries, P e.2 = false := by
  intro e he
  obtain ⟨p, hp, rfl⟩ := List.mem_map.1 (h.left.mem_iff.1 he)
  exact hx p hp

theorem Rep.noneR {m : CycleMap L R} {ps} (h : Rep m ps) {P : MappingPair R → Bool}
    (hx : ∀ p ∈ ps, P (toR m.hb p).2 = false) : ∀ e ∈ m.right.entries, P e.2 = false := by
  intro e he
  obtain ⟨p, hp, rfl⟩ := List.mem_map.1 (h.right.mem_iff.1 he)
  exact hx p hp

theorem forall_mem_map_of {α β : Type} {f : α → β} {l : List α} {P : β → Prop}
    (h : ∀ a ∈ l, P (f a)) : ∀ b ∈ l.map f, P b := by
  intro b hb
  obtain ⟨a, ha, rfl⟩ := List.mem_map.1 hb
  exact h a ha

section
variable {m : CycleMap L R} {p : Rec L R} {ps : List (Rec L R)}

theorem Rep.getL (h : Rep m (p :: ps)) {hh : UInt64} {P : MappingPair L → Bool} (h1 : hh = m.hb.hl p.l)
    (h2 : P (toL m.hb p).2 = true) (h3 : ∀ q ∈ ps, P (toL m.hb q).2 = false) :
    m.left.get hh P = some (toL m.hb p).2 :=
  RawTable.get_some h.left h1.symm h2 (forall_mem_map_of h3)

theorem Rep.getR (h : Rep m (p :: ps)) {hh : UInt64} {P : MappingPair R → Bool} (h1 : hh = m.hb.hr p.r)
    (h2 : P (toR m.hb p).2 = true) (h3 : ∀ q ∈ ps, P (toR m.hb q).2 = false) :
    m.right.get hh P = some (toR m.hb p).2 :=
  RawTable.get_some h.right h1.symm h2 (forall_mem_map_of h3)

theorem Rep.removeL (h : Rep m (p :: ps)) {hh : UInt64} {P : MappingPair L → Bool} (h1 : hh = m.hb.hl p.l)
    (h2 : P (toL m.hb p).2 = true) (h3 : ∀ q ∈ ps, P (toL m.hb q).2 = false) :
    ∃ t, m.left.removeEntry hh P = some ((toL m.hb p).2, t) ∧ t.entries.Perm (ps.map (toL m.hb)) :=
  RawTable.removeEntry_some h.left h1.symm h2 (forall_mem_map_of h3)

theorem Rep.removeR (h : Rep m (p :: ps)) {hh : UInt64} {P : MappingPair R → Bool} (h1 : hh = m.hb.hr p.r)
    (h2 : P (toR m.hb p).2 = true) (h3 : ∀ q ∈ ps, P (toR m.hb q).2 = false) :
    ∃ t, m.right.removeEntry hh P = some ((toR m.hb p).2, t) ∧ t.entries.Perm (ps.map (toR m.hb)) :=
  RawTable.removeEntry_some h.right h1.symm h2 (forall_mem_map_of h3)

theorem Rep.getMutL (h : Rep m (p :: ps)) {hh : UInt64} {P : MappingPair L → Bool} (h1 : hh = m.hb.hl p.l)
    (h2 : P (toL m.hb p).2 = true) (h3 : ∀ q ∈ ps, P (toL m.hb q).2 = false) :
    ∃ w, m.left.getMut hh P = some ((toL m.hb p).2, w) ∧
      ∀ v, (w v).entries.Perm ((m.hb.hl p.l, v) :: ps.map (toL m.hb)) :=
  RawTable.getMut_some h.left h1.symm h2 (forall_mem_map_of h3)

theorem Rep.getMutR (h : Rep m (p :: ps)) {hh : UInt64} {P : MappingPair R → Bool} (h1 : hh = m.hb.hr p.r)
    (h2 : P (toR m.hb p).2 = true) (h3 : ∀ q ∈ ps, P (toR m.hb q).2 = false) :
    ∃ w, m.right.getMut hh P = some ((toR m.hb p).2, w) ∧
      ∀ v, (w v).entries.Perm ((m.hb.hr p.r, v) :: ps.map (toR m.hb)) :=
  RawTable.getMut_some h.right h1.symm h2 (forall_mem_map_of h3)

theorem hashAndId_self {T : Type} (v : T) (h : UInt64) (i : Nat) : hashAndId h i ⟨v, h, i⟩ = true := by
  simp [hashAndId]

theorem hashAndId_ne {T : Type} {v : T} {h h' : UInt64} {i j : Nat} (hne : i ≠ j) :
    hashAndId h i ⟨v, h', j⟩ = false := by
  simp [hashAndId, hne]

theorem Rep.idsL (h : Rep m (p :: ps)) (x : UInt64) :
    ∀ q ∈ ps, hashAndId x p.id (toL m.hb q).2 = false :=
  fun q hq => hashAndId_ne (h.tailApart q hq).1

theorem Rep.idsR (h : Rep m (p :: ps)) (x : UInt64) :
    ∀ q ∈ ps, hashAndId x p.id (toR m.hb q).2 = false :=
  fun q hq => hashAndId_ne (h.tailApart q hq).1

theorem Rep.keysL (h : Rep m (p :: ps)) {l : L} (hl : (l == p.l) = true) :
    ∀ q ∈ ps, equivalentKey l (toL m.hb q).2 = false :=
  fun q hq => beq_false_of_left hl (h.tailApart q hq).2.1

theorem Rep.keysR (h : Rep m (p :: ps)) {r : R} (hr : (r == p.r) = true) :
    ∀ q ∈ ps, equivalentKey r (toR m.hb q).2 = false :=
  fun q hq => beq_false_of_left hr (h.tailApart q hq).2.2

/-- dropping a record -/
theorem Rep.tail {left' : RawTable (MappingPair L)} {right' : RawTable (MappingPair R)}
    (h : Rep m (p :: ps)) (hl : left'.entries.Perm (ps.map (toL m.hb)))
    (hr : right'.entries.Perm (ps.map (toR m.hb))) : Rep { m with left := left', right := right' } ps where
  left := hl
  right := hr
  apart := (List.pairwise_cons.1 h.apart).2
  bound := fun q hq => h.bound q (List.mem_cons_of_mem _ hq)

end

section
variable {m : CycleMap L R} {p : Rec L R} {ps : List (Rec L R)}

theorem get_left_none (h : Rep m ps) {l : L} (hl : ∀ p ∈ ps, (l == p.l) = false) (x : UInt64) :
    m.left.get x (equivalentKey l) = none := RawTable.get_none (h.noneL hl)

theorem get_right_none (h : Rep m ps) {r : R} (hr : ∀ p ∈ ps, (r == p.r) = false) (x : UInt64) :
    m.right.get x (equivalentKey r) = none := RawTable.get_none (h.noneR hr)

theorem get_left_some (h : Rep m (p :: ps)) {l : L} (hl : (l == p.l) = true) :
    m.left.get (m.hb.hl l) (equivalentKey l) = some ⟨p.l, m.hb.hr p.r, p.id⟩ :=
  h.getL (m.hb.hl_congr _ _ hl) hl (h.keysL hl)

theorem get_right_some (h : Rep m (p :: ps)) {r : R} (hr : (r == p.r) = true) :
    m.right.get (m.hb.hr r) (equivalentKey r) = some ⟨p.r, m.hb.hl p.l, p.id⟩ :=
  h.getR (m.hb.hr_congr _ _ hr) hr (h.keysR hr)

/-! ### remove -/

theorem removeViaLeft_none (h : Rep m ps) {l : L} (hl : ∀ p ∈ ps, (l == p.l) = false) :
    m.removeViaLeft l = .ok (none, m) := by
  have : m.left.removeEntry (m.hb.hl l) (equivalentKey l) = none := RawTable.removeEntry_none (h.noneL hl)
  simp [removeViaLeft, this]

theorem removeViaRight_none (h : Rep m ps) {r : R} (hr : ∀ p ∈ ps, (r == p.r) = false) :
    m.removeViaRight r = .ok (none, m) := by
  have : m.right.removeEntry (m.hb.hr r) (equivalentKey r) = none := RawTable.removeEntry_none (h.noneR hr)
  simp [removeViaRight, this]

theorem removeViaLeft_some (h : Rep m (p :: ps)) {l : L} (hl : (l == p.l) = true) :
    ∃ m', m.removeViaLeft l = .ok (some p.pair, m') ∧ Rep m' ps ∧ m'.hb = m.hb ∧ m'.counter = m.counter := by
  have e := m.hb.hl_congr _ _ hl
  obtain ⟨t, ht, ht'⟩ := h.removeL (hh := m.hb.hl l) (P := equivalentKey l) e hl (h.keysL hl)
  obtain ⟨u, hu, hu'⟩ := h.removeR (hh := m.hb.hr p.r) (P := hashAndId (m.hb.hl l) p.id) rfl
    (by rw [e]; exact hashAndId_self _ _ _) (h.idsR _)
  refine ⟨{ m with left := t, right := u }, ?_, h.tail ht' hu', rfl, rfl⟩
  simp [removeViaLeft, ht, toL, hu, toR, Rec.pair]

theorem removeViaRight_some (h : Rep m (p :: ps)) {r : R} (hr : (r == p.r) = true) :
    ∃ m', m.removeViaRight r = .ok (some p.pair, m') ∧ Rep m' ps ∧ m'.hb = m.hb ∧ m'.counter = m.counter := by
  have e := m.hb.hr_congr _ _ hr
  obtain ⟨u, hu, hu'⟩ := h.removeR (hh := m.hb.hr r) (P := equivalentKey r) e hr (h.keysR hr)
  obtain ⟨t, ht, ht'⟩ := h.removeL (hh := m.hb.hl p.l) (P := hashAndId (m.hb.hr r) p.id) rfl
    (by rw [e]; exact hashAndId_self _ _ _) (h.idsL _)
  refine ⟨{ m with left := t, right := u }, ?_, h.tail ht' hu', rfl, rfl⟩
  simp [removeViaRight, hu, toR, ht, toL, Rec.pair]

theorem removeViaHashesAndId_some (h : Rep m (p :: ps)) :
    ∃ m', m.removeViaHashesAndId (m.hb.hl p.l) (m.hb.hr p.r) p.id = .ok (some p.pair, m') ∧ Rep m' ps ∧
      m'.hb = m.hb ∧ m'.counter = m.counter := by
  obtain ⟨t, ht, ht'⟩ := h.removeL (hh := m.hb.hl p.l) (P := hashAndId (m.hb.hr p.r) p.id) rfl
    (hashAndId_self _ _ _) (h.idsL _)
  obtain ⟨u, hu, hu'⟩ := h.removeR (hh := m.hb.hr p.r) (P := hashAndId (m.hb.hl p.l) p.id) rfl
    (hashAndId_self _ _ _) (h.idsR _)
  refine ⟨{ m with left := t, right := u }, ?_, h.tail ht' hu', rfl, rfl⟩
  simp [removeViaHashesAndId, ht, toL, hu, toR, Rec.pair]

/-! ### insert -/

/-- adding a pair whose items are both absent -/
theorem Rep.add (h : Rep m ps) {l : L} {r : R} (hl : ∀ p ∈ ps, (l == p.l) = false)
    (hr : ∀ p ∈ ps, (r == p.r) = false) :
    Rep { m with counter := m.counter + 1,
                 left := m.left.insert (m.hb.hl l) ⟨l, m.hb.hr r, m.counter⟩ (·.hashWith m.hb.hl),
                 right := m.right.insert (m.hb.hr r) ⟨r, m.hb.hl l, m.counter⟩ (·.hashWith m.hb.hr) }
      (⟨l, r, m.counter⟩ :: ps) where
  left := (RawTable.insert_perm _ _ _ (hashesL h.left)).trans (h.left.cons _)
  right := (RawTable.insert_perm _ _ _ (hashesR h.right)).trans (h.right.cons _)
  apart := by
    refine List.pairwise_cons.2 ⟨fun q hq => ⟨?_, hl q hq, hr q hq⟩, h.apart⟩
    exact (Nat.ne_of_lt (h.bound q hq)).symm
  bound := by
    intro q hq
    rcases List.mem_cons.1 hq with rfl | hq
    · exact Nat.lt_succ_self _
    · exact Nat.lt_succ_of_lt (h.bound q hq)

end

end Verif.CycleMap
