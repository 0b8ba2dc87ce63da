import Verif.RawLemmas
import Verif.ListLemmas
import Verif.CycleMap.Rep
import Verif.PartialMap.Spec
/-! Representation invariant of `PartialCycleMap`. -/
set_option linter.unusedSectionVars false
namespace Verif.PartialMap
open PartialSpec OptionalPair
open CycleMap (eq_false_of_ne_true' beq_false_of_left forall_mem_map_of)

variable [RawImpl] [LawfulRaw] {L R : Type} [BEq L] [BEq R] [EquivBEq L] [EquivBEq R]

/-- an entry together with its id -/
structure Rec (L R : Type) where
  e : OptionalPair L R
  id : Nat

def toL (hb : BuildHasher L R) (p : Rec L R) : Option (UInt64 × MappingPair L) :=
  match p.e with
  | someBoth l r => some (hb.hl l, ⟨l, some (hb.hr r), p.id⟩)
  | someLeft l => some (hb.hl l, ⟨l, none, p.id⟩)
  | _ => none

def toR (hb : BuildHasher L R) (p : Rec L R) : Option (UInt64 × MappingPair R) :=
  match p.e with
  | someBoth l r => some (hb.hr r, ⟨r, some (hb.hl l), p.id⟩)
  | someRight r => some (hb.hr r, ⟨r, none, p.id⟩)
  | _ => none

/-- the left table of these records -/
def tabL (hb : BuildHasher L R) (ps : List (Rec L R)) := ps.filterMap (toL hb)
/-- the right table of these records -/
def tabR (hb : BuildHasher L R) (ps : List (Rec L R)) := ps.filterMap (toR hb)

def Apart (a b : Rec L R) : Prop := a.id ≠ b.id ∧ Disj a.e b.e

theorem _root_.Verif.PartialSpec.Disj.symm {x y : OptionalPair L R} (h : Disj x y) : Disj y x := by
  cases x <;> cases y <;> simp_all [Disj, leftOf, rightOf, hasL, hasR, BEq.comm]

theorem Apart.symm {a b : Rec L R} (h : Apart a b) : Apart b a := ⟨h.1.symm, h.2.symm⟩

structure Rep (m : PartialMap L R) (ps : List (Rec L R)) : Prop where
  left : m.left.entries.Perm (tabL m.hb ps)
  right : m.right.entries.Perm (tabR m.hb ps)
  apart : ps.Pairwise Apart
  bound : ∀ p ∈ ps, p.id < m.counter
  nonempty : ∀ p ∈ ps, p.e ≠ neither

omit [EquivBEq L] [EquivBEq R] in
theorem apart_ids {ps : List (Rec L R)} (h : ps.Pairwise Apart) : ps.Pairwise (·.id ≠ ·.id) := h.imp fun h => h.1

omit [EquivBEq L] [EquivBEq R] in
theorem hashesL {hb : BuildHasher L R} {t : RawTable (MappingPair L)} {ps : List (Rec L R)}
    (h : t.entries.Perm (tabL hb ps)) : ∀ e ∈ t.entries, e.2.hashWith hb.hl = e.1 := by
  intro e he
  obtain ⟨⟨p, i⟩, -, hp⟩ := List.mem_filterMap.1 (h.mem_iff.1 he)
  cases p <;> cases hp <;> rfl

omit [EquivBEq L] [EquivBEq R] in
theorem hashesR {hb : BuildHasher L R} {t : RawTable (MappingPair R)} {ps : List (Rec L R)}
    (h : t.entries.Perm (tabR hb ps)) : ∀ e ∈ t.entries, e.2.hashWith hb.hr = e.1 := by
  intro e he
  obtain ⟨⟨p, i⟩, -, hp⟩ := List.mem_filterMap.1 (h.mem_iff.1 he)
  cases p <;> cases hp <;> rfl

theorem Rep.perm {m : PartialMap L R} {ps qs} (h : Rep m ps) (hp : ps.Perm qs) : Rep m qs where
  left := h.left.trans (hp.filterMap _)
  right := h.right.trans (hp.filterMap _)
  apart := (hp.pairwise_iff (fun h => h.symm)).1 h.apart
  bound := fun p hm => h.bound p (hp.mem_iff.2 hm)
  nonempty := fun p hm => h.nonempty p (hp.mem_iff.2 hm)

theorem Rep.tailApart {m : PartialMap L R} {p ps} (h : Rep m (p :: ps)) : ∀ q ∈ ps, Apart p q :=
  (List.pairwise_cons.1 h.apart).1

theorem hasL_false_of {l : L} {x y : OptionalPair L R} (h : hasL l x = true) (hd : Disj x y) : hasL l y = false := by
  cases x <;> simp [hasL] at h
  all_goals
    have h1 := hd.1 _ rfl
    cases y <;> simp [hasL] at h1 ⊢
    all_goals exact beq_false_of_left h h1

theorem hasR_false_of {r : R} {x y : OptionalPair L R} (h : hasR r x = true) (hd : Disj x y) : hasR r y = false := by
  cases x <;> simp [hasR] at h
  all_goals
    have h1 := hd.2 _ rfl
    cases y <;> simp [hasR] at h1 ⊢
    all_goals exact beq_false_of_left h h1

theorem Rep.casesL {m : PartialMap L R} {ps} (h : Rep m ps) (l : L) :
    (∀ p ∈ ps, hasL l p.e = false) ∨
    ∃ p qs, ps.Perm (p :: qs) ∧ Rep m (p :: qs) ∧ hasL l p.e = true ∧ ∀ q ∈ qs, hasL l q.e = false := by
  by_cases hx : ∃ p ∈ ps, hasL l p.e = true
  · obtain ⟨p, hp, hl⟩ := hx
    obtain ⟨qs, hq⟩ := perm_cons_of_mem hp
    have hr := h.perm hq
    exact .inr ⟨p, qs, hq, hr, hl, fun q hm => hasL_false_of hl (hr.tailApart q hm).2⟩
  · exact .inl fun p hp => eq_false_of_ne_true' fun hc => hx ⟨p, hp, hc⟩

theorem Rep.casesR {m : PartialMap L R} {ps} (h : Rep m ps) (r : R) :
    (∀ p ∈ ps, hasR r p.e = false) ∨
    ∃ p qs, ps.Perm (p :: qs) ∧ Rep m (p :: qs) ∧ hasR r p.e = true ∧ ∀ q ∈ qs, hasR r q.e = false := by
  by_cases hx : ∃ p ∈ ps, hasR r p.e = true
  · obtain ⟨p, hp, hl⟩ := hx
    obtain ⟨qs, hq⟩ := perm_cons_of_mem hp
    have hr := h.perm hq
    exact .inr ⟨p, qs, hq, hr, hl, fun q hm => hasR_false_of hl (hr.tailApart q hm).2⟩
  · exact .inl fun p hp => eq_false_of_ne_true' fun hc => hx ⟨p, hp, hc⟩

/-! ### Facts about the tables of a list of records -/

omit [EquivBEq L] [EquivBEq R] in
theorem mem_tabL {hb : BuildHasher L R} {ps : List (Rec L R)} {x} (h : x ∈ tabL hb ps) :
    ∃ p ∈ ps, toL hb p = some x := List.mem_filterMap.1 h

omit [EquivBEq L] [EquivBEq R] in
theorem mem_tabR {hb : BuildHasher L R} {ps : List (Rec L R)} {x} (h : x ∈ tabR hb ps) :
    ∃ p ∈ ps, toR hb p = some x := List.mem_filterMap.1 h

omit [EquivBEq L] [EquivBEq R] in
theorem toL_some {hb : BuildHasher L R} {p : Rec L R} {x} (h : toL hb p = some x) :
    x.2.id = p.id ∧ leftOf p.e = some x.2.value ∧ x.1 = hb.hl x.2.value := by
  obtain ⟨e, i⟩ := p
  cases e <;> simp [toL] at h <;> subst h <;> simp [leftOf]

omit [EquivBEq L] [EquivBEq R] in
theorem toR_some {hb : BuildHasher L R} {p : Rec L R} {x} (h : toR hb p = some x) :
    x.2.id = p.id ∧ rightOf p.e = some x.2.value ∧ x.1 = hb.hr x.2.value := by
  obtain ⟨e, i⟩ := p
  cases e <;> simp [toR] at h <;> subst h <;> simp [rightOf]

omit [EquivBEq L] [EquivBEq R] in
theorem hasL_eq {l : L} {x : OptionalPair L R} {a} (h : leftOf x = some a) : hasL l x = (l == a) := by
  cases x <;> simp_all [leftOf, hasL]

omit [EquivBEq L] [EquivBEq R] in
theorem hasR_eq {r : R} {x : OptionalPair L R} {a} (h : rightOf x = some a) : hasR r x = (r == a) := by
  cases x <;> simp_all [rightOf, hasR]

section
variable {hb : BuildHasher L R} {ps : List (Rec L R)}

omit [EquivBEq L] [EquivBEq R] in
theorem keysL {l : L} (h : ∀ q ∈ ps, hasL l q.e = false) : ∀ x ∈ tabL hb ps, equivalentKey l x.2 = false := by
  intro x hx
  obtain ⟨p, hp, e⟩ := mem_tabL hx
  rw [equivalentKey, ← hasL_eq (toL_some e).2.1]; exact h p hp

omit [EquivBEq L] [EquivBEq R] in
theorem keysR {r : R} (h : ∀ q ∈ ps, hasR r q.e = false) : ∀ x ∈ tabR hb ps, equivalentKey r x.2 = false := by
  intro x hx
  obtain ⟨p, hp, e⟩ := mem_tabR hx
  rw [equivalentKey, ← hasR_eq (toR_some e).2.1]; exact h p hp

omit [EquivBEq L] [EquivBEq R] in
theorem idsL {i : Nat} (h : ∀ q ∈ ps, i ≠ q.id) : ∀ x ∈ tabL hb ps, justId i x.2 = false := by
  intro x hx
  obtain ⟨p, hp, e⟩ := mem_tabL hx
  simp [justId, (toL_some e).1, h p hp]

omit [EquivBEq L] [EquivBEq R] in
theorem idsR {i : Nat} (h : ∀ q ∈ ps, i ≠ q.id) : ∀ x ∈ tabR hb ps, justId i x.2 = false := by
  intro x hx
  obtain ⟨p, hp, e⟩ := mem_tabR hx
  simp [justId, (toR_some e).1, h p hp]

omit [EquivBEq L] [EquivBEq R] in
theorem hidsL {i : Nat} (a : UInt64) (h : ∀ q ∈ ps, i ≠ q.id) : ∀ x ∈ tabL hb ps, hashAndId a i x.2 = false := by
  intro x hx
  obtain ⟨p, hp, e⟩ := mem_tabL hx
  simp [hashAndId, (toL_some e).1, h p hp]

omit [EquivBEq L] [EquivBEq R] in
theorem hidsR {i : Nat} (a : UInt64) (h : ∀ q ∈ ps, i ≠ q.id) : ∀ x ∈ tabR hb ps, hashAndId a i x.2 = false := by
  intro x hx
  obtain ⟨p, hp, e⟩ := mem_tabR hx
  simp [hashAndId, (toR_some e).1, h p hp]
end

section
variable {m : PartialMap L R} {p : Rec L R} {ps : List (Rec L R)}

theorem Rep.ids (h : Rep m (p :: ps)) : ∀ q ∈ ps, p.id ≠ q.id := fun q hq => (h.tailApart q hq).1

theorem Rep.noneL (h : Rep m ps) {P : MappingPair L → Bool}
    (hx : ∀ x ∈ tabL m.hb ps, P x.2 = false) : ∀ x ∈ m.left.entries, P x.2 = false :=
  fun x he => hx x (h.left.mem_iff.1 he)

theorem Rep.noneR (h : Rep m ps) {P : MappingPair R → Bool}
    (hx : ∀ x ∈ tabR m.hb ps, P x.2 = false) : ∀ x ∈ m.right.entries, P x.2 = false :=
  fun x he => hx x (h.right.mem_iff.1 he)

theorem Rep.tailL (h : Rep m (p :: ps)) (hn : toL m.hb p = none) : m.left.entries.Perm (tabL m.hb ps) := by
  have := h.left; rwa [tabL, List.filterMap_cons_none hn] at this

theorem Rep.tailR (h : Rep m (p :: ps)) (hn : toR m.hb p = none) : m.right.entries.Perm (tabR m.hb ps) := by
  have := h.right; rwa [tabR, List.filterMap_cons_none hn] at this

theorem Rep.consL (h : Rep m (p :: ps)) {x} (hn : toL m.hb p = some x) : m.left.entries.Perm (x :: tabL m.hb ps) := by
  have := h.left; rwa [tabL, List.filterMap_cons_some hn] at this

theorem Rep.consR (h : Rep m (p :: ps)) {x} (hn : toR m.hb p = some x) : m.right.entries.Perm (x :: tabR m.hb ps) := by
  have := h.right; rwa [tabR, List.filterMap_cons_some hn] at this

theorem Rep.get_left_none (h : Rep m ps) {l : L} (hl : ∀ p ∈ ps, hasL l p.e = false) (x : UInt64) :
    m.left.get x (equivalentKey l) = none := RawTable.get_none (h.noneL (keysL hl))

theorem Rep.get_right_none (h : Rep m ps) {r : R} (hr : ∀ p ∈ ps, hasR r p.e = false) (x : UInt64) :
    m.right.get x (equivalentKey r) = none := RawTable.get_none (h.noneR (keysR hr))

theorem Rep.getMut_left_none (h : Rep m ps) {l : L} (hl : ∀ p ∈ ps, hasL l p.e = false) (x : UInt64) :
    m.left.getMut x (equivalentKey l) = none := RawTable.getMut_none (h.noneL (keysL hl))

theorem Rep.getMut_right_none (h : Rep m ps) {r : R} (hr : ∀ p ∈ ps, hasR r p.e = false) (x : UInt64) :
    m.right.getMut x (equivalentKey r) = none := RawTable.getMut_none (h.noneR (keysR hr))

theorem Rep.remove_left_none (h : Rep m ps) {l : L} (hl : ∀ p ∈ ps, hasL l p.e = false) (x : UInt64) :
    m.left.removeEntry x (equivalentKey l) = none := RawTable.removeEntry_none (h.noneL (keysL hl))

theorem Rep.remove_right_none (h : Rep m ps) {r : R} (hr : ∀ p ∈ ps, hasR r p.e = false) (x : UInt64) :
    m.right.removeEntry x (equivalentKey r) = none := RawTable.removeEntry_none (h.noneR (keysR hr))

/-- facts about the entry of a present left item -/
theorem Rep.factsL (h : Rep m (p :: ps)) {l : L} (hl : hasL l p.e = true) :
    ∃ x, toL m.hb p = some x ∧ equivalentKey l x.2 = true ∧ x.1 = m.hb.hl l ∧ m.hb.hl l = m.hb.hl x.2.value ∧
      x.2.id = p.id ∧ leftOf p.e = some x.2.value ∧ ∀ y ∈ tabL m.hb ps, equivalentKey l y.2 = false := by
  have hk := keysL (hb := m.hb) fun q hq => hasL_false_of hl (h.tailApart q hq).2
  obtain ⟨e, i⟩ := p
  cases e with
  | neither => cases hl
  | someRight => cases hl
  | someLeft a => exact ⟨_, rfl, hl, (m.hb.hl_congr _ _ hl).symm, m.hb.hl_congr _ _ hl, rfl, rfl, hk⟩
  | someBoth a b => exact ⟨_, rfl, hl, (m.hb.hl_congr _ _ hl).symm, m.hb.hl_congr _ _ hl, rfl, rfl, hk⟩

theorem Rep.factsR (h : Rep m (p :: ps)) {r : R} (hr : hasR r p.e = true) :
    ∃ x, toR m.hb p = some x ∧ equivalentKey r x.2 = true ∧ x.1 = m.hb.hr r ∧ m.hb.hr r = m.hb.hr x.2.value ∧
      x.2.id = p.id ∧ rightOf p.e = some x.2.value ∧ ∀ y ∈ tabR m.hb ps, equivalentKey r y.2 = false := by
  have hk := keysR (hb := m.hb) fun q hq => hasR_false_of hr (h.tailApart q hq).2
  obtain ⟨e, i⟩ := p
  cases e with
  | neither => cases hr
  | someLeft => cases hr
  | someRight a => exact ⟨_, rfl, hr, (m.hb.hr_congr _ _ hr).symm, m.hb.hr_congr _ _ hr, rfl, rfl, hk⟩
  | someBoth a b => exact ⟨_, rfl, hr, (m.hb.hr_congr _ _ hr).symm, m.hb.hr_congr _ _ hr, rfl, rfl, hk⟩

theorem Rep.get_left_some (h : Rep m (p :: ps)) {l : L} (hl : hasL l p.e = true) :
    ∃ x, toL m.hb p = some x ∧ m.left.get (m.hb.hl l) (equivalentKey l) = some x.2 := by
  obtain ⟨x, hx, h1, h2, _, _, _, h3⟩ := h.factsL hl
  exact ⟨x, hx, RawTable.get_some (h.consL hx) h2 h1 h3⟩

theorem Rep.get_right_some (h : Rep m (p :: ps)) {r : R} (hr : hasR r p.e = true) :
    ∃ x, toR m.hb p = some x ∧ m.right.get (m.hb.hr r) (equivalentKey r) = some x.2 := by
  obtain ⟨x, hx, h1, h2, _, _, _, h3⟩ := h.factsR hr
  exact ⟨x, hx, RawTable.get_some (h.consR hx) h2 h1 h3⟩

theorem Rep.getMut_left_some (h : Rep m (p :: ps)) {l : L} (hl : hasL l p.e = true) :
    ∃ x w, toL m.hb p = some x ∧ m.left.getMut (m.hb.hl l) (equivalentKey l) = some (x.2, w) ∧
      ∀ v, (w v).entries.Perm ((m.hb.hl l, v) :: tabL m.hb ps) := by
  obtain ⟨x, hx, h1, h2, _, _, _, h3⟩ := h.factsL hl
  obtain ⟨w, hw, hw'⟩ := RawTable.getMut_some (h.consL hx) h2 h1 h3
  exact ⟨x, w, hx, hw, by rw [← h2]; exact hw'⟩

theorem Rep.getMut_right_some (h : Rep m (p :: ps)) {r : R} (hr : hasR r p.e = true) :
    ∃ x w, toR m.hb p = some x ∧ m.right.getMut (m.hb.hr r) (equivalentKey r) = some (x.2, w) ∧
      ∀ v, (w v).entries.Perm ((m.hb.hr r, v) :: tabR m.hb ps) := by
  obtain ⟨x, hx, h1, h2, _, _, _, h3⟩ := h.factsR hr
  obtain ⟨w, hw, hw'⟩ := RawTable.getMut_some (h.consR hx) h2 h1 h3
  exact ⟨x, w, hx, hw, by rw [← h2]; exact hw'⟩

theorem Rep.remove_left_some (h : Rep m (p :: ps)) {l : L} (hl : hasL l p.e = true) :
    ∃ x t, toL m.hb p = some x ∧ m.left.removeEntry (m.hb.hl l) (equivalentKey l) = some (x.2, t) ∧
      t.entries.Perm (tabL m.hb ps) := by
  obtain ⟨x, hx, h1, h2, _, _, _, h3⟩ := h.factsL hl
  obtain ⟨t, ht, ht'⟩ := RawTable.removeEntry_some (h.consL hx) h2 h1 h3
  exact ⟨x, t, hx, ht, ht'⟩

theorem Rep.remove_right_some (h : Rep m (p :: ps)) {r : R} (hr : hasR r p.e = true) :
    ∃ x t, toR m.hb p = some x ∧ m.right.removeEntry (m.hb.hr r) (equivalentKey r) = some (x.2, t) ∧
      t.entries.Perm (tabR m.hb ps) := by
  obtain ⟨x, hx, h1, h2, _, _, _, h3⟩ := h.factsR hr
  obtain ⟨t, ht, ht'⟩ := RawTable.removeEntry_some (h.consR hx) h2 h1 h3
  exact ⟨x, t, hx, ht, ht'⟩

/-- dropping a record -/
theorem Rep.tail {left' : RawTable (MappingPair L)} {right' : RawTable (MappingPair R)}
    (h : Rep m (p :: ps)) (hl : left'.entries.Perm (tabL m.hb ps))
    (hr : right'.entries.Perm (tabR m.hb ps)) : Rep { m with left := left', right := right' } ps where
  left := hl
  right := hr
  apart := (List.pairwise_cons.1 h.apart).2
  bound := fun q hq => h.bound q (List.mem_cons_of_mem _ hq)
  nonempty := fun q hq => h.nonempty q (List.mem_cons_of_mem _ hq)

end

theorem hashAndId_self {T : Type} (v : T) (h : UInt64) (i : Nat) : hashAndId h i ⟨v, some h, i⟩ = true := by
  simp [hashAndId]

theorem justId_self {T : Type} (v : T) (h : Option UInt64) (i : Nat) : justId i ⟨v, h, i⟩ = true := by
  simp [justId]

end Verif.PartialMap
