import Verif.GroupMap.WeakSpec
import Verif.GroupMap.Ops
/-! Where `==` is an equivalence, the specification for any `==` is the one of the other properties. -/
set_option linter.unusedSectionVars false
set_option linter.unusedSimpArgs false
namespace Verif.GroupWeak
open GroupMap

variable {L R : Type} [BEq L] [BEq R]

/-- the contents that the groups stand for -/
def contents (g : Groups L R) : GroupSpec.Contents L R := ⟨g.rights.map (·.2), pairs g⟩

/-- no item is there twice -/
def Apart (g : Groups L R) : Prop :=
  g.rights.Pairwise (fun a b => (a.2 == b.2) = false) ∧ g.lefts.Pairwise fun a b => (a.1 == b.1) = false

/-- the pair of a left item -/
def pairOf (rights : List (Nat × R)) (x : L × Nat) : Option (L × R) := (rights.find? (·.1 == x.2)).map fun y => (x.1, y.2)

theorem pairs_eq (g : Groups L R) : pairs g = g.lefts.filterMap (pairOf g.rights) := rfl

theorem find_label {ys : List (Nat × R)} (h : ys.Pairwise (·.1 ≠ ·.1)) {y : Nat × R} (hy : y ∈ ys) :
    ys.find? (·.1 == y.1) = some y := by
  obtain ⟨zs, hp⟩ := perm_cons_of_mem hy
  have h' := (hp.pairwise_iff (fun h => Ne.symm h)).1 h
  cases hf : ys.find? (·.1 == y.1) with
  | none => exact absurd (List.find?_eq_none.1 hf y hy) (by simp)
  | some z =>
    rcases List.mem_cons.1 (hp.mem_iff.1 (List.mem_of_find?_eq_some hf)) with rfl | hz
    · rfl
    · have := List.find?_some hf
      exact absurd (by simpa using this : z.1 = y.1) ((List.pairwise_cons.1 h').1 z hz).symm

theorem pairOf_some {ys : List (Nat × R)} (h : ys.Pairwise (·.1 ≠ ·.1)) {y : Nat × R} (hy : y ∈ ys) {x : L × Nat}
    (e : y.1 = x.2) : pairOf ys x = some (x.1, y.2) := by
  rw [pairOf, ← e, find_label h hy]; rfl

/-- right items that go do not matter to the left items of others -/
theorem pairOf_tail {ys zs : List (Nat × R)} (h : ys.Pairwise (·.1 ≠ ·.1)) (hs : ∀ z ∈ zs, z ∈ ys)
    (hp : zs.Pairwise (·.1 ≠ ·.1)) {x : L × Nat} (hx : ∃ z ∈ zs, z.1 = x.2) : pairOf zs x = pairOf ys x := by
  obtain ⟨z, hz, e⟩ := hx
  rw [pairOf_some hp hz e, pairOf_some h (hs z hz) e]

theorem filter_filterMap_of {α β : Type} {f : α → Option β} {p : β → Bool} {q : α → Bool} {xs : List α}
    (h : ∀ x ∈ xs, ∃ b, f x = some b ∧ p b = q x) : (xs.filterMap f).filter p = (xs.filter q).filterMap f := by
  induction xs with
  | nil => rfl
  | cons x xs ih =>
    obtain ⟨b, e, hq⟩ := h x List.mem_cons_self
    have ih := ih fun a ha => h a (List.mem_cons_of_mem _ ha)
    cases hc : q x
    · rw [List.filterMap_cons, e, List.filter_cons, hq, List.filter_cons, hc]; exact ih
    · rw [List.filterMap_cons, e, List.filter_cons, hq, List.filter_cons, hc]
      simp only [if_true, List.filterMap_cons, e, ih]

variable [EquivBEq L] [EquivBEq R]

theorem Sound.owner {g : Groups L R} (h : Sound g) {x : L × Nat} (hx : x ∈ g.lefts) :
    ∃ y ∈ g.rights, y.1 = x.2 ∧ pairOf g.rights x = some (x.1, y.2) := by
  obtain ⟨y, hy, e⟩ := h.2 x hx
  exact ⟨y, hy, e, pairOf_some h.1 hy e⟩

/-- only one left item matches -/
theorem Apart.onlyL {g : Groups L R} (h : Apart g) {l : L} {x : L × Nat} {xs : List (L × Nat)} (hp : g.lefts.Perm (x :: xs))
    (hx : (x.1 == l) = true) : ∀ a ∈ xs, (a.1 == l) = false := fun a ha => eq_false_of_ne_true' fun hc => by
  have h' := (hp.pairwise_iff (R := fun a b : L × Nat => (a.1 == b.1) = false) (fun {a b} h => by rw [BEq.comm]; exact h)).1 h.2
  have := (List.pairwise_cons.1 h').1 a ha
  rw [BEq.trans hx (BEq.symm hc)] at this; cases this

/-- only one right item matches -/
theorem Apart.onlyR {g : Groups L R} (h : Apart g) {r : R} {y z : Nat × R} (hy : Hit g r y) (hz : Hit g r z) : y = z := by
  obtain ⟨ys, hp⟩ := perm_cons_of_mem hy.1
  rcases List.mem_cons.1 (hp.mem_iff.1 hz.1) with e | hm
  · exact e.symm
  · have h' := (hp.pairwise_iff (R := fun a b : Nat × R => (a.2 == b.2) = false) (fun {a b} h => by rw [BEq.comm]; exact h)).1 h.1
    have := (List.pairwise_cons.1 h').1 z hm
    rw [BEq.trans hy.2 (BEq.symm hz.2)] at this; cases this

theorem eraseL_contents {g : Groups L R} (h : Sound g) (l : L) :
    (GroupSpec.eraseL (contents g) l).pairs = (g.lefts.filter fun x => !(x.1 == l)).filterMap (pairOf g.rights) := by
  refine filter_filterMap_of fun x hx => ?_
  obtain ⟨y, -, -, e⟩ := h.owner hx
  exact ⟨_, e, by rw [BEq.comm (a := l)]⟩

theorem pairOf_perm {ys zs : List (Nat × R)} (h : ys.Pairwise (·.1 ≠ ·.1)) (hp : zs.Perm ys) {x : L × Nat}
    (hx : ∃ y ∈ ys, y.1 = x.2) : pairOf zs x = pairOf ys x := by
  obtain ⟨y, hy, e⟩ := hx
  exact pairOf_tail h (fun z hz => hp.mem_iff.1 hz) ((hp.pairwise_iff (fun h => Ne.symm h)).2 h) ⟨y, hp.mem_iff.2 hy, e⟩

theorem filterMap_congr_mem {α β : Type} {f g : α → Option β} {xs : List α} (h : ∀ x ∈ xs, f x = g x) :
    xs.filterMap f = xs.filterMap g := by
  induction xs with
  | nil => rfl
  | cons x xs ih =>
    rw [List.filterMap_cons, List.filterMap_cons, h x List.mem_cons_self, ih fun a ha => h a (List.mem_cons_of_mem _ ha)]

theorem takeL_lawful {g g' : Groups L R} (h : Sound g) (ha : Apart g) {l : L} {o : Option (L × Nat)} (ht : TakeL g l o g') :
    o.map (·.1) = (GroupSpec.findL (contents g) l).map (·.1) ∧
      (contents g').Same (GroupSpec.eraseL (contents g) l) := by
  have goal : ∀ xs, xs.Perm (g.lefts.filter fun x => !(x.1 == l)) → g'.lefts.Perm xs → g'.rights.Perm g.rights →
      (contents g').Same (GroupSpec.eraseL (contents g) l) := fun xs hp hl hr => by
    refine ⟨hr.map _, ?_⟩
    rw [eraseL_contents h]
    show (g'.lefts.filterMap (pairOf g'.rights)).Perm _
    refine .trans (.of_eq (filterMap_congr_mem fun x hx => ?_)) ((hl.trans hp).filterMap _)
    exact pairOf_perm h.1 hr (h.2 x (List.mem_filter.1 ((hl.trans hp).mem_iff.1 hx)).1)
  rcases ht with ⟨rfl, hn, hs⟩ | ⟨x, rfl, hx, hp, hr⟩
  · constructor
    · rw [GroupSpec.findL, List.find?_eq_none.2]; · rfl
      intro p hp
      obtain ⟨x, hx, e⟩ := List.mem_filterMap.1 hp
      obtain ⟨y, -, -, e2⟩ := h.owner hx
      have e : pairOf g.rights x = some p := e
      rw [e2] at e
      cases e
      rw [BEq.comm, hn x hx]; simp
    · exact goal g.lefts (.of_eq (List.filter_eq_self.2 fun x hx => by rw [hn x hx]; rfl).symm) hs.2 hs.1
  · have honly := ha.onlyL hp hx
    constructor
    · obtain ⟨y, hy, e1, e2⟩ := h.owner (hp.mem_iff.2 List.mem_cons_self)
      have hm : (x.1, y.2) ∈ pairs g := List.mem_filterMap.2 ⟨x, hp.mem_iff.2 List.mem_cons_self, e2⟩
      cases hf : GroupSpec.findL (contents g) l with
      | none => exact absurd (List.find?_eq_none.1 hf _ hm) (by rw [BEq.comm, hx]; simp)
      | some p =>
        have hl := List.find?_some hf
        obtain ⟨a, ham, e⟩ := List.mem_filterMap.1 (List.mem_of_find?_eq_some hf)
        obtain ⟨z, -, -, e3⟩ := h.owner ham
        have e : pairOf g.rights a = some p := e
        rw [e3] at e
        cases e
        rcases List.mem_cons.1 (hp.mem_iff.1 ham) with rfl | hm
        · rfl
        · have := honly a hm
          rw [BEq.comm] at this
          simp only at hl
          rw [hl] at this; cases this
    · refine goal g'.lefts ?_ (.refl _) hr
      refine .trans (.of_eq ?_) (hp.filter _).symm
      rw [List.filter_cons, hx, if_neg (by simp), List.filter_eq_self.2]
      intro a ham; rw [honly a ham]; rfl

theorem takeR_lawful {g g' : Groups L R} (h : Sound g) (ha : Apart g) {r : R} {o : Option (List L × R)} (ht : TakeR g r o g') :
    GroupSpec.SameEntry o (GroupSpec.entryR (contents g) r) ∧ (contents g').Same (GroupSpec.eraseR (contents g) r) := by
  rcases ht with ⟨rfl, hn, hs⟩ | ⟨y, hr, hp, hl, ks, hk, rfl⟩
  · have hpn : ∀ p ∈ pairs g, (r == p.2) = false := fun p hp => by
      obtain ⟨x, hx, e⟩ := List.mem_filterMap.1 hp
      obtain ⟨y, hy, -, e2⟩ := h.owner hx
      have e : pairOf g.rights x = some p := e
      rw [e2] at e
      cases e
      rw [BEq.comm]; exact hn y hy
    have hrn : ∀ b ∈ (contents g).rights, (r == b) = false := fun b hb => by
      obtain ⟨y, hy, rfl⟩ := List.mem_map.1 hb
      rw [BEq.comm]; exact hn y hy
    constructor
    · rw [GroupSpec.entryR, GroupSpec.findR, List.find?_eq_none.2 fun b hb => by rw [hrn b hb]; simp]
      trivial
    · constructor
      · refine (hs.1.map _).trans (.of_eq (List.filter_eq_self.2 fun b hb => ?_).symm)
        rw [hrn b hb]; rfl
      · refine .trans ?_ (.of_eq (List.filter_eq_self.2 fun p hp => ?_).symm)
        · show (g'.lefts.filterMap (pairOf g'.rights)).Perm (g.lefts.filterMap (pairOf g.rights))
          refine .trans (.of_eq (filterMap_congr_mem fun x hx => ?_)) (hs.2.filterMap _)
          exact pairOf_perm h.1 hs.1 (h.2 x (hs.2.mem_iff.1 hx))
        · rw [hpn p hp]; rfl
  · have hy : y ∈ g.rights := hp.mem_iff.2 List.mem_cons_self
    have hit : Hit g r y := ⟨hy, hr⟩
    have hlab : ∀ z ∈ g.rights, (r == z.2) = (z.1 == y.1) := fun z hz => by
      rw [BEq.comm]
      cases hc : (z.2 == r)
      · symm
        refine eq_false_of_ne_true' fun he => ?_
        have := find_label h.1 hz
        rw [beq_iff_eq.1 he, find_label h.1 hy] at this
        cases this
        rw [hr] at hc; cases hc
      · rw [ha.onlyR ⟨hz, hc⟩ hit]; simp
    have hx : ∀ x ∈ g.lefts, ∃ p, pairOf g.rights x = some p ∧ (r == p.2) = (x.2 == y.1) := fun x hx => by
      obtain ⟨z, hz, e, e2⟩ := h.owner hx
      exact ⟨_, e2, by rw [hlab z hz, e]⟩
    have hgrp : GroupSpec.group (contents g) r = group g y.1 := by
      rw [GroupSpec.group, group]
      have : (pairs g).filter (fun p => r == p.2) = (g.lefts.filter (·.2 == y.1)).filterMap (pairOf g.rights) :=
        filter_filterMap_of hx
      show ((pairs g).filter fun p => r == p.2).map (·.1) = _
      rw [this]
      have : ∀ xs : List (L × Nat), (∀ x ∈ xs, x ∈ g.lefts) → (xs.filterMap (pairOf g.rights)).map (·.1) = xs.map (·.1) := by
        intro xs hxs
        induction xs with
        | nil => rfl
        | cons x xs ih =>
          obtain ⟨z, -, -, e⟩ := h.owner (hxs x List.mem_cons_self)
          rw [List.filterMap_cons, e, List.map_cons, List.map_cons, ih fun a ha => hxs a (List.mem_cons_of_mem _ ha)]
      exact this _ fun x hx => (List.mem_filter.1 hx).1
    have hks : collectSet ks = ks := collectSet_eq ((hk.pairwise_iff (fun {a b} h => by rw [BEq.comm]; exact h)).2 (by
      rw [group, List.pairwise_map]; exact ha.2.filter _))
    have hpw : (y :: g'.rights).Pairwise (·.1 ≠ ·.1) := (hp.pairwise_iff (fun h => Ne.symm h)).1 h.1
    constructor
    · have hf : GroupSpec.findR (contents g) r = some y.2 := by
        cases hf : GroupSpec.findR (contents g) r with
        | none =>
          exact absurd (List.find?_eq_none.1 hf y.2 (List.mem_map.2 ⟨y, hy, rfl⟩)) (by rw [BEq.comm, hr]; simp)
        | some b =>
          obtain ⟨z, hz, rfl⟩ := List.mem_map.1 (List.mem_of_find?_eq_some hf)
          have hb := List.find?_some hf
          rw [ha.onlyR hit ⟨hz, by rw [BEq.comm]; exact hb⟩]
      rw [GroupSpec.entryR, hf, hgrp, hks]
      exact ⟨hk, rfl⟩
    · constructor
      · show (g'.rights.map (·.2)).Perm ((g.rights.map (·.2)).filter _)
        refine .trans ?_ ((hp.map _).filter _).symm
        rw [List.map_cons, List.filter_cons, BEq.comm, hr, if_neg (by simp), List.filter_eq_self.2]
        intro b hb
        obtain ⟨z, hz, rfl⟩ := List.mem_map.1 hb
        rw [hlab z (hp.mem_iff.2 (List.mem_cons_of_mem _ hz))]
        have := (List.pairwise_cons.1 hpw).1 z hz
        simp [Ne.symm this]
      · have : (GroupSpec.eraseR (contents g) r).pairs = (g.lefts.filter fun x => !(x.2 == y.1)).filterMap (pairOf g.rights) := by
          refine filter_filterMap_of fun x hxm => ?_
          obtain ⟨p, e1, e2⟩ := hx x hxm
          exact ⟨p, e1, by rw [e2]⟩
        rw [this]
        show (g'.lefts.filterMap (pairOf g'.rights)).Perm _
        refine .trans (.of_eq (filterMap_congr_mem fun x hxm => ?_)) (hl.filterMap _)
        have hxf := List.mem_filter.1 (hl.mem_iff.1 hxm)
        refine pairOf_tail h.1 (fun z hz => hp.mem_iff.2 (List.mem_cons_of_mem _ hz)) (List.pairwise_cons.1 hpw).2 ?_
        obtain ⟨z, hz, e⟩ := h.2 x hxf.1
        rcases List.mem_cons.1 (hp.mem_iff.1 hz) with rfl | hz
        · rw [e] at hxf; simp at hxf
        · exact ⟨z, hz, e⟩

/-- the lookups of stored items find these items themselves -/
theorem picks_lawful {g : Groups L R} (ha : Apart g) {ys : List (Nat × R)} (hy : ∀ y ∈ ys, y ∈ g.rights) {js : List Nat}
    (h : Picks g ys js) : js = ys.map (·.1) := by
  induction ys generalizing js with
  | nil => exact h
  | cons y ys ih =>
    obtain ⟨z, js', rfl, hz, h⟩ := h
    rw [ih (fun a ha => hy a (List.mem_cons_of_mem _ ha)) h, List.map_cons, ha.onlyR hz ⟨hy y List.mem_cons_self, BEq.rfl⟩]

end Verif.GroupWeak
