import Verif.Props.Undo
import Verif.GroupMap.SpecLemmas
/-!
Property C149: calls that do several things at once agree with the simpler calls they are made of.

"Agree" means that both ways run, that what the one returns is what the others return together, and that every observer
describes the two resulting maps alike (`Shows m₁ c'` and `Shows m₂ c'` with the same `c'`), down to which of several equal
items is stored.
-/
set_option linter.unusedSectionVars false
set_option linter.unusedSimpArgs false

namespace Verif.CycleMap
open CycleSpec OptionalPair Demo

variable [RawImpl] [LawfulRaw] {L R : Type} [BEq L] [BEq R] [EquivBEq L] [EquivBEq R]
variable {m : CycleMap L R} {c d : List (L × R)}

/-- a closure without state -/
def always (p : L → R → Bool) : Unit → L → R → Bool × Unit := fun s l r => (p l r, s)

theorem always_split (p : L → R → Bool) (as : List (L × R)) :
    (split (onPair (always p)) as ()).1 = as.filter (fun x => p x.1 x.2) ∧
    (split (onPair (always p)) as ()).2.1 = as.filter fun x => !p x.1 x.2 :=
  split_pure (g := fun x => p x.1 x.2) (fun _ _ => rfl) as ()

theorem insert_fresh (h : Repr m c) {l : L} {r : R} (hl : ∀ q ∈ c, (l == q.1) = false) (hr : ∀ q ∈ c, (r == q.2) = false) :
    ∃ m', m.insert l r = .ok (neither, m') ∧ Repr m' ((l, r) :: c) := by
  obtain ⟨m', e, h', -⟩ := insert_refines h l r
  have g1 : findL c l = none := by simpa [findL] using hl
  have g2 : findR c r = none := by simpa [findR] using hr
  have g3 : (c.filter fun p => !(l == p.1) && !(r == p.2)) = c :=
    List.filter_eq_self.2 fun q hq => by simp [hl q hq, hr q hq]
  simp only [CycleSpec.insert, g1, g2, g3, ite_self] at e h'
  exact ⟨m', e, h'⟩

/-- C149, `insert` is `remove_via_left`, `remove_via_right` and the insertion of a pair that fits; it returns what these two return. -/
theorem C149_insert (h : Reachable m) (hc : Shows m c) (l : L) (r : R) : ∃ o₁ o₂ m' m₁ m₂ m₃ c',
    m.insert l r = .ok (ofPair (o₁, o₂), m') ∧
    m.removeViaLeft l = .ok (o₁, m₁) ∧ m₁.removeViaRight r = .ok (o₂, m₂) ∧ m₂.insert l r = .ok (neither, m₃) ∧
    Shows m' c' ∧ Shows m₃ c' := by
  have h := h.repr_of_shows hc
  obtain ⟨m', e, h', -⟩ := insert_refines h l r
  obtain ⟨m₁, e₁, h₁, -⟩ := removeViaLeft_refines h l
  obtain ⟨m₂, e₂, h₂, -⟩ := removeViaRight_refines h₁ r
  obtain ⟨m₃, e₃, h₃⟩ := insert_fresh h₂ (l := l) (r := r)
    (fun q hq => (mem_eraseL.1 (mem_eraseR.1 hq).1).2) (fun q hq => (mem_eraseR.1 hq).2)
  rw [findR_eraseL h.oneToOne] at e₂
  rw [eraseR_eraseL] at h₃
  exact ⟨_, _, m', m₁, m₂, m₃, _, e, e₁, e₂, e₃, h'.shows, h₃.shows⟩

/-- C149, `swap_left` of an item that is there: both items go, and the new one is inserted with the partner of the old one;
the old item and the other pair that went are returned. -/
theorem C149_swapLeft (h : Reachable m) (hc : Shows m c) (old new : L) (ho : m.containsLeft old = true) :
    ∃ a b q m' m₁ m₂ m₃ c', m.swapLeft old new = .ok (ofPair (some a, q), m') ∧
    m.removeViaLeft old = .ok (some (a, b), m₁) ∧ m₁.removeViaLeft new = .ok (q, m₂) ∧ m₂.insert new b = .ok (neither, m₃) ∧
    Shows m' c' ∧ Shows m₃ c' := by
  have h := h.repr_of_shows hc
  have o1 := h.oneToOne
  rw [hc.containsLeft, ← findL_isSome_eq] at ho
  obtain ⟨⟨a, b⟩, hf⟩ := Option.isSome_iff_exists.1 ho
  obtain ⟨m', e, h', -⟩ := swapLeft_refines h old new
  obtain ⟨m₁, e₁, h₁, -⟩ := removeViaLeft_refines h old
  obtain ⟨m₂, e₂, h₂, -⟩ := removeViaLeft_refines h₁ new
  have hb : ∀ q ∈ eraseL c old, (b == q.2) = false := by
    intro q hq
    obtain ⟨h1, h2⟩ := mem_eraseL.1 hq
    cases hbq : b == q.2 with
    | false => rfl
    | true =>
      have := o1.unique (findL_mem hf).1 h1 (.inr hbq)
      rw [← this, (findL_mem hf).2] at h2
      cases h2
  obtain ⟨m₃, e₃, h₃⟩ := insert_fresh h₂ (l := new) (r := b)
    (fun q hq => (mem_eraseL.1 hq).2) (fun q hq => hb q (mem_eraseL.1 hq).1)
  have g : findL (eraseL c old) new = if new == old then none else findL c new := by
    split
    · rename_i hno
      rw [findL, List.find?_eq_none]
      intro q hq
      have := (mem_eraseL.1 hq).2
      rw [← BEq.congr_left hno] at this
      simp [this]
    · rename_i hno
      simp only [findL, eraseL, List.find?_filter]
      congr 1; funext q
      cases hn : new == q.1 with
      | false => simp
      | true =>
        cases hq : old == q.1 with
        | false => rfl
        | true => exact absurd (BEq.trans hn (BEq.symm hq)) hno
  have g' : eraseL (eraseL c old) new = c.filter fun p => !(old == p.1) && !(new == p.1) := by
    simp [eraseL, List.filter_filter, Bool.and_comm]
  rw [hf] at e₁
  rw [g] at e₂
  rw [g'] at h₃
  simp only [CycleSpec.swapLeft, hf] at e h'
  exact ⟨a, b, _, m', m₁, m₂, m₃, _, e, e₁, e₂, e₃, h'.shows, h₃.shows⟩

/-- C149, `swap_right` -/
theorem C149_swapRight (h : Reachable m) (hc : Shows m c) (old new : R) (ho : m.containsRight old = true) :
    ∃ a b q m' m₁ m₂ m₃ c', m.swapRight old new = .ok (ofPair (some b, q), m') ∧
    m.removeViaRight old = .ok (some (a, b), m₁) ∧ m₁.removeViaRight new = .ok (q, m₂) ∧ m₂.insert a new = .ok (neither, m₃) ∧
    Shows m' c' ∧ Shows m₃ c' := by
  have h := h.repr_of_shows hc
  have o1 := h.oneToOne
  rw [hc.containsRight, ← findR_isSome_eq] at ho
  obtain ⟨⟨a, b⟩, hf⟩ := Option.isSome_iff_exists.1 ho
  obtain ⟨m', e, h', -⟩ := swapRight_refines h old new
  obtain ⟨m₁, e₁, h₁, -⟩ := removeViaRight_refines h old
  obtain ⟨m₂, e₂, h₂, -⟩ := removeViaRight_refines h₁ new
  have hb : ∀ q ∈ eraseR c old, (a == q.1) = false := by
    intro q hq
    obtain ⟨h1, h2⟩ := mem_eraseR.1 hq
    cases hbq : a == q.1 with
    | false => rfl
    | true =>
      have := o1.unique (findR_mem hf).1 h1 (.inl hbq)
      rw [← this, (findR_mem hf).2] at h2
      cases h2
  obtain ⟨m₃, e₃, h₃⟩ := insert_fresh h₂ (l := a) (r := new)
    (fun q hq => hb q (mem_eraseR.1 hq).1) (fun q hq => (mem_eraseR.1 hq).2)
  have g : findR (eraseR c old) new = if new == old then none else findR c new := by
    split
    · rename_i hno
      rw [findR, List.find?_eq_none]
      intro q hq
      have := (mem_eraseR.1 hq).2
      rw [← BEq.congr_left hno] at this
      simp [this]
    · rename_i hno
      simp only [findR, eraseR, List.find?_filter]
      congr 1; funext q
      cases hn : new == q.2 with
      | false => simp
      | true =>
        cases hq : old == q.2 with
        | false => rfl
        | true => exact absurd (BEq.trans hn (BEq.symm hq)) hno
  have g' : eraseR (eraseR c old) new = c.filter fun p => !(old == p.2) && !(new == p.2) := by
    simp [eraseR, List.filter_filter, Bool.and_comm]
  rw [hf] at e₁
  rw [g] at e₂
  rw [g'] at h₃
  simp only [CycleSpec.swapRight, hf] at e h'
  exact ⟨a, b, _, m', m₁, m₂, m₃, _, e, e₁, e₂, e₃, h'.shows, h₃.shows⟩

/-- C149, `remove` of a pair is the removal of either item; of two items that are not a pair it is nothing. -/
theorem C149_remove (h : Reachable m) (hc : Shows m c) (l : L) (r : R) : ∃ o m' , m.remove l r = .ok (o, m') ∧
    (m.arePaired l r = false → o = none ∧ m' = m) ∧
    (m.arePaired l r = true → ∃ m₁ m₂ c', m.removeViaLeft l = .ok (o, m₁) ∧ m.removeViaRight r = .ok (o, m₂) ∧
      Shows m' c' ∧ Shows m₁ c' ∧ Shows m₂ c') := by
  have h := h.repr_of_shows hc
  obtain ⟨m', e, h', -⟩ := remove_refines h l r
  refine ⟨_, m', e, fun hn => ?_, fun hn => ?_⟩
  · rw [remove, hn] at e
    rw [hc.arePaired] at hn
    simp only [hn, Bool.false_eq_true, if_false, pure, Except.pure] at e
    injection e with e
    injection e with e1 e2
    exact ⟨by rw [hn]; rfl, e2.symm⟩
  · rw [hc.arePaired] at hn
    rw [hn, if_pos rfl] at e h' ⊢
    obtain ⟨m₁, e₁, h₁, -⟩ := removeViaLeft_refines h l
    obtain ⟨m₂, e₂, h₂, -⟩ := removeViaRight_refines h r
    have hx := hn
    simp only [hasPair, List.any_eq_true, Bool.and_eq_true] at hx
    obtain ⟨p, hp, hl, hr⟩ := hx
    have g : findR c r = findL c l := by rw [findL_of_mem h.oneToOne hp hl, findR_of_mem h.oneToOne hp hr]
    have g' : eraseR c r = eraseL c l := by
      refine List.filter_congr fun q hq => ?_
      congr 1
      rw [BEq.congr_left hl, BEq.congr_left hr]
      cases h1 : p.1 == q.1 <;> cases h2 : p.2 == q.2
      · rfl
      · have := h.oneToOne.unique hp hq (.inr h2); subst this; simp at h1
      · have := h.oneToOne.unique hp hq (.inl h1); subst this; simp at h2
      · rfl
    rw [g] at e₂
    rw [g'] at h₂
    exact ⟨m₁, m₂, _, e₁, e₂, h'.shows, h₁.shows, h₂.shows⟩

/-- C149, `retain` is `drain_filter` with the opposite predicate, run to its end: what it yields and what `retain` keeps
are, together, what was there. -/
theorem C149_retain_drainFilter (h : Reachable m) (hc : Shows m c) (p : L → R → Bool) (n : Nat) (hn : c.length ≤ n) :
    ∃ ps m₁ m₂ c', m.retain (always p) () = .ok ((), m₁) ∧
    m.drainFilterTake (always fun l r => !p l r) () n = .ok (ps, (), m₂) ∧ Shows m₁ c' ∧ Shows m₂ c' ∧ (ps ++ c').Perm c ∧
    ∀ x ∈ ps, p x.1 x.2 = false := by
  have h := h.repr_of_shows hc
  obtain ⟨d, m₁, hd, e₁, h₁, -⟩ := retain_refines h (always p) ()
  obtain ⟨d', m₂, hd', e₂, h₂, -⟩ := drainFilterTake_refines h (always fun l r => !p l r) () n
  rw [(always_split _ _).1] at h₁
  rw [(always_split _ _).1, List.take_of_length_le] at e₂
  · rw [(always_split _ _).2] at h₂
    simp only [Bool.not_not] at h₂
    refine ⟨_, m₁, m₂, c.filter fun x => p x.1 x.2, e₁, e₂, (h₁.perm (hd.filter _)).shows, (h₂.perm (hd'.filter _)).shows, ?_, ?_⟩
    · refine ((hd'.filter _).append_right _).trans (List.perm_append_comm.trans ?_)
      exact List.filter_append_perm _ _
    · intro x hx
      simpa using (List.mem_filter.1 hx).2
  · refine Nat.le_trans (List.length_filter_le _ _) ?_
    rw [hd'.length_eq]; exact hn

/-- C149, `retain` twice is `retain` with the conjunction, in either order. -/
theorem C149_retain_retain (h : Reachable m) (hc : Shows m c) (p q : L → R → Bool) : ∃ m₁ m₂ m' c',
    m.retain (always p) () = .ok ((), m₁) ∧ m₁.retain (always q) () = .ok ((), m₂) ∧
    m.retain (always fun l r => q l r && p l r) () = .ok ((), m') ∧ Shows m₂ c' ∧ Shows m' c' := by
  have h := h.repr_of_shows hc
  obtain ⟨d, m₁, hd, e₁, h₁, -⟩ := retain_refines h (always p) ()
  obtain ⟨d₂, m₂, hd₂, e₂, h₂, -⟩ := retain_refines h₁ (always q) ()
  obtain ⟨d', m', hd', e', h', -⟩ := retain_refines h (always fun l r => q l r && p l r) ()
  rw [(always_split _ _).1] at hd₂ h₂ h'
  refine ⟨m₁, m₂, m', c.filter fun x => q x.1 x.2 && p x.1 x.2, e₁, e₂, e', (h₂.perm ?_).shows, (h'.perm (hd'.filter _)).shows⟩
  refine (hd₂.filter _).trans ?_
  rw [List.filter_filter]
  exact hd.filter _

/-- C149, `drain` to its end yields what `iter` yields and leaves what `clear` leaves. -/
theorem C149_drain (h : Reachable m) (hc : Shows m c) (n : Nat) (hn : m.len ≤ n) : ∃ ps qs m',
    m.drainTake n = .ok (ps, m') ∧ m.iterList = .ok qs ∧ ps.Perm qs ∧ Shows m' [] ∧ Shows m.clear [] := by
  have h := h.repr_of_shows hc
  obtain ⟨qs, e₁, hq⟩ := iterList_refines h
  obtain ⟨ps, m', hp, e₂, h₂, -⟩ := drain_refines h (n := n) (by rw [← hc.len]; exact hn)
  exact ⟨ps, qs, m', e₂, e₁, hp.trans hq.symm, h₂.shows, (clear_refines m).shows⟩

/-- C149, `extend` by two sequences one after the other is `extend` by their concatenation: the very same map. -/
theorem C149_extend (m : CycleMap L R) (xs ys : List (L × R)) : m.extend (xs ++ ys) = (m.extend xs).bind fun m' => m'.extend ys := by
  induction xs generalizing m with
  | nil => rfl
  | cons x xs ih =>
    simp only [List.cons_append, extend, bind, Except.bind]
    cases m.insert x.1 x.2 with
    | error _ => rfl
    | ok v => exact ih v.2

/-- C149, two swaps in a row, to items that are not there, are one. -/
theorem C149_swap_swap (h : Reachable m) (hc : Shows m c) (x y z : L) (hx : m.containsLeft x = true)
    (hy : m.containsLeft y = false) (hz : m.containsLeft z = false) : ∃ a m₁ m₂ m' c',
    m.swapLeft x y = .ok (someLeft a, m₁) ∧ m₁.swapLeft y z = .ok (someLeft y, m₂) ∧ m.swapLeft x z = .ok (someLeft a, m') ∧
    Shows m₂ c' ∧ Shows m' c' := by
  have h := h.repr_of_shows hc
  rw [hc.containsLeft] at hx hy hz
  rw [← findL_isSome_eq] at hx
  obtain ⟨⟨a, b⟩, hf⟩ := Option.isSome_iff_exists.1 hx
  have hy' : findL c y = none := by rw [findL, List.find?_eq_none]; intro q hq; simpa using List.any_eq_false.1 hy q hq
  have hz' : findL c z = none := by rw [findL, List.find?_eq_none]; intro q hq; simpa using List.any_eq_false.1 hz q hq
  have fy : ∀ q ∈ c, (y == q.1) = false := fun q hq => by simpa using List.any_eq_false.1 hy q hq
  have fz : ∀ q ∈ c, (z == q.1) = false := fun q hq => by simpa using List.any_eq_false.1 hz q hq
  obtain ⟨m₁, e₁, h₁, -⟩ := swapLeft_refines h x y
  obtain ⟨m', e', h', -⟩ := swapLeft_refines h x z
  have k : ∀ w, (∀ q ∈ c, (w == q.1) = false) → (c.filter fun p => !(x == p.1) && !(w == p.1)) = eraseL c x := fun w hw =>
    List.filter_congr fun q hq => by simp [hw q hq]
  simp only [CycleSpec.swapLeft, hf, hy', hz', ite_self, k y fy, k z fz] at e₁ h₁ e' h'
  obtain ⟨m₂, e₂, h₂, -⟩ := swapLeft_refines h₁ y z
  have g1 : findL ((y, b) :: eraseL c x) y = some (y, b) := by simp [findL]
  have g2 : (if z == y then none else findL ((y, b) :: eraseL c x) z) = none := by
    split
    · rfl
    · rename_i hzy
      rw [findL, List.find?_eq_none]
      intro q hq
      rcases List.mem_cons.1 hq with rfl | hq
      · simpa using hzy
      · simpa using fz q (mem_eraseL.1 hq).1
  have g3 : (((y, b) :: eraseL c x).filter fun p => !(y == p.1) && !(z == p.1)) = eraseL c x := by
    rw [List.filter_cons_of_neg (by simp), List.filter_eq_self]
    intro q hq
    simp [fy q (mem_eraseL.1 hq).1, fz q (mem_eraseL.1 hq).1]
  simp only [CycleSpec.swapLeft, g1, g2, g3] at e₂ h₂
  exact ⟨a, m₁, m₂, m', _, e₁, e₂, e', h₂.shows, h'.shows⟩

/-! The hypotheses on the demo map. -/

/-- `insert 1 20` pushes out two pairs -/
example : ∃ o₁ o₂ m' m₁ m₂ m₃ c', demo.insert 1 20 = .ok (ofPair (o₁, o₂), m') ∧ demo.removeViaLeft 1 = .ok (o₁, m₁) ∧
    m₁.removeViaRight 20 = .ok (o₂, m₂) ∧ m₂.insert 1 20 = .ok (neither, m₃) ∧ Shows m' c' ∧ Shows m₃ c' :=
  C149_insert demo_reachable demo_shows 1 20

/-- `swap_left(1, 3)` pushes out the pair of 3 -/
example : ∃ a b q m' m₁ m₂ m₃ c', demo.swapLeft 1 3 = .ok (ofPair (some a, q), m') ∧ demo.removeViaLeft 1 = .ok (some (a, b), m₁) ∧
    m₁.removeViaLeft 3 = .ok (q, m₂) ∧ m₂.insert 3 b = .ok (neither, m₃) ∧ Shows m' c' ∧ Shows m₃ c' :=
  C149_swapLeft demo_reachable demo_shows 1 3 (by rw [demo_shows.containsLeft]; rfl)

example : ∃ a b q m' m₁ m₂ m₃ c', demo.swapRight 10 10 = .ok (ofPair (some b, q), m') ∧ demo.removeViaRight 10 = .ok (some (a, b), m₁) ∧
    m₁.removeViaRight 10 = .ok (q, m₂) ∧ m₂.insert a 10 = .ok (neither, m₃) ∧ Shows m' c' ∧ Shows m₃ c' :=
  C149_swapRight demo_reachable demo_shows 10 10 (by rw [demo_shows.containsRight]; rfl)

example : ∃ a m₁ m₂ m' c', demo.swapLeft 1 7 = .ok (someLeft a, m₁) ∧ m₁.swapLeft 7 8 = .ok (someLeft 7, m₂) ∧
    demo.swapLeft 1 8 = .ok (someLeft a, m') ∧ Shows m₂ c' ∧ Shows m' c' :=
  C149_swap_swap demo_reachable demo_shows 1 7 8 (by rw [demo_shows.containsLeft]; rfl) (by rw [demo_shows.containsLeft]; rfl)
    (by rw [demo_shows.containsLeft]; rfl)

/-- one of the three pairs goes -/
example : ∃ ps m₁ m₂ c', demo.retain (always fun l _ => l != 2) () = .ok ((), m₁) ∧
    demo.drainFilterTake (always fun l _ => !(l != 2)) () 9 = .ok (ps, (), m₂) ∧ Shows m₁ c' ∧ Shows m₂ c' ∧
    (ps ++ c').Perm [(3, 30), (2, 20), (1, 10)] ∧ ∀ x ∈ ps, (x.1 != 2) = false :=
  C149_retain_drainFilter demo_reachable demo_shows (fun l _ => l != 2) 9 (by decide)

example : ∃ ps qs m', demo.drainTake 3 = .ok (ps, m') ∧ demo.iterList = .ok qs ∧ ps.Perm qs ∧ Shows m' [] ∧ Shows demo.clear [] :=
  C149_drain demo_reachable demo_shows 3 (by rw [demo_shows.len]; decide)

example : demo.arePaired 2 20 = true ∧ demo.arePaired 1 20 = false := by
  rw [demo_shows.arePaired, demo_shows.arePaired]; decide

end Verif.CycleMap

namespace Verif.PartialMap
open PartialSpec OptionalPair Demo

variable [RawImpl] [LawfulRaw] {L R : Type} [BEq L] [BEq R] [EquivBEq L] [EquivBEq R]
variable {m : PartialMap L R} {c d : List (OptionalPair L R)}

/-- `l` is taken from its partner, if it has one -/
def partLeft (m : PartialMap L R) (l : L) : PartialMap L R :=
  match m.getRight l with
  | none => m
  | some r => (m.unpair l r).2

/-- `r` is taken from its partner, if it has one -/
def partRight (m : PartialMap L R) (r : R) : PartialMap L R :=
  match m.getLeft r with
  | none => m
  | some l => (m.unpair l r).2

/-- `remove_left` of an item, if there is one -/
def dropLeft (m : PartialMap L R) : Option L → Res (PartialMap L R)
  | none => .ok m
  | some l => (m.removeLeft l).map (·.2)

/-- `remove_right` of an item, if there is one -/
def dropRight (m : PartialMap L R) : Option R → Res (PartialMap L R)
  | none => .ok m
  | some r => (m.removeRight r).map (·.2)

theorem rest_noL {e : OptionalPair L R} (h : OneToOne (e :: d)) {a : L} (ha : leftOf e = some a) {l : L} (hl : (l == a) = true) :
    ∀ q ∈ d, hasL l q = false := fun q hq => by
  rw [hasL_congr hl]; exact ((List.pairwise_cons.1 h.1).1 q hq).1 a ha

theorem rest_noR {e : OptionalPair L R} (h : OneToOne (e :: d)) {b : R} (hb : rightOf e = some b) {r : R} (hr : (r == b) = true) :
    ∀ q ∈ d, hasR r q = false := fun q hq => by
  rw [hasR_congr hr]; exact ((List.pairwise_cons.1 h.1).1 q hq).2 b hb

theorem removeLeft_lone {a l : L} (h : Repr m (someLeft a :: d)) (hl : (l == a) = true) :
    ∃ m', m.removeLeft l = .ok (some a, m') ∧ Repr m' d := by
  obtain ⟨m', e, h', -⟩ := removeLeft_refines h l
  have hn := rest_noL h.oneToOne rfl hl
  have g : findL (someLeft a :: d) l = some (someLeft a) := findL_some (.refl _) (by simpa [hasL] using hl) hn
  simp only [PartialSpec.removeLeft, g] at e h'
  exact ⟨m', e, h'.perm (by simpa [lones, rightOf] using eraseL_some (.refl _) (by simpa [hasL] using hl) hn)⟩

theorem removeRight_lone {b r : R} (h : Repr m (someRight b :: d)) (hr : (r == b) = true) :
    ∃ m', m.removeRight r = .ok (some b, m') ∧ Repr m' d := by
  obtain ⟨m', e, h', -⟩ := removeRight_refines h r
  have hn := rest_noR h.oneToOne rfl hr
  have g : findR (someRight b :: d) r = some (someRight b) := findR_some (.refl _) (by simpa [hasR] using hr) hn
  simp only [PartialSpec.removeRight, g] at e h'
  exact ⟨m', e, h'.perm (by simpa [lones, leftOf] using eraseR_some (.refl _) (by simpa [hasR] using hr) hn)⟩

theorem pair_lone {a l : L} {b r : R} (h : Repr m (someLeft a :: someRight b :: d)) (hl : (l == a) = true) (hr : (r == b) = true) :
    ∃ m', m.pair l r = (true, m') ∧ Repr m' (someBoth a b :: d) := by
  obtain ⟨m', e, h', -⟩ := pair_refines h l r
  have hn := rest_noL h.oneToOne rfl hl
  have hn' := rest_noR (h.perm (.swap _ _ _)).oneToOne rfl hr
  have g : findL (someLeft a :: someRight b :: d) l = some (someLeft a) := findL_some (.refl _) (by simpa [hasL] using hl) hn
  have g' : findR (someLeft a :: someRight b :: d) r = some (someRight b) :=
    findR_some (.swap _ _ _) (by simpa [hasR] using hr) hn'
  have g'' : others (someLeft a :: someRight b :: d) l r = d := by
    rw [others, List.filter_cons_of_neg (by simp [hasL, hl]), List.filter_cons_of_neg (by simp [hasR, hr]), List.filter_eq_self]
    intro q hq
    simp [hn q (List.mem_cons_of_mem _ hq), hn' q (List.mem_cons_of_mem _ hq)]
  simp only [PartialSpec.pair, g, g', g''] at e h'
  exact ⟨m', e, h'⟩

theorem ofPair_getLeft (a : Option L) (b : Option R) : (ofPair (a, b)).getLeft = a := by cases a <;> cases b <;> rfl
theorem ofPair_getRight (a : Option L) (b : Option R) : (ofPair (a, b)).getRight = b := by cases a <;> cases b <;> rfl

/-- C149, `insert` is `insert_left`, `insert_right` and `pair`; the two entries it returns are those the two insertions return. -/
theorem C149_insert (h : Reachable m) (hc : Shows m c) (l : L) (r : R) : ∃ x y m' m₁ m₂ m₃ c',
    m.insert l r = .ok ((x, y), m') ∧
    m.insertLeft l = .ok (x, m₁) ∧ m₁.insertRight r = .ok (y, m₂) ∧ m₂.pair l r = (true, m₃) ∧ Shows m' c' ∧ Shows m₃ c' := by
  have h := h.repr_of_shows hc
  obtain ⟨m', e, h', -⟩ := insert_refines h l r
  obtain ⟨m₁, e₁, h₁, -⟩ := insertLeft_refines h l
  obtain ⟨m₂, e₂, h₂, -⟩ := insertRight_refines h₁ r
  have g : findR (someLeft l :: eraseL c l) r = if hasPair c l r then none else findR c r := by
    rw [← findR_eraseL h.oneToOne]; rfl
  have g' : eraseR (someLeft l :: eraseL c l) r = someLeft l :: others c l r := by
    rw [← eraseR_eraseL]; rfl
  simp only [PartialSpec.insertLeft, PartialSpec.insertRight, g, g'] at e₁ h₁ e₂ h₂
  obtain ⟨m₃, e₃, h₃⟩ := pair_lone (h₂.perm (.swap _ _ _)) (l := l) (r := r) BEq.rfl BEq.rfl
  refine ⟨_, _, m', m₁, m₂, m₃, _, e, e₁, ?_, e₃, h'.shows, h₃.shows⟩
  rw [e₂]
  split <;> rfl

/-- C149, `remove_via_left` is `remove_left` and then, if there was a partner, `remove_right` of it; it returns what they return. -/
theorem C149_removeViaLeft (h : Reachable m) (hc : Shows m c) (l : L) : ∃ a m' m₁ c',
    m.removeViaLeft l = .ok (ofPair (a, m.getRight l), m') ∧ m.removeLeft l = .ok (a, m₁) ∧ Shows m' c' ∧
    (m.getRight l = none → Shows m₁ c') ∧
    ∀ r, m.getRight l = some r → ∃ m₂, m₁.removeRight r = .ok (some r, m₂) ∧ Shows m₂ c' := by
  have h := h.repr_of_shows hc
  obtain ⟨m', e, h', -⟩ := removeViaLeft_refines h l
  obtain ⟨m₁, e₁, h₁, -⟩ := removeLeft_refines h l
  have k : (findL c l).getD neither = ofPair ((findL c l).bind leftOf, (findL c l).bind rightOf) := by
    cases hf : findL c l with
    | none => rfl
    | some x =>
      have hx : hasL l x = true := List.find?_some hf
      cases x <;> simp [hasL] at hx <;> rfl
  rw [k] at e
  rw [hc.getRight]
  refine ⟨_, m', m₁, _, e, e₁, h'.shows, fun hn => ?_, fun r hr => ?_⟩
  · simp only [PartialSpec.removeLeft, hn, lones, Option.map_none, Option.toList_none, List.nil_append] at h₁
    exact h₁.shows
  · simp only [PartialSpec.removeLeft, hr, lones, Option.map_none, Option.toList_none, List.nil_append, Option.map_some,
      Option.toList_some, List.cons_append] at h₁
    obtain ⟨m₂, e₂, h₂⟩ := removeRight_lone h₁ (r := r) BEq.rfl
    exact ⟨m₂, e₂, h₂.shows⟩

/-- C149, `remove_via_right` -/
theorem C149_removeViaRight (h : Reachable m) (hc : Shows m c) (r : R) : ∃ b m' m₁ c',
    m.removeViaRight r = .ok (ofPair (m.getLeft r, b), m') ∧ m.removeRight r = .ok (b, m₁) ∧ Shows m' c' ∧
    (m.getLeft r = none → Shows m₁ c') ∧
    ∀ l, m.getLeft r = some l → ∃ m₂, m₁.removeLeft l = .ok (some l, m₂) ∧ Shows m₂ c' := by
  have h := h.repr_of_shows hc
  obtain ⟨m', e, h', -⟩ := removeViaRight_refines h r
  obtain ⟨m₁, e₁, h₁, -⟩ := removeRight_refines h r
  have k : (findR c r).getD neither = ofPair ((findR c r).bind leftOf, (findR c r).bind rightOf) := by
    cases hf : findR c r with
    | none => rfl
    | some x =>
      have hx : hasR r x = true := List.find?_some hf
      cases x <;> simp [hasR] at hx <;> rfl
  rw [k] at e
  rw [hc.getLeft]
  refine ⟨_, m', m₁, _, e, e₁, h'.shows, fun hn => ?_, fun l hl => ?_⟩
  · simp only [PartialSpec.removeRight, hn, lones, Option.map_none, Option.toList_none, List.nil_append] at h₁
    exact h₁.shows
  · simp only [PartialSpec.removeRight, hl, lones, Option.map_none, Option.toList_none, List.append_nil, Option.map_some,
      Option.toList_some, List.cons_append, List.nil_append] at h₁
    obtain ⟨m₂, e₂, h₂⟩ := removeLeft_lone h₁ (l := l) BEq.rfl
    exact ⟨m₂, e₂, h₂.shows⟩

/-- C149, `remove` of a pair is `unpair`, `remove_left` and `remove_right`; it returns what these return. -/
theorem C149_remove (h : Reachable m) (hc : Shows m c) (l : L) (r : R) (hp : m.arePaired l r = true) : ∃ a b m' m₁ m₂ m₃ c',
    m.remove l r = .ok (some (a, b), m') ∧ m.unpair l r = (true, m₁) ∧ m₁.removeLeft l = .ok (some a, m₂) ∧
    m₂.removeRight r = .ok (some b, m₃) ∧ Shows m' c' ∧ Shows m₃ c' := by
  have h := h.repr_of_shows hc
  rw [hc.arePaired] at hp
  obtain ⟨m', e, h', -⟩ := remove_refines h l r
  obtain ⟨m₁, e₁, h₁, -⟩ := unpair_refines h l r (unpairSafe_of_pair hp)
  obtain ⟨a, b, hf, hf'⟩ := findL_pair h.oneToOne hp
  have hl : (l == a) = true := by simpa [hasL] using List.find?_some hf
  have hr : (r == b) = true := by simpa [hasR] using List.find?_some hf'
  simp only [PartialSpec.remove, hp, if_true, hf, Option.bind_some, pairOf] at e h'
  simp only [PartialSpec.unpair, hp, if_true, hf, hf', Option.bind_some, leftOf, rightOf, lones, Option.map_some,
    Option.toList_some, List.cons_append, List.nil_append] at e₁ h₁
  obtain ⟨m₂, e₂, h₂⟩ := removeLeft_lone h₁ hl
  obtain ⟨m₃, e₃, h₃⟩ := removeRight_lone h₂ hr
  have hp' := others_perm h.oneToOne l r
  have hp'' := find_eraseL_perm h.oneToOne l
  rw [hf] at hp' hp''
  rw [hp] at hp'
  have k : (others c l r).Perm (eraseL c l) := by
    simp only [Option.toList_some, if_true, List.append_nil, List.cons_append, List.nil_append] at hp' hp''
    exact (hp'.trans hp''.symm).cons_inv
  exact ⟨a, b, m', m₁, m₂, m₃, _, e, e₁, e₂, e₃, h'.shows, (h₃.perm k).shows⟩

/-- C149, `pair_forced_remove` is `pair_forced` and the removal of the items it returned. -/
theorem C149_pairForcedRemove (h : Reachable m) (hc : Shows m c) (l : L) (r : R) : ∃ o m' m₁ m₂ m₃ c',
    m.pairForcedRemove l r = .ok (o, m') ∧ m.pairForced l r = .ok (o, m₁) ∧
    m₁.dropLeft o.getLeft = .ok m₂ ∧ m₂.dropRight o.getRight = .ok m₃ ∧ Shows m' c' ∧ Shows m₃ c' := by
  have h := h.repr_of_shows hc
  obtain ⟨m', e, h', -⟩ := pairForcedRemove_refines h l r
  obtain ⟨m₁, e₁, h₁, -⟩ := pairForced_refines h l r
  cases ha : (findL c l).bind leftOf with
  | none =>
    simp only [PartialSpec.pairForcedRemove, PartialSpec.pairForced, ha] at e h' e₁ h₁
    exact ⟨_, m', m₁, m₁, m₁, _, e, e₁, rfl, rfl, h'.shows, h₁.shows⟩
  | some a =>
    cases hb : (findR c r).bind rightOf with
    | none =>
      simp only [PartialSpec.pairForcedRemove, PartialSpec.pairForced, ha, hb] at e h' e₁ h₁
      exact ⟨_, m', m₁, m₁, m₁, _, e, e₁, rfl, rfl, h'.shows, h₁.shows⟩
    | some b =>
      simp only [PartialSpec.pairForcedRemove, PartialSpec.pairForced, ha, hb] at e h' e₁ h₁
      by_cases hp : hasPair c l r = true
      · simp only [hp, if_true] at e h' e₁ h₁
        exact ⟨_, m', m₁, m₁, m₁, _, e, e₁, rfl, rfl, h'.shows, h₁.shows⟩
      · simp only [hp, if_false, Bool.false_eq_true] at e h' e₁ h₁
        generalize (findR c r).bind leftOf = x at *
        generalize (findL c l).bind rightOf = y at *
        obtain ⟨m₂, e₂, h₂⟩ : ∃ m₂, m₁.dropLeft x = .ok m₂ ∧
            Repr m₂ (someBoth a b :: (lones none y ++ others c l r)) := by
          cases x with
          | none => exact ⟨m₁, rfl, h₁⟩
          | some x =>
            obtain ⟨m₂, e₂, h₂⟩ := removeLeft_lone (l := x) (h₁.perm (d := someLeft x :: someBoth a b :: (lones none y ++ others c l r)) (by
              simpa [lones] using List.Perm.swap _ _ _)) BEq.rfl
            exact ⟨m₂, by rw [dropLeft, e₂]; rfl, h₂⟩
        obtain ⟨m₃, e₃, h₃⟩ : ∃ m₃, m₂.dropRight y = .ok m₃ ∧
            Repr m₃ (someBoth a b :: others c l r) := by
          cases y with
          | none => exact ⟨m₂, rfl, h₂⟩
          | some y =>
            obtain ⟨m₃, e₃, h₃⟩ := removeRight_lone (r := y) (h₂.perm (d := someRight y :: someBoth a b :: others c l r) (by
              simpa [lones] using List.Perm.swap _ _ _)) BEq.rfl
            exact ⟨m₃, by rw [dropRight, e₃]; rfl, h₃⟩
        refine ⟨_, m', m₁, m₂, m₃, _, e, e₁, ?_, ?_, h'.shows, h₃.shows⟩
        · rw [ofPair_getLeft]; exact e₂
        · rw [ofPair_getRight]; exact e₃

theorem partLeft_repr (h : Repr m c) {l : L} {e : OptionalPair L R} (hf : findL c l = some e) :
    Repr (m.partLeft l) (lones (leftOf e) (rightOf e) ++ eraseL c l) := by
  have hp := find_eraseL_perm h.oneToOne l
  rw [hf] at hp
  have hg := getRight_refines h l
  rw [hf] at hg
  have hh : hasL l e = true := List.find?_some hf
  cases e with
  | neither => cases hh
  | someRight b => cases hh
  | someLeft a =>
    have : m.partLeft l = m := by rw [partLeft, hg]; rfl
    rw [this]
    exact h.perm hp.symm
  | someBoth a b =>
    have hpr : hasPair c l b = true := by rw [hasPair_eq h.oneToOne, hf]; simp [hasR]
    have hu := unpair_refines h l b (unpairSafe_of_pair hpr)
    obtain ⟨m₁, e₁, h₁, -⟩ := hu
    have : m.partLeft l = m₁ := by rw [partLeft, hg]; simp [rightOf, e₁]
    rw [this]
    obtain ⟨a', b', hf1, hf2⟩ := findL_pair h.oneToOne hpr
    have : someBoth a b = someBoth a' b' := by rw [hf] at hf1; injection hf1
    injection this with i1 i2
    subst i1 i2
    simp only [PartialSpec.unpair, hpr, if_true, hf, hf2, Option.bind_some] at h₁
    have hp' := others_perm h.oneToOne l b
    rw [hf, hpr] at hp'
    simp only [Option.toList_some, if_true, List.append_nil, List.cons_append, List.nil_append] at hp' hp
    exact h₁.perm ((hp'.trans hp.symm).cons_inv.append_left _)

theorem partRight_repr (h : Repr m c) {r : R} {e : OptionalPair L R} (hf : findR c r = some e) :
    Repr (m.partRight r) (lones (leftOf e) (rightOf e) ++ eraseR c r) := by
  have hp := find_eraseR_perm h.oneToOne r
  rw [hf] at hp
  have hg := getLeft_refines h r
  rw [hf] at hg
  have hh : hasR r e = true := List.find?_some hf
  cases e with
  | neither => cases hh
  | someLeft b => cases hh
  | someRight a =>
    have : m.partRight r = m := by rw [partRight, hg]; rfl
    rw [this]
    exact h.perm hp.symm
  | someBoth a b =>
    have hpr : hasPair c a r = true := by rw [hasPair_eq' h.oneToOne, hf]; simp [hasL]
    have hu := unpair_refines h a r (unpairSafe_of_pair hpr)
    obtain ⟨m₁, e₁, h₁, -⟩ := hu
    have : m.partRight r = m₁ := by rw [partRight, hg]; simp [leftOf, e₁]
    rw [this]
    obtain ⟨a', b', hf1, hf2⟩ := findL_pair h.oneToOne hpr
    have : someBoth a b = someBoth a' b' := by rw [hf] at hf2; injection hf2
    injection this with i1 i2
    subst i1 i2
    simp only [PartialSpec.unpair, hpr, if_true, hf, hf1, Option.bind_some] at h₁
    have hp' := others_perm h.oneToOne a r
    rw [hf1, hpr] at hp'
    simp only [Option.toList_some, if_true, List.append_nil, List.cons_append, List.nil_append] at hp' hp
    exact h₁.perm ((hp'.trans hp.symm).cons_inv.append_left _)

/-- C149, `pair_forced` of two items that are there and not a pair: both are taken from their partners by `unpair`, and then
`pair` joins them; the former partners are returned. -/
theorem C149_pairForced (h : Reachable m) (hc : Shows m c) (l : L) (r : R) (hl : m.containsLeft l = true) (hr : m.containsRight r = true)
    (hn : m.arePaired l r = false) : ∃ m' m₁ c',
    m.pairForced l r = .ok (ofPair (m.getLeft r, m.getRight l), m') ∧ ((m.partLeft l).partRight r).pair l r = (true, m₁) ∧
    Shows m' c' ∧ Shows m₁ c' := by
  have h := h.repr_of_shows hc
  rw [hc.arePaired] at hn
  have hl : (findL c l).isSome = true := by rw [hc.containsLeft] at hl; simpa [findL] using hl
  have hr : (findR c r).isSome = true := by rw [hc.containsRight] at hr; simpa [findR] using hr
  obtain ⟨e, hf⟩ := Option.isSome_iff_exists.1 hl
  obtain ⟨e', hf'⟩ := Option.isSome_iff_exists.1 hr
  obtain ⟨a, b, ha, hb, hla, hrb, he, he', hp, d1, d2, n1, n2, hd⟩ := apart_entries h.oneToOne hf hf' hn
  obtain ⟨m', e₁, h₁, -⟩ := pairForced_refines h l r
  simp only [PartialSpec.pairForced, hf, hf', hn, Option.bind_some, ha, hb, if_false, Bool.false_eq_true] at e₁ h₁
  have k1 := partLeft_repr h hf
  have hl1 : ∀ q ∈ lones (leftOf e) (rightOf e), hasR r q = false := by
    intro q hq
    rw [ha] at hq
    cases hre : rightOf e with
    | none => simp [lones, hre] at hq; subst hq; rfl
    | some y =>
      simp only [lones, hre, Option.map_some, Option.toList_some, List.cons_append, List.nil_append, List.mem_cons, List.not_mem_nil, or_false] at hq
      rcases hq with rfl | rfl
      · rfl
      · cases e <;> simp [rightOf] at hre
        all_goals (subst hre; exact n2)
  have f2 : findR (lones (leftOf e) (rightOf e) ++ eraseL c l) r = some e' := by
    rw [findR, List.find?_append, List.find?_eq_none.2 (fun q hq => by simp [hl1 q hq]), Option.none_or]
    have := findR_eraseL h.oneToOne l r
    rw [hn, hf'] at this
    exact this
  have k2 := partRight_repr k1 f2
  have f3 : eraseR (lones (leftOf e) (rightOf e) ++ eraseL c l) r = lones (leftOf e) (rightOf e) ++ others c l r := by
    rw [← eraseR_eraseL, eraseR, List.filter_append, List.filter_eq_self.2 (fun q hq => by simp [hl1 q hq])]; rfl
  rw [f3, ha, hb] at k2
  obtain ⟨m₁, e₂, h₂⟩ := pair_lone (l := l) (r := r) (k2.perm (d := someLeft a :: someRight b :: (lones (leftOf e') (rightOf e) ++ others c l r)) (by
    cases leftOf e' with
    | none =>
      simp only [lones, Option.map_none, Option.map_some, Option.toList_none, Option.toList_some, List.nil_append, List.cons_append, List.append_assoc]
      exact .swap _ _ _
    | some x =>
      simp only [lones, Option.map_none, Option.map_some, Option.toList_none, Option.toList_some, List.nil_append, List.cons_append, List.append_assoc]
      exact List.perm_middle (l₁ := [someLeft x, someRight b]) |>.trans (.cons _ (.swap _ _ _)))) hla hrb
  refine ⟨m', m₁, _, ?_, e₂, h₁.shows, h₂.shows⟩
  rw [hc.getLeft, hc.getRight, hf, hf']
  exact e₁

/-- C149, `swap_left` of an item that is there: the entries of both items go, and the new item comes in with what the old one
had as a partner; the old item and the other entry that went are returned. -/
theorem C149_swapLeft (h : Reachable m) (hc : Shows m c) (old new : L) (ho : m.containsLeft old = true) :
    ∃ x q m' m₁ m₂ m₃ c', m.swapLeft old new = .ok (ofPair (x.getLeft, q), m') ∧
    m.removeViaLeft old = .ok (x, m₁) ∧ m₁.removeViaLeft new = .ok (q.getD neither, m₂) ∧
    m₂.extend [ofPair (some new, x.getRight)] = .ok m₃ ∧ Shows m' c' ∧ Shows m₃ c' := by
  have h := h.repr_of_shows hc
  have ho : (findL c old).isSome = true := by rw [hc.containsLeft] at ho; simpa [findL] using ho
  obtain ⟨x, hf⟩ := Option.isSome_iff_exists.1 ho
  have hx : hasL old x = true := List.find?_some hf
  obtain ⟨m', e, h', -⟩ := swapLeft_refines h old new
  obtain ⟨m₁, e₁, h₁, -⟩ := removeViaLeft_refines h old
  obtain ⟨m₂, e₂, h₂, -⟩ := removeViaLeft_refines h₁ new
  obtain ⟨m₃, e₃, h₃, -⟩ := extend_refines h₂ [ofPair (some new, x.getRight)]
  have hp := find_eraseL_perm h.oneToOne old
  rw [hf] at hp
  have hd : ∀ q ∈ eraseL c old, Disj x q := (List.pairwise_cons.1 (h.perm hp.symm).oneToOne.1).1
  have g : findL (eraseL c old) new = if new == old then none else findL c new := by
    split
    · rename_i hno
      rw [findL, List.find?_eq_none]
      intro q hq
      rw [hasL_congr hno]
      simp [(mem_eraseL.1 hq).2]
    · rename_i hno
      simp only [findL, eraseL, List.find?_filter]
      congr 1; funext q
      cases hn : hasL new q with
      | false => simp
      | true =>
        cases hq : hasL old q with
        | false => rfl
        | true =>
          rcases hasL_cases hn with ⟨a, rfl, h1⟩ | ⟨a, b, rfl, h1⟩ <;>
            exact absurd (BEq.trans h1 (BEq.symm (by simpa [hasL] using hq))) hno
  have g' : eraseL (eraseL c old) new = c.filter fun e => !hasL old e && !hasL new e := by
    simp [eraseL, List.filter_filter, Bool.and_comm]
  have gx : ofPair (some new, x.getRight) = setLeft new x := by
    rcases hasL_cases hx with ⟨a, rfl, h1⟩ | ⟨a, b, rfl, h1⟩ <;> rfl
  have gl : x.getLeft = leftOf x := by cases x <;> rfl
  have gi : insertAll (eraseL (eraseL c old) new) [setLeft new x] = setLeft new x :: eraseL (eraseL c old) new := by
    simp only [insertAll, List.foldl_cons, List.foldl_nil]
    rcases hasL_cases hx with ⟨a, rfl, h1⟩ | ⟨a, b, rfl, h1⟩
    · simp only [setLeft, insertEntry, PartialSpec.insertLeft]
      rw [eraseL_none fun q hq => (mem_eraseL.1 hq).2]
    · simp only [setLeft, insertEntry, PartialSpec.insert, others]
      rw [List.filter_eq_self.2]
      intro q hq
      simp [(mem_eraseL.1 hq).2, (hd q (mem_eraseL.1 hq).1).2 b rfl]
  rw [hf] at e₁
  rw [g] at e₂
  rw [gx, gi, g'] at h₃
  simp only [PartialSpec.swapLeft, hf, ← gl] at e h'
  exact ⟨x, _, m', m₁, m₂, m₃, _, e, e₁, e₂, e₃, h'.shows, h₃.shows⟩

/-- C149, `swap_right` -/
theorem C149_swapRight (h : Reachable m) (hc : Shows m c) (old new : R) (ho : m.containsRight old = true) :
    ∃ x q m' m₁ m₂ m₃ c', m.swapRight old new = .ok (ofPair (x.getRight, q), m') ∧
    m.removeViaRight old = .ok (x, m₁) ∧ m₁.removeViaRight new = .ok (q.getD neither, m₂) ∧
    m₂.extend [ofPair (x.getLeft, some new)] = .ok m₃ ∧ Shows m' c' ∧ Shows m₃ c' := by
  have h := h.repr_of_shows hc
  have ho : (findR c old).isSome = true := by rw [hc.containsRight] at ho; simpa [findR] using ho
  obtain ⟨x, hf⟩ := Option.isSome_iff_exists.1 ho
  have hx : hasR old x = true := List.find?_some hf
  obtain ⟨m', e, h', -⟩ := swapRight_refines h old new
  obtain ⟨m₁, e₁, h₁, -⟩ := removeViaRight_refines h old
  obtain ⟨m₂, e₂, h₂, -⟩ := removeViaRight_refines h₁ new
  obtain ⟨m₃, e₃, h₃, -⟩ := extend_refines h₂ [ofPair (x.getLeft, some new)]
  have hp := find_eraseR_perm h.oneToOne old
  rw [hf] at hp
  have hd : ∀ q ∈ eraseR c old, Disj x q := (List.pairwise_cons.1 (h.perm hp.symm).oneToOne.1).1
  have g : findR (eraseR c old) new = if new == old then none else findR c new := by
    split
    · rename_i hno
      rw [findR, List.find?_eq_none]
      intro q hq
      rw [hasR_congr hno]
      simp [(mem_eraseR.1 hq).2]
    · rename_i hno
      simp only [findR, eraseR, List.find?_filter]
      congr 1; funext q
      cases hn : hasR new q with
      | false => simp
      | true =>
        cases hq : hasR old q with
        | false => rfl
        | true =>
          rcases hasR_cases hn with ⟨a, rfl, h1⟩ | ⟨a, b, rfl, h1⟩ <;>
            exact absurd (BEq.trans h1 (BEq.symm (by simpa [hasR] using hq))) hno
  have g' : eraseR (eraseR c old) new = c.filter fun e => !hasR old e && !hasR new e := by
    simp [eraseR, List.filter_filter, Bool.and_comm]
  have gx : ofPair (x.getLeft, some new) = setRight new x := by
    rcases hasR_cases hx with ⟨a, rfl, h1⟩ | ⟨a, b, rfl, h1⟩ <;> rfl
  have gl : x.getRight = rightOf x := by cases x <;> rfl
  have gi : insertAll (eraseR (eraseR c old) new) [setRight new x] = setRight new x :: eraseR (eraseR c old) new := by
    simp only [insertAll, List.foldl_cons, List.foldl_nil]
    rcases hasR_cases hx with ⟨b, rfl, h1⟩ | ⟨a, b, rfl, h1⟩
    · simp only [setRight, insertEntry, PartialSpec.insertRight]
      rw [eraseR_none fun q hq => (mem_eraseR.1 hq).2]
    · simp only [setRight, insertEntry, PartialSpec.insert, others]
      rw [List.filter_eq_self.2]
      intro q hq
      simp [(mem_eraseR.1 hq).2, (hd q (mem_eraseR.1 hq).1).1 a rfl]
  rw [hf] at e₁
  rw [g] at e₂
  rw [gx, gi, g'] at h₃
  simp only [PartialSpec.swapRight, hf, ← gl] at e h'
  exact ⟨x, _, m', m₁, m₂, m₃, _, e, e₁, e₂, e₃, h'.shows, h₃.shows⟩

/-- C149, `extend` by two sequences one after the other is `extend` by their concatenation: the very same map. -/
theorem C149_extend (m : PartialMap L R) (xs ys : List (OptionalPair L R)) :
    m.extend (xs ++ ys) = (m.extend xs).bind fun m' => m'.extend ys := by
  induction xs generalizing m with
  | nil => rfl
  | cons x xs ih =>
    cases x with
    | neither => exact ih m
    | someLeft l =>
      simp only [List.cons_append, extend, bind, Except.bind]
      cases m.insertLeft l with
      | error _ => rfl
      | ok v => exact ih v.2
    | someRight r =>
      simp only [List.cons_append, extend, bind, Except.bind]
      cases m.insertRight r with
      | error _ => rfl
      | ok v => exact ih v.2
    | someBoth l r =>
      simp only [List.cons_append, extend, bind, Except.bind]
      cases m.insert l r with
      | error _ => rfl
      | ok v => exact ih v.2

/-- C149, `Extend<(L, R)>` is `Extend<OptionalPair<L, R>>` on the pairs: the very same map. -/
theorem C149_extendPairs (m : PartialMap L R) (xs : List (L × R)) :
    m.extendPairs xs = m.extend (xs.map fun p => someBoth p.1 p.2) := by
  induction xs generalizing m with
  | nil => rfl
  | cons x xs ih =>
    simp only [List.map_cons, extend, extendPairs, bind, Except.bind]
    cases m.insert x.1 x.2 with
    | error _ => rfl
    | ok v => exact ih v.2

/-- a closure without state -/
def always {α : Type} (p : α → Bool) : Unit → α → Bool × Unit := fun s x => (p x, s)

theorem pairs_kept (p : OptionalPair L R → Bool) (c : List (OptionalPair L R)) :
    (((c.filterMap pairOf).filter fun a => !p (someBoth a.1 a.2)).map fun q => someBoth q.1 q.2) = c.filter fun e => isPair e && !p e := by
  induction c with
  | nil => rfl
  | cons e c ih =>
    cases e with
    | someBoth l r =>
      have k : isPair (someBoth l r) = true := rfl
      simp only [List.filterMap_cons, pairOf, List.filter_cons, k, Bool.true_and]
      cases p (someBoth l r) <;> simp [← ih]
    | _ => exact ih

/-- C149, `retain` is `retain_paired` on the pairs and `retain_unpaired` on the lone left items (the lone right items are out of its reach, C50). -/
theorem C149_retain (h : Reachable m) (hc : Shows m c) (p : OptionalPair L R → Bool) : ∃ m' m₁ m₂ c',
    m.retain (always p) () = .ok ((), m') ∧ m.retainPaired (fun s l r => (p (someBoth l r), s)) () = .ok ((), m₁) ∧
    m₁.retainUnpaired (always fun e => e.getLeft.isSome && p e) () = .ok ((), m₂) ∧ Shows m' c' ∧ Shows m₂ c' := by
  have h := h.repr_of_shows hc
  obtain ⟨d, us, m', hp, hd, hu, e, h', -⟩ := retain_refines h (always p) ()
  obtain ⟨d₁, m₁, hp₁, e₁, h₁, -⟩ := retainPaired_refines h (fun s l r => (p (someBoth l r), s)) ()
  obtain ⟨d₂, m₂, hp₂, e₂, h₂, -⟩ := retainUnpaired_refines h₁ (always fun e => e.getLeft.isSome && p e) ()
  have gl : ∀ e : OptionalPair L R, e.getLeft = leftOf e := fun e => by cases e <;> rfl
  rw [(CycleSpec.split_pure (g := p) (fun _ _ => rfl) d ()).2] at h'
  rw [(CycleSpec.split_pure (g := fun x : L × R => p (someBoth x.1 x.2)) (fun _ _ => rfl) d₁ ()).2] at hp₂ h₂
  rw [(CycleSpec.split_pure (g := fun e : OptionalPair L R => e.getLeft.isSome && p e) (fun _ _ => rfl) d₂ ()).2] at h₂
  generalize hX : (d₁.filter fun a => !p (someBoth a.1 a.2)).map (fun q => someBoth q.1 q.2) = X at *
  have x1 : ∀ e ∈ X, isPair e = true := by
    rw [← hX]; intro e he; obtain ⟨q, -, rfl⟩ := List.mem_map.1 he; rfl
  have x2 : X.Perm (c.filter fun e => isPair e && !p e) := by
    rw [← hX]
    exact ((hp₁.filter _).map _).trans (.of_eq (pairs_kept p c))
  have y1 : d₂.Perm (c.filter fun e => !isPair e) := by
    refine hp₂.trans (.of_eq ?_)
    rw [List.filter_append, List.filter_eq_nil_iff.2 (fun e he => by simp [x1 e he]), List.nil_append, List.filter_filter]
    simp
  have y2 : (X ++ c.filter fun e => !isPair e).filter isPair = X := by
    rw [List.filter_append, List.filter_eq_self.2 x1, List.filter_eq_nil_iff.2 (fun e he => by simpa using (List.mem_filter.1 he).2), List.append_nil]
  rw [y2] at h₂
  have z : ∀ e ∈ c, (isPair e = true → (leftOf e).isSome = true) := fun e _ => by cases e <;> simp [isPair, leftOf]
  refine ⟨m', m₁, m₂, c.filter fun e => !((leftOf e).isSome && p e), e, e₁, e₂, (h'.perm ?_).shows, (h₂.perm ?_).shows⟩
  · refine .trans ?_ (hp.filter _)
    rw [List.filter_append]
    refine .append (.of_eq (List.filter_congr fun e he => by simp [hd e he])) (.of_eq (List.filter_eq_self.2 fun e he => by simp [hu e he]).symm)
  · refine .trans (.append (y1.filter _) x2) (.trans ?_ (List.filter_append_perm (fun e => !isPair e) _))
    rw [List.filter_filter, List.filter_filter, List.filter_filter]
    refine .append (.of_eq (List.filter_congr fun e he => ?_)) (.of_eq (List.filter_congr fun e he => ?_))
    · rw [gl]; cases isPair e <;> simp
    · cases hi : isPair e
      · simp
      · simp [z e he hi]

/-! The hypotheses on the demo map (two pairs, a lone left item, a lone right item). -/

/-- `insert 1 20` pushes out two pairs -/
example : ∃ x y m' m₁ m₂ m₃ c', demo.insert 1 20 = .ok ((x, y), m') ∧ demo.insertLeft 1 = .ok (x, m₁) ∧
    m₁.insertRight 20 = .ok (y, m₂) ∧ m₂.pair 1 20 = (true, m₃) ∧ Shows m' c' ∧ Shows m₃ c' :=
  C149_insert demo_reachable demo_shows 1 20

/-- 1 has a partner, 3 has none -/
example : demo.getRight 1 = some 10 ∧ demo.getRight 3 = none ∧ demo.getLeft 30 = none := by
  rw [demo_shows.getRight, demo_shows.getRight, demo_shows.getLeft]; exact ⟨rfl, rfl, rfl⟩

/-- both items of `pair_forced(1, 20)` have another partner -/
example : ∃ m' m₁ c', demo.pairForced 1 20 = .ok (ofPair (demo.getLeft 20, demo.getRight 1), m') ∧
    ((demo.partLeft 1).partRight 20).pair 1 20 = (true, m₁) ∧ Shows m' c' ∧ Shows m₁ c' :=
  C149_pairForced demo_reachable demo_shows 1 20 (by rw [demo_shows.containsLeft]; rfl) (by rw [demo_shows.containsRight]; rfl)
    (by rw [demo_shows.arePaired]; rfl)

example : ∃ o m' m₁ m₂ m₃ c', demo.pairForcedRemove 1 20 = .ok (o, m') ∧ demo.pairForced 1 20 = .ok (o, m₁) ∧
    m₁.dropLeft o.getLeft = .ok m₂ ∧ m₂.dropRight o.getRight = .ok m₃ ∧ Shows m' c' ∧ Shows m₃ c' :=
  C149_pairForcedRemove demo_reachable demo_shows 1 20

example : ∃ a b m' m₁ m₂ m₃ c', demo.remove 2 20 = .ok (some (a, b), m') ∧ demo.unpair 2 20 = (true, m₁) ∧
    m₁.removeLeft 2 = .ok (some a, m₂) ∧ m₂.removeRight 20 = .ok (some b, m₃) ∧ Shows m' c' ∧ Shows m₃ c' :=
  C149_remove demo_reachable demo_shows 2 20 (by rw [demo_shows.arePaired]; rfl)

/-- `swap_left(1, 3)` pushes out the lone 3 -/
example : ∃ x q m' m₁ m₂ m₃ c', demo.swapLeft 1 3 = .ok (ofPair (x.getLeft, q), m') ∧ demo.removeViaLeft 1 = .ok (x, m₁) ∧
    m₁.removeViaLeft 3 = .ok (q.getD neither, m₂) ∧ m₂.extend [ofPair (some 3, x.getRight)] = .ok m₃ ∧ Shows m' c' ∧ Shows m₃ c' :=
  C149_swapLeft demo_reachable demo_shows 1 3 (by rw [demo_shows.containsLeft]; rfl)

example : ∃ x q m' m₁ m₂ m₃ c', demo.swapRight 30 10 = .ok (ofPair (x.getRight, q), m') ∧ demo.removeViaRight 30 = .ok (x, m₁) ∧
    m₁.removeViaRight 10 = .ok (q.getD neither, m₂) ∧ m₂.extend [ofPair (x.getLeft, some 10)] = .ok m₃ ∧ Shows m' c' ∧ Shows m₃ c' :=
  C149_swapRight demo_reachable demo_shows 30 10 (by rw [demo_shows.containsRight]; rfl)

end Verif.PartialMap

namespace Verif.GroupMap
open GroupSpec Demo

variable [RawImpl] [LawfulRaw] {L R : Type} [BEq L] [BEq R] [EquivBEq L] [EquivBEq R]
variable {m : GroupMap L R} {c d : Contents L R}

/-- `insert_right`, unless the item is there already -/
def ensureRight (m : GroupMap L R) (r : R) : Res (GroupMap L R) :=
  if m.containsRight r then .ok m else (m.insertRight r).map (·.2)

/-- `remove_left` of one item after the other -/
def dropLefts (m : GroupMap L R) : List L → Res (GroupMap L R)
  | [] => .ok m
  | l :: ls => (m.removeLeft l).bind fun v => v.2.dropLefts ls

theorem eraseR_absent (h : c.Sound) {r : R} (hr : findR c r = none) : eraseR c r = c := by
  have h1 : ∀ b ∈ c.rights, (r == b) = false := fun b hb => by simpa using List.find?_eq_none.1 hr b hb
  simp only [eraseR]
  rw [List.filter_eq_self.2 fun b hb => by simp [h1 b hb], List.filter_eq_self.2 fun p hp => by simp [h1 _ (h.owned p hp)]]

/-- C149, `insert` of a pair that is not there: the right item is brought in by `insert_right` unless it is there, and the
left item comes by `pair` if it is there and by `insert_left` if not. -/
theorem C149_insert (h : Reachable m) (hc : Shows m c) (l : L) (r : R) (hn : m.arePaired l r = false) : ∃ m' m₀ c',
    m.insert l r = .ok m' ∧ m.ensureRight r = .ok m₀ ∧ Shows m' c' ∧
    (m.containsLeft l = true → ∃ m₁, m₀.pair l r = .ok (true, m₁) ∧ Shows m₁ c') ∧
    (m.containsLeft l = false → ∃ m₁, m₀.insertLeft l r = .ok (none, m₁) ∧ Shows m₁ c') := by
  have h := h.repr_of_shows hc
  rw [hc.arePaired] at hn
  obtain ⟨m', e, h', -⟩ := insert_refines h l r hn
  obtain ⟨m₀, b, e₀, h₀, hb⟩ : ∃ m₀ b, m.ensureRight r = .ok m₀ ∧ Repr m₀ ⟨(GroupSpec.insert c l r).rights, c.pairs⟩ ∧
      findR (⟨(GroupSpec.insert c l r).rights, c.pairs⟩ : Contents L R) r = some b ∧ (findR c r).getD r = b := by
    rw [ensureRight, hc.containsRight]
    cases hf : findR c r with
    | some b =>
      have : c.rights.any (r == ·) = true := by
        have := Option.isSome_iff_exists.2 ⟨b, hf⟩
        simpa [findR] using this
      exact ⟨m, b, by simp [this], by simpa [GroupSpec.insert, hf] using h, by simp only [GroupSpec.insert, hf], rfl⟩
    | none =>
      have : c.rights.any (r == ·) = false := by
        rw [List.any_eq_false]; exact List.find?_eq_none.1 hf
      obtain ⟨o, m₀, e₀, -, h₀, -⟩ := insertRight_refines h r
      refine ⟨m₀, r, by simp [this, e₀, Except.map], ?_, by simp only [GroupSpec.insert, hf]; simp [findR], rfl⟩
      simpa [GroupSpec.insertRight, eraseR_absent h.sound hf, GroupSpec.insert, hf] using h₀
  obtain ⟨hb, hg⟩ := hb
  refine ⟨m', m₀, _, e, e₀, h'.shows, fun hl => ?_, fun hl => ?_⟩
  · obtain ⟨m₁, e₁, h₁, -⟩ := pair_refines h₀ l r
    have hl : (findL c l).isSome = true := by rw [hc.containsLeft] at hl; simpa [findL] using hl
    obtain ⟨p, hp⟩ := Option.isSome_iff_exists.1 hl
    have hp' : findL (⟨(GroupSpec.insert c l r).rights, c.pairs⟩ : Contents L R) l = some p := hp
    simp only [GroupSpec.pair, hp', hb] at e₁ h₁
    refine ⟨m₁, e₁, (h₁.same (d := GroupSpec.insert c l r) ⟨.refl _, .of_eq ?_⟩).shows⟩
    simp only [GroupSpec.insert, hp, hg]; rfl
  · obtain ⟨m₁, e₁, h₁, -⟩ := insertLeft_refines h₀ l r
    have hp : findL c l = none := by
      rw [hc.containsLeft] at hl
      rw [findL, List.find?_eq_none]; exact List.any_eq_false.1 hl
    have hp' : findL (⟨(GroupSpec.insert c l r).rights, c.pairs⟩ : Contents L R) l = none := hp
    simp only [GroupSpec.insertLeft, hp', hb] at e₁ h₁
    refine ⟨m₁, e₁, (h₁.same (d := GroupSpec.insert c l r) ⟨.refl _, .of_eq ?_⟩).shows⟩
    simp only [GroupSpec.insert, hp, hg]; rfl

/-- C149, `pair` of two items that are there is `remove_left` and then `insert_left` of what it returned. -/
theorem C149_pair (h : Reachable m) (hc : Shows m c) (l : L) (r : R) (hl : m.containsLeft l = true) (hr : m.containsRight r = true) :
    ∃ a m' m₁ m₂ c', m.pair l r = .ok (true, m') ∧ m.removeLeft l = .ok (some a, m₁) ∧ m₁.insertLeft a r = .ok (none, m₂) ∧
    Shows m' c' ∧ Shows m₂ c' := by
  have h := h.repr_of_shows hc
  have hl : (findL c l).isSome = true := by rw [hc.containsLeft] at hl; simpa [findL] using hl
  have hr : (findR c r).isSome = true := by rw [hc.containsRight] at hr; simpa [findR] using hr
  obtain ⟨p, hp⟩ := Option.isSome_iff_exists.1 hl
  obtain ⟨b, hb⟩ := Option.isSome_iff_exists.1 hr
  have hlp : (l == p.1) = true := List.find?_some (p := fun q : L × R => l == q.1) hp
  obtain ⟨m', e, h', -⟩ := pair_refines h l r
  obtain ⟨m₁, e₁, h₁, -⟩ := removeLeft_refines h l
  obtain ⟨m₂, e₂, h₂, -⟩ := insertLeft_refines h₁ p.1 r
  have k : ∀ q ∈ (eraseL c l).pairs, (p.1 == q.1) = false := fun q hq => by
    rw [← BEq.congr_left hlp]; simpa using (List.mem_filter.1 hq).2
  have g1 : findL (eraseL c l) p.1 = none := by rw [findL, List.find?_eq_none]; intro q hq; simp [k q hq]
  have g2 : findR (eraseL c l) r = some b := hb
  have g3 : eraseL (eraseL c l) p.1 = eraseL c l := by
    rw [eraseL, List.filter_eq_self.2 fun q hq => by simp [k q hq]]
  rw [hp] at e₁
  simp only [GroupSpec.pair, hp, hb] at e h'
  simp only [GroupSpec.insertLeft, g1, g2, g3] at e₂ h₂
  exact ⟨p.1, m', m₁, m₂, _, e, e₁, e₂, h'.shows, h₂.shows⟩

/-- C149, `insert_right` is `remove_right` and the insertion of an item that is not there; it returns what the former returns. -/
theorem C149_insertRight (h : Reachable m) (hc : Shows m c) (r : R) : ∃ o m' m₁ m₂ c',
    m.insertRight r = .ok (o, m') ∧ m.removeRight r = .ok (o, m₁) ∧ m₁.insertRight r = .ok (none, m₂) ∧ Shows m' c' ∧ Shows m₂ c' := by
  have h := h.repr_of_shows hc
  obtain ⟨o, m', e, -, h', -⟩ := insertRight_refines h r
  obtain ⟨o₁, m₁, e₁, -, h₁, -⟩ := removeRight_refines h r
  obtain ⟨o₂, m₂, e₂, s₂, h₂, -⟩ := insertRight_refines h₁ r
  have ho : o = o₁ := by
    simp only [insertRight, e₁, bind, Except.bind, pure, Except.pure] at e
    injection e with e; injection e with e _; exact e.symm
  have hf : findR (eraseR c r) r = none := by
    rw [findR, List.find?_eq_none]; intro q hq; simpa using (List.mem_filter.1 hq).2
  have hs : (eraseR c r).Sound := h₁.sound
  simp only [GroupSpec.insertRight, entryR, hf, eraseR_absent hs hf] at s₂ h₂
  have : o₂ = none := by cases o₂ with | none => rfl | some _ => exact s₂.elim
  subst this ho
  exact ⟨o, m', m₁, m₂, _, e, e₁, e₂, h'.shows, h₂.shows⟩

/-- C149, `insert_remove` is `remove_left`, `remove_right`, `insert_right` and `insert_left`; it returns what the removals return. -/
theorem C149_insertRemove (h : Reachable m) (hc : Shows m c) (l : L) (r : R) : ∃ o₁ o₂ m' m₁ m₂ m₃ m₄ c',
    m.insertRemove l r = .ok ((o₁, o₂), m') ∧ m.removeLeft l = .ok (o₁, m₁) ∧ m₁.removeRight r = .ok (o₂, m₂) ∧
    m₂.insertRight r = .ok (none, m₃) ∧ m₃.insertLeft l r = .ok (none, m₄) ∧ Shows m' c' ∧ Shows m₄ c' := by
  have h := h.repr_of_shows hc
  obtain ⟨o, m', e, -, h', -⟩ := insertRemove_refines h l r
  obtain ⟨m₁, e₁, h₁, -⟩ := removeLeft_refines h l
  obtain ⟨o₂, m₂, e₂, -, h₂, -⟩ := removeRight_refines h₁ r
  obtain ⟨o₃, m₃, e₃, s₃, h₃, -⟩ := insertRight_refines h₂ r
  have ho : o = o₂ := by
    simp only [insertRemove, e₁, e₂, bind, Except.bind, pure, Except.pure] at e
    injection e with e; injection e with e _; injection e with _ e; exact e.symm
  have hf : findR (eraseR (eraseL c l) r) r = none := by
    rw [findR, List.find?_eq_none]; intro q hq; simpa using (List.mem_filter.1 hq).2
  simp only [GroupSpec.insertRight, entryR, hf, eraseR_absent h₂.sound hf] at s₃ h₃
  have : o₃ = none := by cases o₃ with | none => rfl | some _ => exact s₃.elim
  subst this ho
  obtain ⟨m₄, e₄, h₄, -⟩ := insertLeft_refines h₃ l r
  have k : ∀ q ∈ (eraseR (eraseL c l) r).pairs, (l == q.1) = false := fun q hq => by
    simpa using (List.mem_filter.1 (List.mem_filter.1 hq).1).2
  have g1 : findL (⟨r :: (eraseR (eraseL c l) r).rights, (eraseR (eraseL c l) r).pairs⟩ : Contents L R) l = none := by
    rw [findL, List.find?_eq_none]; intro q hq; simp [k q hq]
  have g2 : findR (⟨r :: (eraseR (eraseL c l) r).rights, (eraseR (eraseL c l) r).pairs⟩ : Contents L R) r = some r := by simp [findR]
  have g3 : eraseL (⟨r :: (eraseR (eraseL c l) r).rights, (eraseR (eraseL c l) r).pairs⟩ : Contents L R) l =
      ⟨r :: (eraseR (eraseL c l) r).rights, (eraseR (eraseL c l) r).pairs⟩ := by
    rw [eraseL, List.filter_eq_self.2 fun q hq => by simp [k q hq]]
  simp only [GroupSpec.insertLeft, g1, g2, g3] at e₄ h₄
  exact ⟨_, o, m', m₁, m₂, m₃, m₄, _, e, e₁, e₂, e₃, e₄, h'.shows, h₄.shows⟩

theorem dropLefts_refines (h : Repr m c) (ls : List L) :
    ∃ m', m.dropLefts ls = .ok m' ∧ Repr m' ⟨c.rights, c.pairs.filter fun p => !ls.any (· == p.1)⟩ := by
  induction ls generalizing m c with
  | nil =>
    refine ⟨m, rfl, h.same ⟨.refl _, .of_eq (List.filter_eq_self.2 fun _ _ => rfl).symm⟩⟩
  | cons l ls ih =>
    obtain ⟨m₁, e₁, h₁, -⟩ := removeLeft_refines h l
    obtain ⟨m₂, e₂, h₂⟩ := ih h₁
    refine ⟨m₂, by simp only [dropLefts, e₁, Except.bind, e₂], h₂.same ⟨.refl _, .of_eq ?_⟩⟩
    simp only [eraseL, List.filter_filter, List.any_cons, Bool.not_or, Bool.and_comm]

/-- C149, `remove_right` is `remove_left` of the left items it returns, in that order, and the removal of what is then a lone
right item. -/
theorem C149_removeRight (h : Reachable m) (hc : Shows m c) (r : R) (hr : m.containsRight r = true) : ∃ ls b m' m₁ m₂ c',
    m.removeRight r = .ok (some (ls, b), m') ∧ m.dropLefts ls = .ok m₁ ∧ m₁.removeRight r = .ok (some ([], b), m₂) ∧
    Shows m' c' ∧ Shows m₂ c' := by
  have h := h.repr_of_shows hc
  have hr : (findR c r).isSome = true := by rw [hc.containsRight] at hr; simpa [findR] using hr
  obtain ⟨b, hb⟩ := Option.isSome_iff_exists.1 hr
  obtain ⟨o, m', e, s, h', -⟩ := removeRight_refines h r
  simp only [entryR, hb, Option.map_some] at s
  obtain ⟨ls, b', rfl⟩ : ∃ ls b', o = some (ls, b') := by cases o with | none => exact s.elim | some x => exact ⟨x.1, x.2, rfl⟩
  obtain ⟨s1, s2⟩ := s
  simp only at s1 s2
  subst s2
  obtain ⟨m₁, e₁, h₁⟩ := dropLefts_refines h ls
  obtain ⟨o₂, m₂, e₂, t, h₂, -⟩ := removeRight_refines h₁ r
  have k : (c.pairs.filter fun p => !ls.any (· == p.1)) = c.pairs.filter fun p => !(r == p.2) := by
    refine List.filter_congr fun p hp => ?_
    congr 1
    cases hrp : r == p.2 with
    | true =>
      rw [List.any_eq_true]
      exact ⟨p.1, s1.symm.subset (List.mem_map.2 ⟨p, List.mem_filter.2 ⟨hp, hrp⟩, rfl⟩), BEq.rfl⟩
    | false =>
      rw [List.any_eq_false]
      intro l hl hlp
      obtain ⟨q, hq, rfl⟩ := List.mem_map.1 (s1.subset hl)
      obtain ⟨hq1, hq2⟩ := List.mem_filter.1 hq
      have : q = p := unique_of_apart h.sound.lefts hq1 hp BEq.rfl hlp
      subst this
      rw [hrp] at hq2; cases hq2
  rw [k] at h₂ t
  have g : group (⟨c.rights, c.pairs.filter fun p => !(r == p.2)⟩ : Contents L R) r = [] := by
    rw [group, List.map_eq_nil_iff, List.filter_eq_nil_iff]
    intro q hq; simpa using (List.mem_filter.1 hq).2
  have g' : findR (⟨c.rights, c.pairs.filter fun p => !(r == p.2)⟩ : Contents L R) r = some b' := hb
  simp only [entryR, g, g', Option.map_some] at t
  obtain ⟨ls', b', rfl⟩ : ∃ ls b', o₂ = some (ls, b') := by cases o₂ with | none => exact t.elim | some x => exact ⟨x.1, x.2, rfl⟩
  obtain ⟨t1, t2⟩ := t
  simp only at t1 t2
  have t1 := t1.eq_nil
  subst t1 t2
  refine ⟨ls, _, m', m₁, m₂, _, e, e₁, e₂, h'.shows, (h₂.same (d := eraseR c r) ⟨.refl _, .of_eq ?_⟩).shows⟩
  simp only [eraseR, List.filter_filter, Bool.and_self]

/-- C149, `Extend<(Option<L>, R)>` by two sequences one after the other is `extend` by their concatenation: the very same map. -/
theorem C149_extendOpt (m : GroupMap L R) (xs ys : List (Option L × R)) :
    m.extendOpt (xs ++ ys) = (m.extendOpt xs).bind fun m' => m'.extendOpt ys := by
  induction xs generalizing m with
  | nil => rfl
  | cons x xs ih =>
    obtain ⟨l, r⟩ := x
    cases l with
    | none =>
      simp only [List.cons_append, extendOpt, bind, Except.bind]
      cases m.insertRight r with
      | error _ => rfl
      | ok v => exact ih v.2
    | some l =>
      simp only [List.cons_append, extendOpt, bind, Except.bind]
      cases m.insert l r with
      | error _ => rfl
      | ok v => exact ih v

/-- C149, `Extend<(L, R)>` is `Extend<(Option<L>, R)>` on the pairs: the very same map. -/
theorem C149_extend (m : GroupMap L R) (xs : List (L × R)) : m.extend xs = m.extendOpt (xs.map fun p => (some p.1, p.2)) := by
  induction xs generalizing m with
  | nil => rfl
  | cons x xs ih =>
    simp only [List.map_cons, extend, extendOpt, bind, Except.bind]
    cases m.insert x.1 x.2 with
    | error _ => rfl
    | ok v => exact ih v

/-! The hypotheses on the demo map (a group of two, a group of one, a lone right item). -/

/-- 1 moves from 10 to 20; 7 is new -/
example : demo.arePaired 1 20 = false ∧ demo.containsLeft 1 = true ∧ demo.arePaired 7 70 = false ∧ demo.containsLeft 7 = false := by
  rw [demo_shows.arePaired, demo_shows.arePaired, demo_shows.containsLeft, demo_shows.containsLeft]; decide

example : ∃ a m' m₁ m₂ c', demo.pair 1 30 = .ok (true, m') ∧ demo.removeLeft 1 = .ok (some a, m₁) ∧ m₁.insertLeft a 30 = .ok (none, m₂) ∧
    Shows m' c' ∧ Shows m₂ c' :=
  C149_pair demo_reachable demo_shows 1 30 (by rw [demo_shows.containsLeft]; rfl) (by rw [demo_shows.containsRight]; rfl)

/-- 10 has two left items -/
example : ∃ ls b m' m₁ m₂ c', demo.removeRight 10 = .ok (some (ls, b), m') ∧ demo.dropLefts ls = .ok m₁ ∧
    m₁.removeRight 10 = .ok (some ([], b), m₂) ∧ Shows m' c' ∧ Shows m₂ c' :=
  C149_removeRight demo_reachable demo_shows 10 (by rw [demo_shows.containsRight]; rfl)

example : ∃ o₁ o₂ m' m₁ m₂ m₃ m₄ c', demo.insertRemove 3 10 = .ok ((o₁, o₂), m') ∧ demo.removeLeft 3 = .ok (o₁, m₁) ∧
    m₁.removeRight 10 = .ok (o₂, m₂) ∧ m₂.insertRight 10 = .ok (none, m₃) ∧ m₃.insertLeft 3 10 = .ok (none, m₄) ∧ Shows m' c' ∧
    Shows m₄ c' :=
  C149_insertRemove demo_reachable demo_shows 3 10

end Verif.GroupMap
