import Verif.DropEnd
import Verif.Props.Drops
/-! Properties C131 and C132: destructors that panic while the iterator of `drain` is used and dropped, in `GroupMap::retain_paired`, and
while a whole map is dropped. -/
set_option linter.unusedSectionVars false
set_option linter.unusedSimpArgs false
namespace Verif

/-- an injective image can be taken apart like the list -/
theorem split_image {α β : Type} {g : α → β} {xs : List α} {as bs : List β} (h : xs.map g = as ++ bs) :
    ∃ us vs, xs = us ++ vs ∧ us.map g = as ∧ vs.map g = bs := List.map_eq_append_iff.1 h

theorem sort_dropped {L R τ : Type} (d : τ → L ⊕ R → Bool × τ) {ls : List L} {rs : List R} {x : List (L ⊕ R)} {y : List (L ⊕ R)}
    (hx : x = ls.map .inl) (hy : y = rs.map .inr) (t : τ) :
    ∃ (lefts lostL : List L) (rights lostR : List R), lefts ++ lostL = ls ∧ rights ++ lostR = rs ∧
      dropTwo d x y t = (endingOf (dropAll d (lefts.map .inl ++ rights.map .inr) t).1, (dropAll d (lefts.map .inl ++ rights.map .inr) t).2) ∧
      ((dropTwo d x y t).1 = .returned → lostL = [] ∧ lostR = []) ∧ ((dropTwo d x y t).1 = .panicked → lostL = [] ∨ lostR = []) := by
  obtain ⟨g1, l1, g2, l2, h1, h2, h3, h4, h5⟩ := dropTwo_spec d x y t
  obtain ⟨u1, v1, rfl, rfl, rfl⟩ := split_image (hx.symm.trans h1)
  obtain ⟨u2, v2, rfl, rfl, rfl⟩ := split_image (hy.symm.trans h2)
  exact ⟨u1, v1, u2, v2, rfl, rfl, h3, by simpa using h4, by simpa using h5⟩

/-- a destructor that only keeps a record -/
def record {α : Type} (t : List α) (a : α) : Bool × List α := (false, t ++ [a])

theorem dropAll_record {α : Type} (as t : List α) : dropAll record as t = (0, t ++ as) := by
  induction as generalizing t with
  | nil => simp [dropAll]
  | cons a as ih => simp [dropAll, record, ih]

end Verif

namespace Verif.CycleMap
open CycleSpec Demo

variable [RawImpl] [LawfulRaw] {L R τ : Type} [BEq L] [BEq R] [EquivBEq L] [EquivBEq R]
variable {m : CycleMap L R} {c : List (L × R)}

/-! ### C131 -/

/-- C131, for `CycleMap`: `drain()`, at most `n` calls of `next`, then the drop of the iterator.  There is an order `ps` of the pairs such that the first `n` are
yielded and the left items of the others are dropped one after the other until a destructor panics (`dropUntil`).  Whether
one panics or not, the map has no left item afterwards, and it has the right items of the pairs that were not yielded, without a partner (as without
panics, C21): nothing can be done with them.  If all pairs were yielded, nothing is dropped and the map is empty. -/
theorem C131_drain (h : Reachable m) (hc : Shows m c) (d : τ → L ⊕ R → Bool × τ) (n : Nat) (t : τ) :
    ∃ (ps : List (L × R)) (panics : Bool) (t' : τ) (m' : CycleMap L R), ps.Perm c ∧
      dropUntil d ((ps.drop n).map fun p => .inl p.1) t = (panics, t') ∧
      m.drainD d n t = .ok (if panics then .panicked else .returned, ps.take n, t', m') ∧
      m'.len = 0 ∧ m'.iterLeft = [] ∧ (∀ l, m'.containsLeft l = false) ∧ m'.iterRight.Perm ((ps.drop n).map (·.2)) ∧
      (∀ p ∈ ps.drop n, m'.containsRight p.2 = true ∧ m'.getLeft p.2 = none ∧
        m'.removeViaRight p.2 = .error .unwrapNone ∧ ∀ l, m'.insert l p.2 = .error .unwrapNone) ∧
      (c.length ≤ n → panics = false ∧ t' = t ∧ UsableAs m' []) := by
  obtain ⟨ps, m', hp, e, h1, h2, h3, rs, h4, h5, h6⟩ := drainD_refines (h.repr_of_shows hc) d n t
  rw [← h1] at h5
  obtain ⟨o1, o2, o3, o4, o5⟩ := orphans h3 h5 h6
  rw [h4] at o4 o5
  refine ⟨ps, _, _, m', hp, rfl, e, o1, o2, o3, o4, o5, fun hn => ?_⟩
  have hd : ps.drop n = [] := List.drop_of_length_le (by rw [hp.length_eq]; exact hn)
  rw [hd] at h4 ⊢
  have hr : rs = [] := by simpa using h4
  subst hr
  refine ⟨rfl, rfl, Repr.usable ⟨[], ?_, .refl _⟩⟩
  exact ⟨by rw [h3]; exact .refl _, h5, .nil, by simp⟩

/-- three pairs, of which one is asked for; the first destructor panics: one left item was dropped, another one is leaked, and two
right items are left in the map -/
example : ∃ (ps : List (Nat × Nat)) (m' : CycleMap Nat Nat),
    demo.drainD (fun (t : Nat) _ => (t == 0, t + 1)) 1 0 = .ok (.panicked, ps, 1, m') ∧ ps.length = 1 ∧ m'.iterLeft = [] ∧ m'.iterRight.length = 2 := by
  obtain ⟨ps, b, t', m', h1, h2, h3, -, h5, -, h7, -⟩ := C131_drain demo_reachable demo_shows (fun (t : Nat) (_ : Nat ⊕ Nat) => (t == 0, t + 1)) 1 0
  match ps, h1.length_eq with
  | [p, q, w], _ =>
    cases h2
    exact ⟨_, m', h3, rfl, h5, h7.length_eq⟩

/-! ### C132 -/

/-- C132, for `CycleMap`: when the map is dropped, the left items are dropped and then the right items, each at most once; there is nothing else to
drop.  If no destructor panics, all items are dropped.  A destructor that panics keeps other items of its side from being
dropped, but not those of the other side; a second panic aborts the process. -/
theorem C132_drop (hc : Shows m c) (d : τ → L ⊕ R → Bool × τ) (t : τ) :
    ∃ (lefts lostL : List L) (rights lostR : List R) (e : Ending) (n : Nat) (t' : τ),
      (lefts ++ lostL).Perm (c.map (·.1)) ∧ (rights ++ lostR).Perm (c.map (·.2)) ∧
      dropAll d (lefts.map .inl ++ rights.map .inr) t = (n, t') ∧ m.dropMap d t = (e, t') ∧
      (e = match n with | 0 => .returned | 1 => .panicked | _ => .aborted) ∧
      (e = .returned → lostL = [] ∧ lostR = []) ∧ (e = .panicked → lostL = [] ∨ lostR = []) := by
  obtain ⟨a, b, u, v, h1, h2, h3, h4, h5⟩ := sort_dropped d (ls := m.iterLeft) (rs := m.iterRight)
    (x := m.left.toList.map fun x => .inl x.value) (y := m.right.toList.map fun x => .inr x.value)
    (by rw [iterLeft, List.map_map]; rfl) (by rw [iterRight, List.map_map]; rfl) t
  exact ⟨a, b, u, v, _, _, _, h1 ▸ hc.iterLeft, h2 ▸ hc.iterRight, rfl, h3, by rw [h3] at h4 h5; exact ⟨by rfl, h4, h5⟩⟩

/-- C132: with destructors that do not panic every item is dropped exactly once -/
theorem C132_all (hc : Shows m c) :
    ∃ t', m.dropMap record [] = (.returned, t') ∧ t'.Perm (c.flatMap fun p => [.inl p.1, .inr p.2]) := by
  obtain ⟨a, b, u, v, e, n, t', h1, h2, h3, h4, h5, h6, -⟩ := C132_drop hc record []
  rw [dropAll_record] at h3
  cases h3
  subst h5
  obtain ⟨rfl, rfl⟩ := h6 rfl
  refine ⟨_, h4, ?_⟩
  have k : ∀ c : List (L × R), ((c.map (·.1)).map (Sum.inl (β := R)) ++ (c.map (·.2)).map (Sum.inr (α := L))).Perm (c.flatMap fun p => [.inl p.1, .inr p.2]) := by
    intro c
    induction c with
    | nil => exact .refl _
    | cons p c ih =>
      simp only [List.map_cons, List.flatMap_cons, List.cons_append, List.nil_append]
      exact (List.perm_middle.trans (ih.cons _)).cons _
  simp only [List.append_nil] at h1 h2
  exact List.Perm.trans (by simpa using (h1.map _).append (h2.map _)) (k c)

/-- the third destructor panics: the three left items and the three right items are dropped all the same -/
example : ∃ (t' : Nat), demo.dropMap (fun (t : Nat) _ => (t == 2, t + 1)) 0 = (.panicked, t') ∧ t' = 6 := by
  have h1 := demo_shows.iterLeft.length_eq
  have h2 := demo_shows.iterRight.length_eq
  simp only [iterLeft, iterRight, List.length_map] at h1 h2
  simp only [dropMap]
  match demo.left.toList, demo.right.toList, h1, h2 with
  | [a, b, c], [u, v, w], _, _ => exact ⟨_, rfl, rfl⟩

end Verif.CycleMap

namespace Verif.PartialMap
open PartialSpec OptionalPair Demo
open CycleMap (Ending)

variable [RawImpl] [LawfulRaw] {L R τ : Type} [BEq L] [BEq R] [EquivBEq L] [EquivBEq R]
variable {m : PartialMap L R} {c : List (OptionalPair L R)}

/-- C131, for `PartialCycleMap`: `drain()`, at most `n` calls of `next`, then the drop of the iterator (also if a `next` panicked).  What is yielded is
as without panics (C53): the entries with a left item, in some order, then at most one entry without.  The items of all other entries are dropped, each once, but for those
that are `lost`: none if no destructor panics, and right items without a partner if one does.  Unless two panics meet, which aborts the process,
the map is empty afterwards, and every later history goes as on an empty map. -/
theorem C131_drain (h : Reachable m) (hc : Shows m c) (leak : Bool) (d : τ → L ⊕ R → Bool × τ) (n : Nat) (t : τ) :
    ∃ (e : Ending) (ds yielded : List (OptionalPair L R)) (x : Option (OptionalPair L R)) (dropped lost : List (L ⊕ R)) (k : Nat) (t' : τ) (m' : PartialMap L R),
      ds.Perm (c.filter fun e => (leftOf e).isSome) ∧ (∀ y, x = some y → y ∈ c ∧ leftOf y = none) ∧ yielded = (ds ++ x.toList).take n ∧
      m.drainD leak d n t = .ok (e, yielded, t', m') ∧ dropAll d dropped t = (k, t') ∧
      (e = match k with | 0 => .returned | 1 => .panicked | _ => .aborted) ∧
      (yielded.flatMap pieces ++ dropped ++ lost).Perm (c.flatMap pieces) ∧ (e = .returned → lost = []) ∧
      (e ≠ .aborted → (∀ a ∈ lost, ∃ r, a = .inr r ∧ someRight r ∈ c) ∧ UsableAs m' []) := by
  obtain ⟨ds, x, dr, lo, k, t', m', h1, h2, h3, h4, h5, h6, h7⟩ := drainD_refines (h.repr_of_shows hc) leak d n t
  refine ⟨_, ds, _, x, dr, lo, k, t', m', h1, h2, rfl, h3, h4, rfl, h5, fun he => h6 ?_, fun he => ?_⟩
  · match k, he with
    | 0, _ => rfl
    | 1, he => cases he
    | k + 2, he => cases he
  · have hk : k < 2 := by
      match k, he with
      | 0, _ => omega
      | 1, _ => omega
      | k + 2, he => exact absurd rfl he
    exact ⟨(h7 hk).1, (h7 hk).2.1.usable⟩

/-- C131: with destructors that do not panic, it is what `drain` is without destructors -/
theorem C131_calm (m : PartialMap L R) (leak : Bool) (d : τ → L ⊕ R → Bool × τ) (hd : ∀ t a, (d t a).1 = false) (n : Nat) (t : τ) {ps m'}
    (e : m.drainTake n = .ok (ps, m')) : ∃ t', m.drainD leak d n t = .ok (.returned, ps, t', m') := by
  obtain ⟨t', h⟩ := drainD_calm (leak := leak) hd m n t
  exact ⟨t', by rw [h, e]; rfl⟩

/-- C131: destructors that panic at most once (after a panic `P` holds, and while it holds there is no panic) do not abort the process, so that the map is empty
afterwards whatever they do -/
theorem C131_once (h : Reachable m) (hc : Shows m c) (leak : Bool) (d : τ → L ⊕ R → Bool × τ) (n : Nat) (t : τ) (P : τ → Prop)
    (hP : ∀ t a, P t → (d t a).1 = false ∧ P (d t a).2) (hO : ∀ t a, (d t a).1 = true → P (d t a).2) :
    ∃ (e : Ending) (ds : List (OptionalPair L R)) (t' : τ) (m' : PartialMap L R),
      m.drainD leak d n t = .ok (e, ds, t', m') ∧ e ≠ .aborted ∧ UsableAs m' [] := by
  obtain ⟨e, _, ds, x, _, _, _, t', m', -, -, -, h3, -, -, -, -, h4⟩ := C131_drain h hc leak d n t
  have he := drainD_once hP hO h3
  exact ⟨e, _, t', m', h3, he, (h4 he).2⟩

/-- a destructor that panics the second time it is run, with `k` entries asked for -/
example (leak : Bool) (k : Nat) : ∃ (e : Ending) (ds : List (OptionalPair Nat Nat)) (t' : Nat) (m' : PartialMap Nat Nat),
    demo.drainD leak (fun (t : Nat) _ => (t == 1, t + 1)) k 0 = .ok (e, ds, t', m') ∧ e ≠ .aborted ∧ UsableAs m' [] :=
  C131_once demo_reachable demo_shows leak _ k 0 (fun t => 2 ≤ t) (fun t _ h => ⟨by simp; omega, by simp; omega⟩) (fun t _ h => by simp at h; subst h; simp)

/-- two right items without a partner: when nothing is left but these, the drop of the iterator yields the one and drops the other, whose destructor panics inside
`next`; if all destructors panic, the process is aborted unless the other item is leaked -/
example : (let _ := tidyRaw
    match (({ hb := spreadHash, counter := 0, left := RawTable.withCapacity 0, right := RawTable.withCapacity 0 } : PartialMap Nat Nat).run
      [.insertRight 5, .insertRight 6]) with
    | .ok (_, m) => (match m.drainD true (fun (t : Nat) _ => (true, t + 1)) 0 0, m.drainD false (fun (t : Nat) _ => (true, t + 1)) 0 0 with
      | .ok (e1, _, t1, m1), .ok (e2, _, t2, _) => e1 == .panicked && t1 == 1 && m1.lenRight == 0 && e2 == .aborted && t2 == 2
      | _, _ => false)
    | _ => false) = true := by decide +kernel

/-- C132, for `PartialCycleMap`: when the map is dropped, the left items are dropped and then the right items, each at most once; there is nothing else to
drop.  If no destructor panics, all items are dropped.  A destructor that panics keeps other items of its side from being
dropped, but not those of the other side; a second panic aborts the process. -/
theorem C132_drop (hc : Shows m c) (d : τ → L ⊕ R → Bool × τ) (t : τ) :
    ∃ (lefts lostL : List L) (rights lostR : List R) (e : Ending) (n : Nat) (t' : τ),
      (lefts ++ lostL).Perm (c.filterMap leftOf) ∧ (rights ++ lostR).Perm (c.filterMap rightOf) ∧
      dropAll d (lefts.map .inl ++ rights.map .inr) t = (n, t') ∧ m.dropMap d t = (e, t') ∧
      (e = match n with | 0 => .returned | 1 => .panicked | _ => .aborted) ∧
      (e = .returned → lostL = [] ∧ lostR = []) ∧ (e = .panicked → lostL = [] ∨ lostR = []) := by
  obtain ⟨a, b, u, v, h1, h2, h3, h4, h5⟩ := sort_dropped d (ls := m.iterLeft) (rs := m.iterRight)
    (x := m.left.toList.map fun x => .inl x.value) (y := m.right.toList.map fun x => .inr x.value)
    (by rw [iterLeft, List.map_map]; rfl) (by rw [iterRight, List.map_map]; rfl) t
  exact ⟨a, b, u, v, _, _, _, h1 ▸ hc.iterLeft, h2 ▸ hc.iterRight, rfl, h3, by rw [h3] at h4 h5; exact ⟨by rfl, h4, h5⟩⟩

/-- C132: with destructors that do not panic every item is dropped exactly once -/
theorem C132_all (hc : Shows m c) : ∃ t', m.dropMap record [] = (.returned, t') ∧ t'.Perm (c.flatMap pieces) := by
  obtain ⟨a, b, u, v, e, n, t', h1, h2, h3, h4, h5, h6, -⟩ := C132_drop hc record []
  rw [dropAll_record] at h3
  cases h3
  subst h5
  obtain ⟨rfl, rfl⟩ := h6 rfl
  refine ⟨_, h4, ?_⟩
  have k : ∀ c : List (OptionalPair L R), ((c.filterMap leftOf).map Sum.inl ++ (c.filterMap rightOf).map Sum.inr).Perm (c.flatMap pieces) := by
    intro c
    induction c with
    | nil => exact .refl _
    | cons p c ih =>
      cases p with
      | neither => simpa [leftOf, rightOf, pieces, List.filterMap_cons] using ih
      | someLeft l => simpa [leftOf, rightOf, pieces, List.filterMap_cons] using ih
      | someRight r => simpa [leftOf, rightOf, pieces, List.filterMap_cons] using List.perm_middle.trans (ih.cons (Sum.inr r))
      | someBoth l r => simpa [leftOf, rightOf, pieces, List.filterMap_cons] using List.perm_middle.trans (ih.cons (Sum.inr r))
  simp only [List.append_nil] at h1 h2
  exact List.Perm.trans (by simpa using (h1.map _).append (h2.map _)) (k c)

/-- the first left item and the first right item panic: the process is aborted -/
example : ∃ (t' : Nat), demo.dropMap (fun (t : Nat) _ => (true, t + 1)) 0 = (.aborted, t') ∧ t' = 2 := by
  have h1 := demo_shows.iterLeft.length_eq
  have h2 := demo_shows.iterRight.length_eq
  simp only [iterLeft, iterRight, List.length_map] at h1 h2
  simp only [dropMap]
  match demo.left.toList, demo.right.toList, h1, h2 with
  | [a, b, c], [u, v, w], _, _ => exact ⟨_, rfl, rfl⟩

end Verif.PartialMap

namespace Verif.GroupMap
open GroupSpec Demo
open CycleSpec (split)
open CycleMap (Ending)

variable [RawImpl] [LawfulRaw] {L R τ : Type} [BEq L] [BEq R] [EquivBEq L] [EquivBEq R]
variable {m : GroupMap L R} {c : Contents L R}

/-- C131, for `GroupMap::retain_paired`: the closure sees every pair once, in some order `v`.  The left items of the pairs it accepts are removed and dropped
one after the other, up to and including the first whose destructor panics (`sweep`); the others stay, as do those of the pairs it rejects.
The right items keep referring to all of them (as without panics, C74). -/
theorem C131_retain_paired {σ : Type} (h : Reachable m) (hc : Shows m c) (f : σ → L → R → Bool × σ) (d : τ → L ⊕ R → Bool × τ) (s : σ) (t : τ) :
    ∃ (v accepted rejected left : List (L × R)) (n : Nat) (s' : σ) (t' : τ) (m' : GroupMap L R), v.Perm c.pairs ∧
      split (fun s p => f s p.1 p.2) v s = (accepted, rejected, s') ∧
      sweep d (fun p => [.inl p.1]) accepted t = (n, left, t') ∧
      m.retainPairedD f d s t = .ok (match n with | 0 => .returned | _ => .panicked, s', t', m') ∧
      ShowsTorn m' c.rights (left ++ rejected) c.pairs := by
  obtain ⟨v, a, r, l, n, s', t', m', h1, h2, h3, h4, h5, -⟩ := retainPairedD_torn (h.repr_of_shows hc) f d s t
  refine ⟨v, a, r, l, n, s', t', m', h1, h2, h3, ?_, h5⟩
  rw [h4]
  cases n <;> rfl

/-- three pairs, all accepted; the destructor panics the second time it is run: one left item stays -/
example : ∃ (m' : GroupMap Nat Nat) (s' t' : Nat),
    demo.retainPairedD (fun (s : Nat) _ _ => (true, s + 1)) (fun (t : Nat) _ => (t == 1, t + 1)) 0 0 = .ok (.panicked, s', t', m') ∧
      s' = 3 ∧ t' = 2 ∧ m'.iterLeft.length = 1 ∧ m'.iterRight.length = 3 := by
  obtain ⟨v, a, r, l, n, s', t', m', h1, h2, h3, h4, h5⟩ := C131_retain_paired demo_reachable demo_shows
    (fun (s : Nat) _ _ => (true, s + 1)) (fun (t : Nat) (_ : Nat ⊕ Nat) => (t == 1, t + 1)) 0 0
  have hl : v.length = 3 := h1.length_eq
  match v, hl with
  | [p, q, w], _ =>
    cases h2; cases h3
    exact ⟨m', _, _, h4, rfl, rfl, h5.iterLeft.length_eq.trans (by simp), h5.iterRight.length_eq.trans rfl⟩

/-- C132, for `GroupMap`: when the map is dropped, the left items are dropped and then the right items, each at most once; there is nothing else to
drop.  If no destructor panics, all items are dropped.  A destructor that panics keeps other items of its side from being
dropped, but not those of the other side; a second panic aborts the process. -/
theorem C132_drop (hc : Shows m c) (d : τ → L ⊕ R → Bool × τ) (t : τ) :
    ∃ (lefts lostL : List L) (rights lostR : List R) (e : Ending) (n : Nat) (t' : τ),
      (lefts ++ lostL).Perm (c.pairs.map (·.1)) ∧ (rights ++ lostR).Perm c.rights ∧
      dropAll d (lefts.map .inl ++ rights.map .inr) t = (n, t') ∧ m.dropMap d t = (e, t') ∧
      (e = match n with | 0 => .returned | 1 => .panicked | _ => .aborted) ∧
      (e = .returned → lostL = [] ∧ lostR = []) ∧ (e = .panicked → lostL = [] ∨ lostR = []) := by
  obtain ⟨a, b, u, v, h1, h2, h3, h4, h5⟩ := sort_dropped d (ls := m.iterLeft) (rs := m.iterRight)
    (x := m.left.toList.map fun x => .inl x.value) (y := m.right.toList.map fun x => .inr x.value)
    (by rw [iterLeft, List.map_map]; rfl) (by rw [iterRight, List.map_map]; rfl) t
  exact ⟨a, b, u, v, _, _, _, h1 ▸ hc.iterLeft, h2 ▸ hc.iterRight, rfl, h3, by rw [h3] at h4 h5; exact ⟨by rfl, h4, h5⟩⟩

/-- C132: with destructors that do not panic every item is dropped exactly once -/
theorem C132_all (hc : Shows m c) :
    ∃ t', m.dropMap record [] = (.returned, t') ∧ t'.Perm (c.pairs.map (fun p => .inl p.1) ++ c.rights.map .inr) := by
  obtain ⟨a, b, u, v, e, n, t', h1, h2, h3, h4, h5, h6, -⟩ := C132_drop hc record []
  rw [dropAll_record] at h3
  cases h3
  subst h5
  obtain ⟨rfl, rfl⟩ := h6 rfl
  refine ⟨_, h4, ?_⟩
  simp only [List.append_nil] at h1 h2
  have := (h1.map (Sum.inl (β := R))).append (h2.map (Sum.inr (α := L)))
  rwa [List.map_map] at this

/-- the destructor of a right item panics: the other two are leaked -/
example : ∃ (t' : Nat), demo.dropMap (fun (t : Nat) x => (x.isRight, t + 1)) 0 = (.panicked, t') ∧ t' = 4 := by
  have h1 := demo_shows.iterLeft.length_eq
  have h2 := demo_shows.iterRight.length_eq
  simp only [iterLeft, iterRight, List.length_map] at h1 h2
  simp only [dropMap]
  match demo.left.toList, demo.right.toList, h1, h2 with
  | [a, b, c], [u, v, w], _, _ => exact ⟨_, rfl, rfl⟩

end Verif.GroupMap
