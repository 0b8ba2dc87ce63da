import Verif.Props.GroupBasic
/-! Properties C72 and C73 of `GroupMap`: the iterators. -/
set_option linter.unusedSectionVars false
set_option linter.unusedSimpArgs false
namespace Verif.GroupMap
open GroupSpec Demo

variable [RawImpl] [LawfulRaw] {L R : Type} [BEq L] [BEq R] [EquivBEq L] [EquivBEq R]
variable {m : GroupMap L R} {c : Contents L R}

/-! ### C72 -/

/-- C72: `iter` yields every pair and every lone right item exactly once, `iter_paired` every pair, `iter_unpaired`
every lone right item, in some order, step by step; `iter_left` and `iter_right` the items of their side; all items
of one side are different. -/
theorem C72_iterators (h : Reachable m) (hc : Shows m c) :
    (∃ d : List (Option L × R), d.Perm (c.pairs.map (fun p => (some p.1, p.2)) ++
        (c.rights.filter fun r => !c.pairs.any (r == ·.2)).map fun r => (none, r)) ∧ m.iterList = .ok d ∧
      ∀ n, ∃ it, Iter.take m n m.iter = .ok (d.take n, it) ∧
        ∀ k, ∃ it', Iter.take m k it = .ok ((d.drop n).take k, it')) ∧
    (∃ d : List (L × R), d.Perm c.pairs ∧ m.iterPairedList = .ok d ∧
      ∀ n, ∃ it, PairedIter.take m n m.iterPaired = .ok (d.take n, it) ∧
        ∀ k, ∃ it', PairedIter.take m k it = .ok ((d.drop n).take k, it')) ∧
    (∃ d : List R, d.Perm (c.rights.filter fun r => !c.pairs.any (r == ·.2)) ∧ m.iterUnpairedList = d ∧
      ∀ n, (UnpairedIter.take n m.iterUnpaired).1 = d.take n ∧
        ∀ k, (UnpairedIter.take k (UnpairedIter.take n m.iterUnpaired).2).1 = (d.drop n).take k) ∧
    (∀ r b, c.rights.find? (r == ·) = some b → ∃ (it₀ : PairIter) (d : List L), m.getLeftIter r = some it₀ ∧
      d.Perm ((c.pairs.filter (r == ·.2)).map (·.1)) ∧
      ∀ n, ∃ it, PairIter.take m n it₀ = .ok (d.take n, it) ∧
        ∀ k, ∃ it', PairIter.take m k it = .ok ((d.drop n).take k, it')) ∧
    (∀ r, m.containsRight r = false → m.getLeftIter r = none) ∧
    m.iterLeft.Perm (c.pairs.map (·.1)) ∧ m.iterRight.Perm c.rights ∧
    m.iterLeft.Pairwise (fun a b => (a == b) = false) ∧ m.iterRight.Pairwise (fun a b => (a == b) = false) := by
  have h := h.repr_of_shows hc
  refine ⟨?_, ?_, ?_, ?_, ?_, hc.iterLeft, hc.iterRight, ?_, ?_⟩
  · obtain ⟨gs, hp, _, _, hl, h2⟩ := iter_take h
    refine ⟨gs.flatten, hp, hl, fun n => ?_⟩
    obtain ⟨it, j, e, _, _, _, h3, _⟩ := h2 n
    exact ⟨it, e, h3⟩
  · obtain ⟨d, hp, h2⟩ := iterPaired_take h
    refine ⟨d, hp, ?_, fun n => ?_⟩
    · obtain ⟨it, e, -⟩ := h2 (m.left.len + 1)
      simp only [iterPairedList, e, bind, Except.bind, pure, Except.pure]
      rw [List.take_of_length_le]
      rw [hp.length_eq, ← lenLeft_refines h, lenLeft]; omega
    · obtain ⟨it, e, _, _, h3⟩ := h2 n
      exact ⟨it, e, h3⟩
  · obtain ⟨d, hp, h2⟩ := iterUnpaired_take h
    refine ⟨d, hp, ?_, fun n => ⟨(h2 n).1, (h2 n).2.2.2⟩⟩
    rw [iterUnpairedList, (h2 _).1, List.take_of_length_le]
    rw [hp.length_eq, lone]
    refine Nat.le_trans (List.length_filter_le _ _) ?_
    rw [← lenRight_refines h, lenRight]; omega
  · intro r b hr
    rcases getLeft_take h r with ⟨h1, _⟩ | ⟨it, ks, _, h2, h3, h4⟩
    · rw [findR, hr] at h1; cases h1
    · refine ⟨it, ks, h2, h3, fun n => ?_⟩
      obtain ⟨it', e, _, h5⟩ := h4 n
      exact ⟨it', e, h5⟩
  · intro r hr
    rcases getLeft_take h r with ⟨_, h2⟩ | ⟨it, ks, h1, _⟩
    · exact h2
    · rw [hc.containsRight, ← List.isSome_find?] at hr
      rw [findR, hr] at h1; cases h1
  · refine (hc.iterLeft.pairwise_iff fun {a b} h => by rw [BEq.comm]; exact h).2 ?_
    rw [List.pairwise_map]
    exact hc.sound.lefts
  · exact (hc.iterRight.pairwise_iff fun {a b} h => by rw [BEq.comm]; exact h).2 hc.sound.rights

example : (∃ d : List (Option Nat × Nat), d.Perm [(some 3, 20), (some 2, 10), (some 1, 10), (none, 30)] ∧
    demo.iterList = .ok d) ∧ demo.iterUnpairedList = [30] ∧ demo.iterLeft.Perm [3, 2, 1] := by
  obtain ⟨⟨d, h1, h2, _⟩, _, ⟨es, h3, h4, _⟩, _, _, h5, _⟩ := C72_iterators demo_reachable demo_shows
  exact ⟨⟨d, h1, h2⟩, by rw [h4]; exact h3.eq_singleton, h5⟩

/-! ### C73 -/

/-- C73 in full: after any number `n` of steps, a clone yields the items still to come, `len` is their number, and
so is the number in `size_hint` (which is of the form `(n, Some(n))`).  False, see `C73_false`. -/
def C73_full : Prop :=
  ∀ [RawImpl] [LawfulRaw] (L R : Type) [BEq L] [BEq R] [EquivBEq L] [EquivBEq R] (m : GroupMap L R)
    (c : Contents L R), Reachable m → Shows m c →
    (∃ d, m.iterList = .ok d ∧ ∀ n, ∃ it, Iter.take m n m.iter = .ok (d.take n, it) ∧
      (∀ k, ∃ it', Iter.take m k it.clone = .ok ((d.drop n).take k, it')) ∧
      it.len m = .ok (d.drop n).length ∧ it.sizeHint = (d.drop n).length) ∧
    (∃ d, m.iterPairedList = .ok d ∧ ∀ n, ∃ it, PairedIter.take m n m.iterPaired = .ok (d.take n, it) ∧
      it.len m = .ok (d.drop n).length ∧ it.sizeHint = (d.drop n).length) ∧
    (∀ n, ∃ it, UnpairedIter.take n m.iterUnpaired = (m.iterUnpairedList.take n, it) ∧
      it.len = (m.iterUnpairedList.drop n).length ∧ it.sizeHint = (m.iterUnpairedList.drop n).length) ∧
    (∀ r it₀, m.getLeftIter r = some it₀ → ∃ d : List L, ∀ n, ∃ it, PairIter.take m n it₀ = .ok (d.take n, it) ∧
      it.len = (d.drop n).length)

theorem flatten_take_succ {α : Type} (gs : List (List α)) (hg : ∀ g ∈ gs, g ≠ []) {i j : Nat} (h : i < j)
    (hj : j ≤ gs.length) : (gs.take i).flatten.length < (gs.take j).flatten.length := by
  induction gs generalizing i j with
  | nil => simp at hj; omega
  | cons g gs ih =>
    cases j with
    | zero => omega
    | succ j =>
      have hpos : 0 < g.length := List.length_pos_iff.2 (hg g List.mem_cons_self)
      cases i with
      | zero => simp; omega
      | succ i =>
        have := ih (fun g h => hg g (List.mem_cons_of_mem _ h)) (i := i) (j := j) (by omega) (by simpa using hj)
        simp only [List.take_succ_cons, List.flatten_cons, List.length_append]; omega

theorem flatten_drop {α : Type} (gs : List (List α)) (j : Nat) :
    gs.flatten.drop (gs.take j).flatten.length = (gs.drop j).flatten := by
  conv => lhs; arg 2; rw [← List.take_append_drop j gs, List.flatten_append]
  rw [List.drop_left]

/-- What the iterators do.  `iter` yields one right item after the other (the lists in `gs`, one per right item).
After `n` steps, `j` right items have been begun.  A clone and `len` see the right items not begun yet, and not
what is left of the current group; `size_hint` is the number of right items not begun yet. -/
theorem C73_actual (h : Reachable m) (hc : Shows m c) :
    ∃ gs : List (List (Option L × R)), gs.flatten.Perm (entries c) ∧ gs.length = c.rights.length ∧
      (∀ g ∈ gs, g ≠ [] ∧ ∃ r, ∀ e ∈ g, e.2 = r) ∧ m.iterList = .ok gs.flatten ∧
      ∀ n, ∃ (it : Iter R) (j : Nat), Iter.take m n m.iter = .ok (gs.flatten.take n, it) ∧ j ≤ gs.length ∧
        (j = 0 ∨ (gs.take (j - 1)).flatten.length < n) ∧ (n ≤ (gs.take j).flatten.length ∨ j = gs.length) ∧
        (∀ k, ∃ it', Iter.take m k it = .ok ((gs.flatten.drop n).take k, it')) ∧
        (∀ k, ∃ it', Iter.take m k it.clone = .ok ((gs.drop j).flatten.take k, it')) ∧
        it.len m = .ok (gs.drop j).flatten.length ∧ it.sizeHint = (gs.drop j).length :=
  iter_take (h.repr_of_shows hc)

/-- C73, what holds.  `iter_paired` and `get_left_iter` are right at every position (their clones are plain copies);
`len` of `iter_unpaired` is right, and its `size_hint` an upper bound.  For `iter`, clones and `len` are right
whenever it is between two right items, in particular at the start.  Missing: `iter` in the middle of a group, and
the exact `size_hint`s of `iter` and `iter_unpaired`. -/
theorem C73_partial (h : Reachable m) (hc : Shows m c) :
    (∃ d, m.iterPairedList = .ok d ∧ ∀ n, ∃ it, PairedIter.take m n m.iterPaired = .ok (d.take n, it) ∧
      it.len m = .ok (d.drop n).length ∧ it.sizeHint = (d.drop n).length) ∧
    (∀ n, ∃ it, UnpairedIter.take n m.iterUnpaired = (m.iterUnpairedList.take n, it) ∧
      it.len = (m.iterUnpairedList.drop n).length ∧ (m.iterUnpairedList.drop n).length ≤ it.sizeHint) ∧
    (∀ r it₀, m.getLeftIter r = some it₀ → ∃ d : List L, d.Perm (group c r) ∧
      ∀ n, ∃ it, PairIter.take m n it₀ = .ok (d.take n, it) ∧ it.len = (d.drop n).length) ∧
    (∃ gs : List (List (Option L × R)), m.iterList = .ok gs.flatten ∧ (∀ g ∈ gs, ∃ r, ∀ e ∈ g, e.2 = r) ∧
      gs.length = c.rights.length ∧
      ∀ j, j ≤ gs.length → ∃ it, Iter.take m (gs.take j).flatten.length m.iter = .ok ((gs.take j).flatten, it) ∧
        (∀ k, ∃ it', Iter.take m k it = .ok ((gs.drop j).flatten.take k, it')) ∧
        (∀ k, ∃ it', Iter.take m k it.clone = .ok ((gs.drop j).flatten.take k, it')) ∧
        it.len m = .ok (gs.drop j).flatten.length) := by
  have h' := h.repr_of_shows hc
  refine ⟨?_, ?_, ?_, ?_⟩
  · obtain ⟨d, hp, h2⟩ := iterPaired_take h'
    refine ⟨d, ?_, fun n => ?_⟩
    · obtain ⟨it, e, -⟩ := h2 (m.left.len + 1)
      simp only [iterPairedList, e, bind, Except.bind, pure, Except.pure]
      rw [List.take_of_length_le]
      rw [hp.length_eq, ← lenLeft_refines h', lenLeft]; omega
    · obtain ⟨it, e, h3, h4, _⟩ := h2 n
      exact ⟨it, e, h3, h4⟩
  · obtain ⟨_, _, ⟨d, hd, e, h2⟩, _⟩ := C72_iterators h hc
    obtain ⟨d', hp, h3⟩ := iterUnpaired_take h'
    have hdd : d' = d := by
      have h4 := (h2 (d.length + d'.length)).1
      rw [(h3 _).1, List.take_of_length_le (by omega), List.take_of_length_le (by omega)] at h4
      exact h4
    subst hdd
    rw [e]
    exact fun n => ⟨_, Prod.ext (h2 n).1 rfl, (h3 n).2.1, (h3 n).2.2.1⟩
  · intro r it₀ hit
    rcases getLeft_take h' r with ⟨_, h2⟩ | ⟨it, ks, _, h2, h3, h4⟩
    · rw [hit] at h2; cases h2
    · rw [hit] at h2; cases h2
      refine ⟨ks, h3, fun n => ?_⟩
      obtain ⟨it', e, h5, _⟩ := h4 n
      exact ⟨it', e, h5⟩
  · obtain ⟨gs, _, hlen, hg, hl, h2⟩ := C73_actual h hc
    refine ⟨gs, hl, fun g hm => (hg g hm).2, hlen, fun j hj => ?_⟩
    obtain ⟨it, i, e, hi, h3, h4, h5, h6, h7, _⟩ := h2 (gs.take j).flatten.length
    have hij : i = j := by
      rcases Nat.lt_trichotomy i j with hlt | heq | hgt
      · have := flatten_take_succ gs (fun g hm => (hg g hm).1) hlt hj
        rcases h4 with h4 | h4 <;> omega
      · exact heq
      · rcases h3 with h3 | h3
        · omega
        · rcases Nat.lt_or_ge j (i - 1) with hlt | hge
          · have := flatten_take_succ gs (fun g hm => (hg g hm).1) hlt (by omega)
            omega
          · have : i - 1 = j := by omega
            rw [this] at h3; omega
    subst hij
    rw [flatten_drop] at h5
    have ht : gs.flatten.take (gs.take i).flatten.length = (gs.take i).flatten := by
      conv => lhs; arg 2; rw [← List.take_append_drop i gs, List.flatten_append]
      rw [List.take_left]
    rw [ht] at e
    exact ⟨it, e, h5, h6, h7⟩

/-- at the start, `demo.iter().len()` is 4, but its `size_hint` 3 -/
example : demo.iter.len demo = .ok 4 ∧ demo.iter.sizeHint = 3 := by
  obtain ⟨gs, hp, hl, _, _, h2⟩ := C73_actual demo_reachable demo_shows
  obtain ⟨it, j, e, hj, h3, _, _, _, h4, h5⟩ := h2 0
  obtain rfl : j = 0 := by
    rcases h3 with h3 | h3
    · exact h3
    · omega
  simp only [Iter.take, List.take_zero] at e
  obtain rfl : demo.iter = it := (Prod.ext_iff.1 (Except.ok.inj e)).2
  exact ⟨by rw [h4, List.drop_zero, hp.length_eq]; rfl, by rw [h5, List.drop_zero, hl]; rfl⟩

/-- What `size_hint` says at the start: the number of right items, for both `iter` and `iter_unpaired`. -/
theorem C73_size_hint_actual (hc : Shows m c) :
    m.iter.sizeHint = c.rights.length ∧ m.iterUnpaired.sizeHint = c.rights.length := by
  have := hc.iterRight.length_eq
  simp only [iterRight, List.length_map] at this
  exact ⟨this, this⟩

omit [RawImpl] [LawfulRaw] in
/-- the witness: a right item with two left items (`len` after one step is also wrong then) -/
theorem C73_false : ¬ C73_full := by
  intro h
  letI := messyRaw; haveI := messyRaw_lawful
  obtain ⟨⟨d, e, h1⟩, _⟩ := h Nat Nat demo _ demo_reachable demo_shows
  obtain ⟨it, e0, _, _, h2⟩ := h1 0
  simp only [Iter.take, List.take_zero] at e0
  obtain rfl : demo.iter = it := (Prod.ext_iff.1 (Except.ok.inj e0)).2
  rw [(C73_size_hint_actual demo_shows).1] at h2
  obtain ⟨xs, e1, hp⟩ := demo_shows.iter
  rw [e] at e1; cases e1
  rw [List.drop_zero, hp.length_eq] at h2
  revert h2; decide

/-- The other defect: in the middle of a group, a clone and `len` miss what is left of the group. -/
theorem C73_mid_group_false : ¬ ∀ [RawImpl] [LawfulRaw] (L R : Type) [BEq L] [BEq R] [EquivBEq L] [EquivBEq R]
    (m : GroupMap L R), Reachable m → ∀ d n it, m.iterList = .ok d → Iter.take m n m.iter = .ok (d.take n, it) →
      it.len m = .ok (d.drop n).length ∧ ∀ k, ∃ it', Iter.take m k it.clone = .ok ((d.drop n).take k, it') := by
  intro h
  letI := messyRaw; haveI := messyRaw_lawful
  have hn : NewPairs (GroupSpec.empty : Contents Nat Nat) [(some 1, 10), (some 2, 10)] := by
    simp [NewPairs, hasPair, GroupSpec.empty, GroupSpec.insert, findR, findL, eraseL]
  obtain ⟨m, e, hr, _⟩ := extendOpt_refines (withHasher_repr constHash) _ hn
  have hre : Reachable m := (Reachable.new constHash).extendOpt (withHasher_repr constHash) _ hn e
  obtain ⟨gs, hp, hl, _, hd, h2⟩ := C73_actual hre hr.shows
  have hl : gs.length = 1 := hl
  have h4 : gs.flatten.length = 2 := hp.length_eq
  obtain ⟨it, j, e1, _, _, h3, _, _, h5, _⟩ := h2 1
  have hj : j = 1 := by
    rcases h3 with h3 | h3
    · rcases j with _ | j
      · simp at h3
      · omega
    · omega
  have := (h Nat Nat m hre _ 1 it hd e1).1
  rw [h5, hj, List.drop_of_length_le (by omega)] at this
  have := Except.ok.inj this
  rw [List.length_drop, h4] at this
  simp at this

end Verif.GroupMap
