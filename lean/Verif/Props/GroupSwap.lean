import Verif.Props.GroupBasic
import Verif.GroupMap.SpecLemmas
/-! Properties C62, C66, C67, C74, C75 of `GroupMap`: the calls with defects. -/
set_option linter.unusedSectionVars false
set_option linter.unusedSimpArgs false
namespace Verif.GroupMap
open GroupSpec Demo
open CycleSpec (split)

variable [RawImpl] [LawfulRaw] {L R : Type} [BEq L] [BEq R] [EquivBEq L] [EquivBEq R]
variable {m : GroupMap L R} {c : Contents L R}

/-- What `insert(l, r)` should leave: the left item (the stored one, if there is one) with the right item (the
stored one, if there is one); `l` is in no other group; no right item goes. -/
def inserted (c : Contents L R) (l : L) (r : R) : Contents L R :=
  { rights := if c.rights.any (r == ·) then c.rights else r :: c.rights
    pairs := (((c.pairs.find? (l == ·.1)).map (·.1)).getD l, (c.rights.find? (r == ·)).getD r) ::
      c.pairs.filter fun p => !(l == p.1) }

theorem insert_eq_inserted (c : Contents L R) (l : L) (r : R) : GroupSpec.insert c l r = inserted c l r := by
  rw [GroupSpec.insert, inserted, ← List.isSome_find?]
  simp only [findR, findL, eraseL]
  cases c.rights.find? (r == ·) <;> rfl

/-! ### C62: `insert` -/

/-- C62 in full.  False: `insert` of a pair that is there already breaks the map, see `C62_false`. -/
def C62_full : Prop :=
  ∀ [RawImpl] [LawfulRaw] (L R : Type) [BEq L] [BEq R] [EquivBEq L] [EquivBEq R] (m : GroupMap L R)
    (c : Contents L R) (l : L) (r : R), Reachable m → Shows m c →
    ∃ m', m.insert l r = .ok m' ∧ Shows m' (inserted c l r)

/-- C62 holds if `l` and `r` are not paired with each other yet.  Missing: the other case, see `C62_actual`. -/
theorem C62_partial (h : Reachable m) (hc : Shows m c) (l : L) (r : R) (hp : m.arePaired l r = false) :
    ∃ m', m.insert l r = .ok m' ∧ Shows m' (inserted c l r) := by
  rw [hc.arePaired] at hp
  obtain ⟨m', e, h', _⟩ := insert_refines (h.repr_of_shows hc) l r hp
  exact ⟨m', e, insert_eq_inserted c l r ▸ h'.shows⟩

/-- 1 moves from 10 to 20; 4 and 40 are new -/
example : ∃ m', demo.insert 1 20 = .ok m' ∧ Shows m' ⟨[30, 20, 10], [(1, 20), (3, 20), (2, 10)]⟩ :=
  C62_partial demo_reachable demo_shows 1 20 (by rw [demo_shows.arePaired]; rfl)
example : ∃ m', demo.insert 4 40 = .ok m' ∧ Shows m' ⟨[40, 30, 20, 10], [(4, 40), (3, 20), (2, 10), (1, 10)]⟩ :=
  C62_partial demo_reachable demo_shows 4 40 (by rw [demo_shows.arePaired]; rfl)

/-- What `insert` of a pair that is there does: it takes `l` out of the group of its right item, while `l` keeps
pointing at it.  So `get_right` and `iter_paired` show the old contents and `are_paired`, `get_left_iter`,
`is_right_paired`, `iter_unpaired`, `iter` the contents without `l`.  `remove_left(l)`, `insert_remove(l, _)` and
`insert(l, r')` with a new `r'` panic then; `pair(l, r')` with any stored `r'` repairs the map. -/
theorem C62_actual (h : Reachable m) (hc : Shows m c) (l : L) (r : R) (hp : m.arePaired l r = true) :
    ∃ m', m.insert l r = .ok m' ∧
      ShowsTorn m' c.rights c.pairs (c.pairs.filter fun p => !(l == p.1)) ∧
      (∃ es, m'.iterList = .ok es ∧ es.Perm (entries ⟨c.rights, c.pairs.filter fun p => !(l == p.1)⟩)) ∧
      m'.removeLeft l = .error .unwrapNone ∧
      (∀ r', m'.insertRemove l r' = .error .unwrapNone) ∧
      (∀ r', c.rights.any (r' == ·) = false → m'.insert l r' = .error .unwrapNone) ∧
      (∀ r', c.rights.any (r' == ·) = true →
        ∃ m'', m'.pair l r' = .ok (true, m'') ∧ Shows m'' (inserted c l r')) := by
  rw [hc.arePaired] at hp
  obtain ⟨m', x, ls, rs, e, ht, ha, hl, hn, _⟩ := insert_torn (h.repr_of_shows hc) hp
  have hB : (c.pairs.filter fun p => !(l == p.1)).Perm (ls.map fun x => (x.l, x.r)) := by
    refine (ha.pairs.filter _).trans ?_
    rw [List.map_append, List.filter_append, filter_eq_self_of]
    · simp [hl]
    · intro p hp
      obtain ⟨a, ham, rfl⟩ := List.mem_map.1 hp
      simpa using hn a ham
  have hrm : m'.removeLeft l = .error .unwrapNone := ht.removeLeft_panics hl hn
  refine ⟨m', e, ht.shows ha.rights ha.pairs (by simpa using hB), ?_, hrm, ?_, ?_, ?_⟩
  · exact ht.iterList ⟨ha.rights, hB⟩
  · intro r'
    simp only [insertRemove, hrm, bind, Except.bind]
  · intro r' hr
    refine ht.insert_panics hl hn fun a ha' => ?_
    rw [List.any_eq_false] at hr
    simpa using hr a.r (ha.rights.mem_iff.2 (List.mem_map.2 ⟨a, ha', rfl⟩))
  · intro r' hr
    have hr2 := hr
    rw [← List.isSome_find?, Option.isSome_iff_exists] at hr
    obtain ⟨b, hb⟩ := hr
    obtain ⟨m'', e2, h2⟩ := ht.pair_repairs ha hl hn (r := r') (b := b) hb
    refine ⟨m'', e2, ?_⟩
    have hf : ∃ p, findL c l = some p := by
      obtain ⟨p, h1, _⟩ := (hasPair_iff hc.sound).1 hp
      exact ⟨p, h1⟩
    obtain ⟨p, hf⟩ := hf
    have : (GroupSpec.pair c l r').2 = inserted c l r' := by
      have hb' : findR c r' = some b := hb
      have hf' : c.pairs.find? (l == ·.1) = some p := hf
      simp only [GroupSpec.pair, hf, hb', inserted, hr2, hf', hb, if_true, eraseL]
      rfl
    exact this ▸ h2.shows

/-- the second `insert(1, 10)`: afterwards `get_right(1)` is still 10, but 1 and 10 are not paired, and removing 1
panics -/
example : ∃ m', demo.insert 1 10 = .ok m' ∧ m'.getRight 1 = some 10 ∧ m'.arePaired 1 10 = false ∧
    m'.removeLeft 1 = .error .unwrapNone := by
  obtain ⟨m', e, s, _, h, _⟩ := C62_actual demo_reachable demo_shows 1 10 (by rw [demo_shows.arePaired]; rfl)
  exact ⟨m', e, by rw [s.getRight]; rfl, by rw [s.arePaired]; rfl, h⟩

omit [RawImpl] [LawfulRaw] in
/-- the witness: `insert(1, 10)` once more -/
theorem C62_false : ¬ C62_full := by
  intro h
  letI := messyRaw; haveI := messyRaw_lawful
  obtain ⟨m', e, s⟩ := h Nat Nat demo _ 1 10 demo_reachable demo_shows
  obtain ⟨m'', e', s', _⟩ := C62_actual demo_reachable demo_shows 1 10 (by rw [demo_shows.arePaired]; rfl)
  rw [e] at e'; cases e'
  have := (s.arePaired 1 10).symm.trans (s'.arePaired 1 10)
  revert this; decide

/-! ### C66: `swap_right` -/

/-- the pairs, with the right item of those equal to `old` replaced by `new` -/
def repaired (ps : List (L × R)) (old new : R) : List (L × R) :=
  ps.map fun p => if old == p.2 then (p.1, new) else p

/-- C66 in full: `new` is added (if it is not there yet), and all left items of `old` belong to it.  False, see
`C66_false`. -/
def C66_full : Prop :=
  ∀ [RawImpl] [LawfulRaw] (L R : Type) [BEq L] [BEq R] [EquivBEq L] [EquivBEq R] (m : GroupMap L R)
    (c : Contents L R) (old new : R), Reachable m → Shows m c → m.containsRight old = true →
    ∃ m', m.swapRight old new = .ok m' ∧
      (m.containsRight new = false → Shows m' ⟨new :: c.rights, repaired c.pairs old new⟩) ∧
      (m.containsRight new = true → m'.lenRight = c.rights.length)

theorem not_contains (hc : Shows m c) {r : R} : m.containsRight r = false ↔ findR c r = none := by
  rw [hc.containsRight, ← List.isSome_find?, Option.isSome_eq_false_iff, Option.isNone_iff_eq_none]; rfl

theorem contains (hc : Shows m c) {r : R} : m.containsRight r = true ↔ ∃ b, findR c r = some b := by
  rw [hc.containsRight, ← List.isSome_find?, Option.isSome_iff_exists]; rfl

/-- C66 holds if `old` has no left items and `new` is not there.  With `old` absent, `new` is inserted as by
`insert_right`.  Missing: the other cases, see `C66_actual`, `C66_duplicates`. -/
theorem C66_partial (h : Reachable m) (hc : Shows m c) (old new : R) :
    (m.containsRight old = true → m.isRightPaired old = false → m.containsRight new = false →
      ∃ m', m.swapRight old new = .ok m' ∧ Shows m' ⟨new :: c.rights, repaired c.pairs old new⟩) ∧
    (m.containsRight old = false → ∃ m', m.swapRight old new = .ok m' ∧
      Shows m' ⟨new :: c.rights.filter (fun b => !(new == b)), c.pairs.filter fun p => !(new == p.2)⟩) := by
  have h' := h.repr_of_shows hc
  constructor
  · intro h1 h2 h3
    rw [hc.isRightPaired] at h2
    obtain ⟨b, h1⟩ := (contains hc).1 h1
    obtain ⟨m', e, h', _⟩ := swapRight_refines h' old new (.inr ⟨h2, (not_contains hc).1 h3⟩)
    simp only [GroupSpec.swapRight, h1] at h'
    exact ⟨m', e, h'.shows⟩
  · intro h1
    rw [not_contains hc] at h1
    obtain ⟨m', e, h', _⟩ := swapRight_refines h' old new (.inl h1)
    simp only [GroupSpec.swapRight, h1] at h'
    exact ⟨m', e, h'.shows⟩

example : ∃ m', demo.swapRight 30 40 = .ok m' ∧ Shows m' ⟨[40, 30, 20, 10], [(3, 20), (2, 10), (1, 10)]⟩ :=
  (C66_partial demo_reachable demo_shows 30 40).1 (by rw [demo_shows.containsRight]; rfl)
    (by rw [demo_shows.isRightPaired]; rfl) (by rw [demo_shows.containsRight]; rfl)
example : ∃ m', demo.swapRight 40 10 = .ok m' ∧ Shows m' ⟨[10, 30, 20], [(3, 20)]⟩ :=
  (C66_partial demo_reachable demo_shows 40 10).2 (by rw [demo_shows.containsRight]; rfl)

/-- What happens with `new` absent: the left items get `new` in the tables of the right items, but keep the id of
`old`.  So `get_right` says `None` or `old` (it depends on the table: whether looking for `old`'s id under `new`'s
hash finds it), and `iter_paired` if it does not panic says `old`; everything that goes by the right items is right:
`StaleRun` are the histories of calls other than `get_right`, `iter`, `iter_paired`, `retain_paired`, `extend`, and
`insert` / `pair` of two stored items, and these histories go as documented. -/
theorem C66_actual (h : Reachable m) (hc : Shows m c) (old new b : R) (ho : c.rights.find? (old == ·) = some b)
    (hn : m.containsRight new = false) :
    ∃ m', m.swapRight old new = .ok m' ∧
      (∀ l, m.arePaired l old = true → (m'.getRight l = none ∨ m'.getRight l = some b) ∧
        ∀ ps, m'.iterPairedList = .ok ps → ∃ l', (l == l') = true ∧ (l', b) ∈ ps) ∧
      ∀ ops, StaleRun ⟨new :: c.rights, repaired c.pairs old new⟩ ops → ∃ os m'' c'', m'.run ops = .ok (os, m'') ∧
        Steps ⟨new :: c.rights, repaired c.pairs old new⟩ ops os c'' := by
  have h' := h.repr_of_shows hc
  have ho' : findR c old = some b := ho
  rw [not_contains hc] at hn
  obtain ⟨m', e, h2, _⟩ := swapRight_stale h' old new (.inr hn)
  refine ⟨m', e, fun l hl => ?_, fun ops hs => ?_⟩
  · rw [hc.arePaired] at hl
    exact swapRight_wrong h' ho' hn e hl
  · simp only [GroupSpec.swapRight, ho'] at h2
    obtain ⟨os, m'', c'', e, s, _⟩ := run_simulates_stale h2 hs
    exact ⟨os, m'', c'', e, s⟩

/-- a history after `swap_right(10, 40)` -/
example : StaleRun (⟨[40, 30, 20, 10], [(3, 20), (2, 40), (1, 40)]⟩ : Contents Nat Nat)
    [.arePaired 1 40, .arePaired 1 10, .getLeftIter 40, .isRightPaired 10, .iterUnpaired, .lenRight, .insert 1 50,
     .removeLeft 2, .insertLeft 3 40, .swapRightRemove 40 60, .removeRight 60] := by
  refine ⟨trivial, ?_⟩; rintro _ _ ⟨rfl, rfl⟩
  refine ⟨trivial, ?_⟩; rintro _ _ ⟨rfl, rfl⟩
  refine ⟨trivial, ?_⟩; rintro _ _ ⟨_, _, rfl, rfl⟩
  refine ⟨trivial, ?_⟩; rintro _ _ ⟨rfl, rfl⟩
  refine ⟨trivial, ?_⟩; rintro _ _ ⟨_, _, rfl, rfl⟩
  refine ⟨trivial, ?_⟩; rintro _ _ ⟨rfl, rfl⟩
  refine ⟨.inr rfl, ?_⟩; rintro _ _ ⟨rfl, rfl⟩
  refine ⟨trivial, ?_⟩; rintro _ _ ⟨rfl, rfl⟩
  refine ⟨trivial, ?_⟩; rintro _ _ ⟨rfl, rfl⟩
  refine ⟨.inr (.inl rfl), ?_⟩; rintro _ _ ⟨rfl, rfl⟩
  exact ⟨trivial, fun _ _ _ => trivial⟩

/-- If `new` is there already, the map has it twice afterwards. -/
theorem C66_duplicates (h : Reachable m) (hc : Shows m c) (old new : R) (ho : m.containsRight old = true) :
    ∃ m', m.swapRight old new = .ok m' ∧ m'.iterRight.Perm (new :: c.rights) ∧
      m'.lenRight = c.rights.length + 1 := by
  obtain ⟨b, ho⟩ := (contains hc).1 ho
  exact swapRight_duplicates (h.repr_of_shows hc) ho new

example : ∃ m', demo.swapRight 10 20 = .ok m' ∧ m'.iterRight.Perm [20, 30, 20, 10] ∧ m'.lenRight = 4 :=
  C66_duplicates demo_reachable demo_shows 10 20 (by rw [demo_shows.containsRight]; rfl)

omit [RawImpl] [LawfulRaw] in
/-- the witness: `swap_right(10, 40)`; afterwards `get_right(1)` is not 40 -/
theorem C66_false : ¬ C66_full := by
  intro h
  letI := messyRaw; haveI := messyRaw_lawful
  obtain ⟨m', e, s, _⟩ := h Nat Nat demo _ 10 40 demo_reachable demo_shows (by rw [demo_shows.containsRight]; rfl)
  have s := s (by rw [demo_shows.containsRight]; rfl)
  obtain ⟨m'', e', s', _⟩ := C66_actual demo_reachable demo_shows 10 40 10 rfl (by rw [demo_shows.containsRight]; rfl)
  rw [e] at e'; cases e'
  have h1 := (s' 1 (by rw [demo_shows.arePaired]; rfl)).1
  rw [s.getRight] at h1
  revert h1; decide

/-! ### C67: `swap_right_remove` -/

/-- C67 in full: `new` takes the place of `old`.  False, see `C67_false`. -/
def C67_full : Prop :=
  ∀ [RawImpl] [LawfulRaw] (L R : Type) [BEq L] [BEq R] [EquivBEq L] [EquivBEq R] (m : GroupMap L R)
    (c : Contents L R) (old new b : R), Reachable m → Shows m c → c.rights.find? (old == ·) = some b →
    m.containsRight new = false ∨ (old == new) = true →
    ∃ m', m.swapRightRemove old new = .ok (some b, m') ∧
      Shows m' ⟨new :: c.rights.filter (fun b => !(old == b)), repaired c.pairs old new⟩

/-- C67 holds if `old` has no left items.  With `old` absent, `new` is inserted as by `insert_right`.  Missing:
`old` with left items, see `C67_actual`. -/
theorem C67_partial (h : Reachable m) (hc : Shows m c) (old new : R) :
    (∀ b, c.rights.find? (old == ·) = some b → m.containsRight new = false ∨ (old == new) = true →
      m.isRightPaired old = false → ∃ m', m.swapRightRemove old new = .ok (some b, m') ∧
        Shows m' ⟨new :: c.rights.filter (fun b => !(old == b)), repaired c.pairs old new⟩) ∧
    (m.containsRight old = false → ∃ m', m.swapRightRemove old new = .ok (none, m') ∧
      Shows m' ⟨new :: c.rights.filter (fun b => !(new == b)), c.pairs.filter fun p => !(new == p.2)⟩) := by
  have h' := h.repr_of_shows hc
  constructor
  · intro b h1 h2 h3
    rw [hc.isRightPaired] at h3
    rw [not_contains hc] at h2
    have h1 : findR c old = some b := h1
    obtain ⟨m', e, h', _⟩ := swapRightRemove_refines h' old new (.inr ⟨h3, h2⟩)
    simp only [GroupSpec.swapRightRemove, h1] at e h'
    exact ⟨m', e, h'.shows⟩
  · intro h1
    rw [not_contains hc] at h1
    obtain ⟨m', e, h', _⟩ := swapRightRemove_refines h' old new (.inl h1)
    simp only [GroupSpec.swapRightRemove, h1] at e h'
    exact ⟨m', e, h'.shows⟩

example : ∃ m', demo.swapRightRemove 30 40 = .ok (some 30, m') ∧
    Shows m' ⟨[40, 20, 10], [(3, 20), (2, 10), (1, 10)]⟩ :=
  (C67_partial demo_reachable demo_shows 30 40).1 30 rfl (.inl (by rw [demo_shows.containsRight]; rfl))
    (by rw [demo_shows.isRightPaired]; rfl)

/-- What happens if `old` has left items: the call itself returns `old`, and everything that goes by the right items
is right (`StaleRun`, as in `C66_actual`).  But `get_right` of every left item of `old` is `None`; `insert` and
`pair` of such an item with a stored right item panic; so does `iter_paired`, and `iter` if there are two of them. -/
theorem C67_actual (h : Reachable m) (hc : Shows m c) (old new b : R) (ho : c.rights.find? (old == ·) = some b)
    (hn : m.containsRight new = false ∨ (old == new) = true) :
    ∃ m', m.swapRightRemove old new = .ok (some b, m') ∧
      (∀ l, m.arePaired l old = true → m'.getRight l = none ∧
        ∀ r, m'.containsRight r = true → m'.insert l r = .error .unwrapNone ∧ m'.pair l r = .error .unwrapNone) ∧
      (m.isRightPaired old = true → m'.iterPairedList = .error .unwrapNone) ∧
      (2 ≤ (c.pairs.filter (old == ·.2)).length → m'.iterList = .error .unwrapNone) ∧
      ∀ ops, StaleRun ⟨new :: c.rights.filter (fun b => !(old == b)), repaired c.pairs old new⟩ ops →
        ∃ os m'' c'', m'.run ops = .ok (os, m'') ∧
          Steps ⟨new :: c.rights.filter (fun b => !(old == b)), repaired c.pairs old new⟩ ops os c'' := by
  have h' := h.repr_of_shows hc
  have ho' : findR c old = some b := ho
  rw [not_contains hc] at hn
  obtain ⟨m', e, h2, _⟩ := swapRightRemove_stale h' old new (.inr hn)
  obtain ⟨w1, w2, w3⟩ := swapRightRemove_wrong h' ho' hn e
  simp only [GroupSpec.swapRightRemove, ho'] at e h2
  refine ⟨m', e, fun l hl => ?_, fun hg => ?_, fun hg => ?_, fun ops hs => ?_⟩
  · rw [hc.arePaired] at hl
    exact w1 l hl
  · rw [hc.isRightPaired] at hg
    exact w2 hg
  · exact w3 (by rw [group, List.length_map]; exact hg)
  · obtain ⟨os, m'', c'', e, s, _⟩ := run_simulates_stale h2 hs
    exact ⟨os, m'', c'', e, s⟩

example : ∃ m', demo.swapRightRemove 10 40 = .ok (some 10, m') ∧ m'.getRight 1 = none ∧
    m'.iterPairedList = .error .unwrapNone ∧ m'.iterList = .error .unwrapNone := by
  obtain ⟨m', e, h1, h2, h3, _⟩ := C67_actual demo_reachable demo_shows 10 40 10 rfl
    (.inl (by rw [demo_shows.containsRight]; rfl))
  exact ⟨m', e, (h1 1 (by rw [demo_shows.arePaired]; rfl)).1, h2 (by rw [demo_shows.isRightPaired]; rfl), h3 (by decide)⟩

omit [RawImpl] [LawfulRaw] in
/-- the witness: `swap_right_remove(10, 40)`; afterwards `get_right(1)` is not 40 -/
theorem C67_false : ¬ C67_full := by
  intro h
  letI := messyRaw; haveI := messyRaw_lawful
  have hn : demo.containsRight 40 = false := by rw [demo_shows.containsRight]; rfl
  obtain ⟨m', e, s⟩ := h Nat Nat demo _ 10 40 10 demo_reachable demo_shows rfl (.inl hn)
  obtain ⟨m'', e', s', _⟩ := C67_actual demo_reachable demo_shows 10 40 10 rfl (.inl hn)
  rw [e] at e'; cases e'
  have h1 := (s' 1 (by rw [demo_shows.arePaired]; rfl)).1
  rw [s.getRight] at h1
  revert h1; decide

/-! ### C74: `retain_paired` -/

/-- C74 in full, for a closure `f` without side effects.  False, see `C74_false`. -/
def C74_full : Prop :=
  ∀ [RawImpl] [LawfulRaw] (L R : Type) [BEq L] [BEq R] [EquivBEq L] [EquivBEq R] (m : GroupMap L R)
    (c : Contents L R) (f : L → R → Bool), Reachable m → Shows m c →
    ∃ m', m.retainPaired (fun _ l r => (f l r, ())) () = .ok ((), m') ∧
      Shows m' ⟨c.rights, c.pairs.filter fun p => f p.1 p.2⟩

/-- C74, what holds: `retain_paired` does not panic, shows every pair to the closure once, and if the closure
rejects everything, the map is coherent afterwards (but nothing was dropped).  Missing: the closure is inverted, and
the map is broken if anything is dropped, see `C74_actual`. -/
theorem C74_partial {σ : Type} (h : Reachable m) (hc : Shows m c) (f : σ → L → R → Bool × σ) (s : σ) :
    (∃ (d : List (L × R)) (m' : GroupMap L R), d.Perm c.pairs ∧
      m.retainPaired f s = .ok ((split (fun s p => f s p.1 p.2) d s).2.2, m')) ∧
    ((∀ p ∈ c.pairs, ∀ s, (f s p.1 p.2).1 = false) → ∃ s' m', m.retainPaired f s = .ok (s', m') ∧ Shows m' c) := by
  have h := h.repr_of_shows hc
  constructor
  · obtain ⟨d, m', hd, e, _⟩ := retainPaired_torn h f s
    exact ⟨d, m', hd, e⟩
  · intro hf
    obtain ⟨d, m', _, e, h', _⟩ := retainPaired_refines h f s hf
    exact ⟨_, m', e, h'.shows⟩

example : ∃ s' m', demo.retainPaired (fun s l r => (l == r, s + 1)) 0 = .ok (s', m') ∧ Shows m' demoC :=
  (C74_partial demo_reachable demo_shows _ 0).2 (by simp [demoC])

/-- What happens: the closure sees every pair once, in some order `d`, its state threaded through.  The left items
of the pairs it *accepts* are dropped; those of the others stay.  The right items keep their groups, which now
contain left items that are gone: `get_left_iter` and `remove_right` of such a right item panic. -/
theorem C74_actual {σ : Type} (h : Reachable m) (hc : Shows m c) (f : σ → L → R → Bool × σ) (s : σ) :
    ∃ (d acc rej : List (L × R)) (s' : σ) (m' : GroupMap L R), d.Perm c.pairs ∧
      split (fun s p => f s p.1 p.2) d s = (acc, rej, s') ∧ m.retainPaired f s = .ok (s', m') ∧
      ShowsTorn m' c.rights rej c.pairs ∧
      ∀ r p, p ∈ acc → (r == p.2) = true →
        m'.getLeftList r = .error .unwrapNone ∧ m'.removeRight r = .error .unwrapNone := by
  obtain ⟨d, m', hd, e, hs, hr, _⟩ := retainPaired_torn (h.repr_of_shows hc) f s
  have hsp := split_perm (fun s (p : L × R) => f s p.1 p.2) d s
  refine ⟨d, _, _, _, m', hd, rfl, e, hs, fun r p hp hrp => ⟨?_, hr r p hp hrp⟩⟩
  have hmem : p ∈ c.pairs := hd.mem_iff.1 (hsp.mem_iff.1 (List.mem_append_left _ hp))
  refine hs.getLeftPanics r p hmem hrp ?_
  rw [List.any_eq_false]
  intro q hq hpq
  have hw : ((split (fun s (p : L × R) => f s p.1 p.2) d s).1 ++ (split (fun s (p : L × R) => f s p.1 p.2) d s).2.1).Pairwise
      fun p q : L × R => (p.1 == q.1) = false :=
    ((hsp.trans hd).pairwise_iff fun {a b} h => by rw [BEq.comm]; exact h).2 hc.sound.lefts
  have := (List.pairwise_append.1 hw).2.2 p hp q hq
  rw [this] at hpq; cases hpq

/-- C74, for a closure whose answers do not depend on its state: it drops exactly the left items of the pairs that
make the closure return `true`. -/
theorem C74_actual_pure {σ : Type} (h : Reachable m) (hc : Shows m c) (f : σ → L → R → Bool × σ) (s : σ)
    (g : L → R → Bool) (hg : ∀ s l r, (f s l r).1 = g l r) :
    ∃ s' m', m.retainPaired f s = .ok (s', m') ∧
      ShowsTorn m' c.rights (c.pairs.filter fun p => !g p.1 p.2) c.pairs ∧
      ∀ l r, m'.arePaired l r = (c.pairs.filter fun p => !g p.1 p.2).any fun p => l == p.1 && r == p.2 := by
  obtain ⟨d, acc, rej, s', m', hd, hs, e, ht, _⟩ := C74_actual h hc f s
  have hsp := CycleSpec.split_pure (f := fun s (p : L × R) => f s p.1 p.2) (g := fun p => g p.1 p.2) (fun s p => hg s p.1 p.2) d s
  rw [hs] at hsp
  obtain ⟨-, rfl⟩ : _ ∧ rej = _ := hsp
  have hp := hd.filter fun p => !g p.1 p.2
  have ha : (d.filter fun p => !g p.1 p.2).Pairwise fun p q => (p.1 == q.1) = false :=
    ((hd.pairwise_iff fun {a b} h => by rw [BEq.comm]; exact h).2 hc.sound.lefts).filter _
  refine ⟨s', m', e, ht.permA hp ha, fun l r => ?_⟩
  rw [ht.arePaired, any_eq_of_perm hp]
  rw [Bool.eq_iff_iff, Bool.and_eq_true, and_iff_left_iff_imp]
  intro ha
  rw [List.any_eq_true] at ha ⊢
  obtain ⟨p, hp, ha⟩ := ha
  exact ⟨p, (List.mem_filter.1 hp).1, ha⟩

/-- "retain" the pairs of 10: they are the ones that go, and asking 10 for its left items panics -/
example : ∃ m', demo.retainPaired (fun _ _ r => (r == 10, ())) () = .ok ((), m') ∧
    (∃ ps, m'.iterPairedList = .ok ps ∧ ps.Perm [(3, 20)]) ∧ m'.arePaired 1 10 = false := by
  obtain ⟨_, m', e, h1, h2⟩ := C74_actual_pure demo_reachable demo_shows (fun _ _ r => (r == 10, ())) ()
    (fun _ r => r == 10) (fun _ _ _ => rfl)
  exact ⟨m', e, h1.iterPaired, by rw [h2]; rfl⟩

omit [RawImpl] [LawfulRaw] in
/-- the witness: keep the pairs of 10 -/
theorem C74_false : ¬ C74_full := by
  intro h
  letI := messyRaw; haveI := messyRaw_lawful
  obtain ⟨m', e, s⟩ := h Nat Nat demo _ (fun _ r => r == 10) demo_reachable demo_shows
  obtain ⟨_, m'', e', s', _⟩ := C74_actual_pure demo_reachable demo_shows (fun _ _ r => (r == 10, ())) ()
    (fun _ r => r == 10) (fun _ _ _ => rfl)
  rw [e] at e'; cases e'
  obtain ⟨ps, e1, p1⟩ := s'.iterPaired
  obtain ⟨qs, e2, p2⟩ := s.iterPaired
  rw [e1] at e2; cases e2
  have := p1.length_eq.symm.trans p2.length_eq
  revert this; decide

/-! ### C75: `retain_unpaired` -/

/-- C75 in full, for a closure `f` without side effects.  False, see `C75_false`. -/
def C75_full : Prop :=
  ∀ [RawImpl] [LawfulRaw] (L R : Type) [BEq L] [BEq R] [EquivBEq L] [EquivBEq R] (m : GroupMap L R)
    (c : Contents L R) (f : R → Bool), Reachable m → Shows m c →
    ∃ m', m.retainUnpaired (fun _ r => (f r, ())) () = .ok ((), m') ∧
      Shows m' ⟨c.rights.filter (fun r => c.pairs.any (r == ·.2) || f r), c.pairs⟩

/-- What happens: the closure sees every lone right item once, in some order `d`, its state threaded through.  The
right items it *accepts* are dropped; the others stay, and so do the right items with left items, and all pairs. -/
theorem C75_actual {σ : Type} (h : Reachable m) (hc : Shows m c) (f : σ → R → Bool × σ) (s : σ) :
    ∃ (d acc rej : List R) (s' : σ) (m' : GroupMap L R),
      d.Perm (c.rights.filter fun r => !c.pairs.any (r == ·.2)) ∧ split f d s = (acc, rej, s') ∧
      m.retainUnpaired f s = .ok (s', m') ∧
      Shows m' ⟨rej ++ c.rights.filter (fun r => c.pairs.any (r == ·.2)), c.pairs⟩ := by
  obtain ⟨d, m', hd, e, h', _⟩ := retainUnpaired_refines (h.repr_of_shows hc) f s
  exact ⟨d, _, _, _, m', hd, rfl, e, h'.shows⟩

/-- C75, for a closure whose answers do not depend on its state: it drops exactly the lone right items that make the
closure return `true`. -/
theorem C75_actual_pure {σ : Type} (h : Reachable m) (hc : Shows m c) (f : σ → R → Bool × σ) (s : σ) (g : R → Bool)
    (hg : ∀ s r, (f s r).1 = g r) : ∃ s' m', m.retainUnpaired f s = .ok (s', m') ∧
      Shows m' ⟨c.rights.filter (fun r => c.pairs.any (r == ·.2) || !g r), c.pairs⟩ := by
  obtain ⟨d, m', hd, e, h', _⟩ := retainUnpaired_refines (h.repr_of_shows hc) f s
  refine ⟨_, m', e, (h'.same (d := ⟨c.rights.filter (fun r => c.pairs.any (r == ·.2) || !g r), c.pairs⟩) ⟨?_, .refl _⟩).shows⟩
  rw [(CycleSpec.split_pure hg d s).2]
  refine ((hd.filter _).append_right _).trans ?_
  have := List.filter_append_perm (fun r => !c.pairs.any (r == ·.2)) (c.rights.filter fun r => c.pairs.any (r == ·.2) || !g r)
  refine .trans ?_ this
  rw [lone, List.filter_filter, List.filter_filter, List.filter_filter]
  refine .of_eq (congr (congrArg _ ?_) ?_)
  · refine List.filter_congr fun r _ => ?_
    rw [hasGroup]; cases c.pairs.any (r == ·.2) <;> simp
  · refine List.filter_congr fun r _ => ?_
    rw [hasGroup]; cases c.pairs.any (r == ·.2) <;> simp

/-- "retain" 30: it is the one that goes -/
example : ∃ s' m', demo.retainUnpaired (fun n r => (r == 30, n + 1)) 0 = .ok (s', m') ∧
    Shows m' ⟨[20, 10], [(3, 20), (2, 10), (1, 10)]⟩ :=
  C75_actual_pure demo_reachable demo_shows _ 0 (fun r => r == 30) (fun _ _ => rfl)

/-- C75 holds if there are no lone right items.  Missing: with lone right items, what it does is the opposite, see
`C75_actual`. -/
theorem C75_partial {σ : Type} (h : Reachable m) (hc : Shows m c) (f : σ → R → Bool × σ) (s : σ)
    (hl : ∀ r ∈ c.rights, c.pairs.any (r == ·.2) = true) :
    ∃ m', m.retainUnpaired f s = .ok (s, m') ∧ Shows m' c := by
  obtain ⟨d, acc, rej, s', m', hd, hs, e, h'⟩ := C75_actual h hc f s
  rw [List.filter_eq_nil_iff.2 fun r hr => by rw [hl r hr]; simp] at hd
  obtain rfl := hd.eq_nil
  cases hs
  rw [List.nil_append, List.filter_eq_self.2 hl] at h'
  exact ⟨m', e, h'⟩

example : ∃ o m' m'', demo.removeRight 30 = .ok (o, m') ∧
    m'.retainUnpaired (fun n r => (r == 10, n + 1)) 0 = .ok (0, m'') ∧
    Shows m'' ⟨[20, 10], [(3, 20), (2, 10), (1, 10)]⟩ := by
  obtain ⟨o, m', e, _, h⟩ := C70_remove_right demo_reachable demo_shows 30
  have hm : Reachable m' := .step (op := .removeRight 30) (o := .group o) demo_reachable trivial
    (by simp only [exec, e, bind, Except.bind, pure, Except.pure])
  obtain ⟨m'', e', h'⟩ := C75_partial hm h (fun n r => (r == 10, n + 1)) 0 (by decide)
  exact ⟨o, m', m'', e, e', h'⟩

omit [RawImpl] [LawfulRaw] in
/-- the witness: keep 30 -/
theorem C75_false : ¬ C75_full := by
  intro h
  letI := messyRaw; haveI := messyRaw_lawful
  obtain ⟨m', e, s⟩ := h Nat Nat demo _ (fun r => r == 30) demo_reachable demo_shows
  obtain ⟨_, m'', e', s'⟩ := C75_actual_pure demo_reachable demo_shows (fun _ r => (r == 30, ())) ()
    (fun r => r == 30) (fun _ _ => rfl)
  rw [e] at e'; cases e'
  have := s.lenRight.symm.trans s'.lenRight
  revert this; decide

end Verif.GroupMap
