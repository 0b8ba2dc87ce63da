import Verif.GroupMap.Repair
import Verif.Props.GroupTraits
import Verif.Props.RepairPartial
/-! Property C135: small changes to the code of `GroupMap` after which the documentation is true. -/
set_option linter.unusedSectionVars false
set_option linter.unusedSimpArgs false
namespace Verif.GroupMap
open GroupSpec Demo
open CycleSpec (split)
open CycleMap (Ending)
open PartialMap (split_not sub_back)

variable [RawImpl] [LawfulRaw] {L R τ : Type} [BEq L] [BEq R] [EquivBEq L] [EquivBEq R]
variable {m : GroupMap L R} {c : Contents L R} {ls : List (LRec L R)} {rs : List (RRec R)} {y : RRec R}

/-! ### insert -/

/-- in a list whose elements are apart, the one that `q` holds of can be put first -/
theorem apart_front {α β : Type} [BEq β] [EquivBEq β] {f : α → β} {xs : List α}
    (h : xs.Pairwise fun a b => (f a == f b) = false) {a : α} (ha : a ∈ xs) {b : β} (hb : (b == f a) = true) :
    xs.Perm (a :: xs.filter fun x => !(b == f x)) ∧ xs.find? (fun x => b == f x) = some a := by
  induction xs with
  | nil => cases ha
  | cons x xs ih =>
    obtain ⟨h1, h2⟩ := List.pairwise_cons.1 h
    rcases List.mem_cons.1 ha with rfl | ha
    · refine ⟨?_, by simp [hb]⟩
      rw [List.filter_cons, hb, List.filter_eq_self.2 fun x hx => ?_]
      · simp
      · rw [BEq.congr_left hb, h1 x hx]; rfl
    · obtain ⟨p, e⟩ := ih h2 ha
      have hx : (b == f x) = false := by rw [BEq.congr_left hb, BEq.comm]; exact h1 a ha
      refine ⟨?_, by rw [List.find?_cons, hx, e]⟩
      rw [List.filter_cons, hx]
      exact (p.cons x).trans (.swap _ _ _)

theorem insert_repair (hr : Repr m c) (l : L) (r : R) : ∃ m', Repair.insert m l r = .ok m' ∧ Repr m' (inserted c l r) := by
  have hc := hr.shows
  rw [Repair.insert, hc.arePaired]
  cases hp : hasPair c l r with
  | false =>
    obtain ⟨m', e, h', -⟩ := insert_refines hr l r hp
    exact ⟨m', by simpa [hasPair] using e, insert_eq_inserted c l r ▸ h'⟩
  | true =>
    obtain ⟨p, hm, hpp⟩ := List.any_eq_true.1 hp
    obtain ⟨h1, h2⟩ := Bool.and_eq_true_iff.1 hpp
    have ho := hc.sound.owned p hm
    have hL := apart_front hc.sound.lefts (f := Prod.fst) hm h1
    refine ⟨m, rfl, ReprG.same hr ⟨?_, ?_⟩⟩
    · rw [inserted, if_pos (List.any_eq_true.2 ⟨p.2, ho, h2⟩)]
    · have hR : c.rights.find? (r == ·) = some p.2 := (apart_front hc.sound.rights (f := id) ho h2).2
      rw [inserted, hR, hL.2]
      exact hL.1

/-- C135, for C62: with the check at the start, `insert` always leaves a map in which `l` belongs to `r`, and to no other. -/
theorem C135_insert (h : Reachable m) (hc : Shows m c) (l : L) (r : R) :
    ∃ m', Repair.insert m l r = .ok m' ∧ UsableAs m' (inserted c l r) := by
  obtain ⟨m', e, h'⟩ := insert_repair (h.repr_of_shows hc) l r
  exact ⟨m', e, Repr.usable h'⟩

/-- the pair is there already: nothing happens; 4 and 40 are new -/
example : ∃ m', Repair.insert demo 1 10 = .ok m' ∧ Shows m' ⟨[30, 20, 10], [(1, 10), (3, 20), (2, 10)]⟩ := by
  obtain ⟨m', e, h⟩ := C135_insert demo_reachable demo_shows 1 10
  exact ⟨m', e, h.1⟩
example : ∃ m', Repair.insert demo 4 40 = .ok m' ∧ Shows m' ⟨[40, 30, 20, 10], [(4, 40), (3, 20), (2, 10), (1, 10)]⟩ := by
  obtain ⟨m', e, h⟩ := C135_insert demo_reachable demo_shows 4 40
  exact ⟨m', e, h.1⟩

/-! ### swap_right and swap_right_remove -/

/-- with the right id that goes with its owner -/
def renewed (x : LRec L R) : LRec L R := { x with rid := x.own }

theorem renewed_fresh (hf : Fresh ls) : ls.map renewed = ls := by
  rw [List.map_congr_left (g := id) fun x hx => by
    have := hf x hx
    cases x
    simp only at this
    rw [renewed, this]; rfl, List.map_id]

theorem WF.renewed {hb : BuildHasher L R} {lc rc : Nat} (h : WF hb lc rc ls rs) : WF hb lc rc (ls.map renewed) rs where
  apartL := List.pairwise_map.2 (h.apartL.imp fun h => h)
  apartR := h.apartR
  boundL := by
    intro x hx
    obtain ⟨a, ha, rfl⟩ := List.mem_map.1 hx
    exact h.boundL a ha
  boundR := h.boundR
  owner := by
    intro x hx
    obtain ⟨a, ha, rfl⟩ := List.mem_map.1 hx
    exact h.owner a ha
  pairs := by
    intro y hy
    refine (h.pairs y hy).trans (.of_eq ?_)
    rw [mine, mine, List.filter_map, List.map_map]
    rfl

theorem renewed_rel (hf : Fresh ls) (new : R) (i : Nat) (qs : List (LRec L R)) (j : Nat) :
    (qs.map (moved new i) ++ ls.filter fun x => !(x.own == j)).map renewed =
      (qs.map fun x => renewed (moved new i x)) ++ ls.filter fun x => !(x.own == j) := by
  rw [List.map_append, List.map_map, renewed_fresh fun x hx => hf x (List.mem_filter.1 hx).1]
  rfl

theorem rehashAll_repair {hb : BuildHasher L R} (new : R) (i : Nat) (xs ls : List (LRec L R)) (t : RawTable (LeftItem L))
    (ht : t.entries.Perm ((xs ++ ls).map (toL hb))) (ha : (xs ++ ls).Pairwise ApartL) :
    ∃ t', Repair.rehashAll (hb.hr new) i t (xs.map (key hb)) = .ok t' ∧
      t'.entries.Perm (((xs.map fun x => renewed (moved new i x)) ++ ls).map (toL hb)) := by
  induction xs generalizing t ls with
  | nil => exact ⟨t, rfl, ht⟩
  | cons x xs ih =>
    rw [List.cons_append] at ha
    have h2 := List.pairwise_cons.1 ha
    obtain ⟨w, e1, p1⟩ := getMutL_id (hb := hb) (x := x) (ls := xs ++ ls) (by simpa using ht) fun a ha => (h2.1 a ha).1.symm
    have hm : (xs ++ renewed (moved new i x) :: ls).Perm (renewed (moved new i x) :: (xs ++ ls)) := List.perm_middle
    obtain ⟨t2, e2, p2⟩ := ih (renewed (moved new i x) :: ls) (w { (toL hb x).2 with hash := hb.hr new, rid := i })
      ((p1 _).trans ((hm.map (toL hb)).symm))
      ((hm.pairwise_iff (fun h => h.symm)).2 (List.pairwise_cons.2 ⟨fun a ha => h2.1 a ha, h2.2⟩))
    refine ⟨t2, ?_, ?_⟩
    · simp only [List.map_cons, Repair.rehashAll, key] at e2 ⊢
      simp only [e1]
      exact e2
    · refine p2.trans (List.Perm.map _ ?_)
      rw [List.map_cons, List.cons_append]
      exact List.perm_middle

/-- `old` is there and `new` is not -/
theorem swapRightIds_some (h : Repr m c) {old b : R} (ho : findR c old = some b) {new : R} (hnew : findR c new = none) :
    ∃ m', Repair.swapRightIds m old new = .ok m' ∧ Repr m' ⟨new :: c.rights, moveAll c old new⟩ := by
  obtain ⟨ls, rs, h, hf, ha⟩ := h
  have hf := hf trivial
  rcases h.wf.casesR old with hn | ⟨y, rs', hq, hr, hn⟩
  · rw [ha.findR_none hn] at ho; cases ho
  have h := h.perm (.refl _) hq
  have ha := ha.perm (.refl _) hq
  obtain ⟨w, e, p⟩ := getMutR_eq h.consR hr (h.wf.othersR hr)
  obtain ⟨qs, hqs, e1⟩ := perm_map_inv ((PairSet.collect_perm y.pairs).trans (h.wf.pairs y List.mem_cons_self))
  have hp := mine_perm hqs.symm
  obtain ⟨t1, e2, p1⟩ := rehashAll_repair (hb := m.hb) new m.rightCounter qs _ m.left (h.left.trans (hp.map _))
    ((hp.pairwise_iff (fun h => h.symm)).1 h.wf.apartL)
  have hw := (swapRight_wf h.wf (newR ha hnew) hqs.symm e1 (RawTable.clear_entries y.pairs)).renewed
  refine ⟨_, by simp only [Repair.swapRightIds, e, toR, e1, e2, bind, Except.bind, pure, Except.pure]; rfl,
    ⟨_, _, ⟨?_, ?_, hw⟩, fun _ x hx => ?_, ?_⟩⟩
  · rw [renewed_rel hf]; exact p1
  · exact (RawTable.insert_perm _ _ _ (hashesR (rs := ⟨y.r, y.id, y.pairs.clear⟩ :: rs') (p _))).trans ((p _).cons _)
  · obtain ⟨a, -, rfl⟩ := List.mem_map.1 hx; rfl
  · refine ⟨ha.rights.cons _, (moveAll_perm h.wf ha hr new hqs.symm).trans (.of_eq ?_)⟩
    rw [List.map_map]; rfl

theorem swapRightIds_none (h : Repr m c) {old : R} (ho : findR c old = none) (new : R) :
    ∃ m', Repair.swapRightIds m old new = .ok m' ∧ Repr m' ⟨new :: (eraseR c new).rights, (eraseR c new).pairs⟩ := by
  obtain ⟨o, m', e, -, h', -⟩ := insertRight_refines h new
  have hg : m.right.getMut (m.hb.hr old) (equivalentKeyRight old) = none := by
    obtain ⟨ls, rs, h, hf, ha⟩ := h
    refine RawTable.getMut_none (h.noneR (keysR fun y hy => ?_))
    rw [findR, List.find?_eq_none] at ho
    simpa using ho y.r (ha.rights.mem_iff.2 (List.mem_map.2 ⟨y, hy, rfl⟩))
  exact ⟨m', by simp only [Repair.swapRightIds, hg, e, bind, Except.bind, pure, Except.pure], h'⟩

/-- `old` is there, and `new` is not there or equal to it -/
theorem swapRightRemoveIds_some (h : Repr m c) {old b : R} (ho : findR c old = some b) {new : R}
    (hnew : findR c new = none ∨ (old == new) = true) :
    ∃ m', Repair.swapRightRemoveIds m old new = .ok (some b, m') ∧ Repr m' ⟨new :: (eraseR c old).rights, moveAll c old new⟩ := by
  obtain ⟨ls, rs, h, hf, ha⟩ := h
  have hf := hf trivial
  rcases h.wf.casesR old with hn | ⟨y, rs', hq, hr, hn⟩
  · rw [ha.findR_none hn] at ho; cases ho
  have h := h.perm (.refl _) hq
  have ha := ha.perm (.refl _) hq
  have hb : y.r = b := by rw [ha.findR_some hr hn] at ho; exact Option.some.inj ho
  have hn' : ∀ a ∈ rs', (new == a.r) = false := by
    intro a hm
    rcases hnew with hnew | hnew
    · exact newR ha hnew a (List.mem_cons_of_mem _ hm)
    · rw [← BEq.congr_left hnew]; exact hn a hm
  obtain ⟨t, e, p⟩ := removeR_eq h.consR hr (h.wf.othersR hr)
  obtain ⟨qs, hqs, e1⟩ := perm_map_inv ((PairSet.collect_perm y.pairs).trans (h.wf.pairs y List.mem_cons_self))
  have hp := mine_perm hqs.symm
  obtain ⟨t1, e2, p1⟩ := rehashAll_repair (hb := m.hb) new m.rightCounter qs _ m.left (h.left.trans (hp.map _))
    ((hp.pairwise_iff (fun h => h.symm)).1 h.wf.apartL)
  have hw := (swapRightRemove_wf h.wf hn' hqs.symm e1).renewed
  refine ⟨_, by simp only [Repair.swapRightRemoveIds, e, toR, e1, e2, hb, bind, Except.bind, pure, Except.pure]; rfl,
    ⟨_, _, ⟨?_, ?_, hw⟩, fun _ x hx => ?_, ?_⟩⟩
  · rw [renewed_rel hf]; exact p1
  · exact (RawTable.insert_perm _ _ _ (hashesR p)).trans (p.cons _)
  · obtain ⟨a, -, rfl⟩ := List.mem_map.1 hx; rfl
  · refine ⟨(ha.eraseR_some h.wf hr hn).rights.cons _, (moveAll_perm h.wf ha hr new hqs.symm).trans (.of_eq ?_)⟩
    rw [List.map_map]; rfl

theorem swapRightRemoveIds_none (h : Repr m c) {old : R} (ho : findR c old = none) (new : R) :
    ∃ m', Repair.swapRightRemoveIds m old new = .ok (none, m') ∧ Repr m' ⟨new :: (eraseR c new).rights, (eraseR c new).pairs⟩ := by
  obtain ⟨o, m', e, -, h', -⟩ := insertRight_refines h new
  have hg : m.right.removeEntry (m.hb.hr old) (equivalentKeyRight old) = none := by
    obtain ⟨ls, rs, h, hf, ha⟩ := h
    refine RawTable.removeEntry_none (h.noneR (keysR fun y hy => ?_))
    rw [findR, List.find?_eq_none] at ho
    simpa using ho y.r (ha.rights.mem_iff.2 (List.mem_map.2 ⟨y, hy, rfl⟩))
  exact ⟨m', by simp only [Repair.swapRightRemoveIds, hg, e, bind, Except.bind, pure, Except.pure], h'⟩

theorem findR_erased (c : Contents L R) (r : R) : findR (eraseR c r) r = none := by
  rw [findR, eraseR, List.find?_eq_none]
  intro x hx
  simpa using (List.mem_filter.1 hx).2

theorem findR_erased_other (c : Contents L R) {r s : R} (h : (s == r) = false) : findR (eraseR c r) s = findR c s := by
  rw [findR, findR, eraseR, List.find?_filter]
  refine congrArg (fun p => List.find? p c.rights) (funext fun x => ?_)
  cases hx : s == x with
  | false => simp
  | true => rw [show (r == x) = false by rw [BEq.comm, ← BEq.congr_left hx]; exact h]; rfl

theorem erased_twice (c : Contents L R) (r : R) : eraseR (eraseR c r) r = eraseR c r := by
  simp only [eraseR, List.filter_filter, Bool.and_self]

/-- C135, for C66: with the ids updated and `new` taken out first, `swap_right` always leaves a map that goes on working: if `old` is there, all
its left items belong to `new` then, and what belonged to `new` is gone, as with `insert_right`.  If `old` and `new` are equal and there, nothing
happens; if `old` is not there, `new` is inserted as with `insert_right`. -/
theorem C135_swap_right (h : Reachable m) (hc : Shows m c) (old new : R) :
    (m.containsRight old = true → (old == new) = true → Repair.swapRight m old new = .ok m) ∧
    (m.containsRight old = true → (old == new) = false → ∃ m', Repair.swapRight m old new = .ok m' ∧
      UsableAs m' ⟨new :: c.rights.filter (fun b => !(new == b)), repaired (c.pairs.filter fun p => !(new == p.2)) old new⟩ ∧
      (m.containsRight new = false → UsableAs m' ⟨new :: c.rights, repaired c.pairs old new⟩)) ∧
    (m.containsRight old = false → ∃ m', Repair.swapRight m old new = .ok m' ∧
      UsableAs m' ⟨new :: c.rights.filter (fun b => !(new == b)), c.pairs.filter fun p => !(new == p.2)⟩) := by
  have hr := h.repr_of_shows hc
  obtain ⟨o, m1, e1, -, h1, -⟩ := removeRight_refines hr new
  refine ⟨fun ho hon => by rw [Repair.swapRight, ho, hon]; rfl, fun ho hon => ?_, fun ho => ?_⟩
  · obtain ⟨b, hb⟩ := (contains hc).1 ho
    obtain ⟨m', e, h'⟩ := swapRightIds_some h1 (old := old) (b := b) (by rw [findR_erased_other c hon, hb]) (findR_erased c new)
    refine ⟨m', by simp [Repair.swapRight, hon, e1, e, bind, Except.bind], Repr.usable h', fun hn => ?_⟩
    have hn : ∀ b ∈ c.rights, (new == b) = false := by
      simpa [findR] using (not_contains hc).1 hn
    have hu := Repr.usable h'
    rw [moveAll, eraseR] at hu
    simp only at hu
    rw [List.filter_eq_self.2 fun b hb => by rw [hn b hb]; rfl,
      List.filter_eq_self.2 fun p hp => by rw [hn _ (hc.sound.owned p hp)]; rfl] at hu
    exact hu
  · have hb := (not_contains hc).1 ho
    have hb' : findR (eraseR c new) old = none := by
      rw [findR, eraseR, List.find?_eq_none] at *
      exact fun x hx => hb x (List.mem_filter.1 hx).1
    obtain ⟨m', e, h'⟩ := swapRightIds_none h1 hb' new
    rw [erased_twice] at h'
    exact ⟨m', by simp [Repair.swapRight, ho, e1, e, bind, Except.bind], Repr.usable h'⟩

/-- 10 hands its items over to the new item 40, to 20 (whose item 3 goes), and to itself; 40 has nothing to hand over -/
example : ∃ m', Repair.swapRight demo 10 40 = .ok m' ∧ Shows m' ⟨[40, 30, 20, 10], [(3, 20), (2, 40), (1, 40)]⟩ := by
  obtain ⟨m', e, -, h⟩ := (C135_swap_right demo_reachable demo_shows 10 40).2.1 (by rw [demo_shows.containsRight]; rfl) rfl
  exact ⟨m', e, (h (by rw [demo_shows.containsRight]; rfl)).1⟩
example : ∃ m', Repair.swapRight demo 10 20 = .ok m' ∧ Shows m' ⟨[20, 30, 10], [(2, 20), (1, 20)]⟩ := by
  obtain ⟨m', e, h, -⟩ := (C135_swap_right demo_reachable demo_shows 10 20).2.1 (by rw [demo_shows.containsRight]; rfl) rfl
  exact ⟨m', e, h.1⟩
example : Repair.swapRight demo 10 10 = .ok demo :=
  (C135_swap_right demo_reachable demo_shows 10 10).1 (by rw [demo_shows.containsRight]; rfl) rfl
example : ∃ m', Repair.swapRight demo 40 10 = .ok m' ∧ Shows m' ⟨[10, 30, 20], [(3, 20)]⟩ := by
  obtain ⟨m', e, h⟩ := (C135_swap_right demo_reachable demo_shows 40 10).2.2 (by rw [demo_shows.containsRight]; rfl)
  exact ⟨m', e, h.1⟩

/-- C135, for C67: with the ids updated and `new` taken out first (unless it is `old`), `swap_right_remove` always leaves a map that goes on
working: `new` takes the place of `old`, and what belonged to `new` before is gone.  If `old` is not there, `new` is inserted as with
`insert_right`. -/
theorem C135_swap_right_remove (h : Reachable m) (hc : Shows m c) (old new : R) :
    (∀ b, c.rights.find? (old == ·) = some b → (old == new) = true → ∃ m', Repair.swapRightRemove m old new = .ok (some b, m') ∧
      UsableAs m' ⟨new :: c.rights.filter (fun b => !(old == b)), repaired c.pairs old new⟩) ∧
    (∀ b, c.rights.find? (old == ·) = some b → (old == new) = false → ∃ m', Repair.swapRightRemove m old new = .ok (some b, m') ∧
      UsableAs m' ⟨new :: c.rights.filter (fun b => !(old == b) && !(new == b)),
        repaired (c.pairs.filter fun p => !(new == p.2)) old new⟩) ∧
    (m.containsRight old = false → ∃ m', Repair.swapRightRemove m old new = .ok (none, m') ∧
      UsableAs m' ⟨new :: c.rights.filter (fun b => !(new == b)), c.pairs.filter fun p => !(new == p.2)⟩) := by
  have hr := h.repr_of_shows hc
  obtain ⟨o, m1, e1, -, h1, -⟩ := removeRight_refines hr new
  refine ⟨fun b hb hon => ?_, fun b hb hon => ?_, fun ho => ?_⟩
  · obtain ⟨m', e, h'⟩ := swapRightRemoveIds_some hr (old := old) (b := b) hb (new := new) (.inr hon)
    exact ⟨m', by rw [Repair.swapRightRemove, hon, if_pos rfl, e], Repr.usable h'⟩
  · obtain ⟨m', e, h'⟩ := swapRightRemoveIds_some h1 (old := old) (b := b) (by rw [findR_erased_other c hon]; exact hb)
      (.inl (findR_erased c new))
    refine ⟨m', by simp [Repair.swapRightRemove, hon, e1, e, bind, Except.bind], ?_⟩
    have hu := Repr.usable h'
    simp only [eraseR, moveAll, List.filter_filter] at hu
    exact hu
  · have hb := (not_contains hc).1 ho
    have hb' : findR (eraseR c new) old = none := by
      rw [findR, eraseR, List.find?_eq_none] at *
      exact fun x hx => hb x (List.mem_filter.1 hx).1
    cases hon : old == new with
    | true =>
      obtain ⟨m', e, h'⟩ := swapRightRemoveIds_none hr hb new
      exact ⟨m', by rw [Repair.swapRightRemove, hon, if_pos rfl, e], Repr.usable h'⟩
    | false =>
      obtain ⟨m', e, h'⟩ := swapRightRemoveIds_none h1 hb' new
      rw [erased_twice] at h'
      exact ⟨m', by simp [Repair.swapRightRemove, hon, e1, e, bind, Except.bind], Repr.usable h'⟩

example : ∃ m', Repair.swapRightRemove demo 10 40 = .ok (some 10, m') ∧ Shows m' ⟨[40, 30, 20], [(3, 20), (2, 40), (1, 40)]⟩ := by
  obtain ⟨m', e, h⟩ := (C135_swap_right_remove demo_reachable demo_shows 10 40).2.1 10 rfl rfl
  exact ⟨m', e, h.1⟩
example : ∃ m', Repair.swapRightRemove demo 10 20 = .ok (some 10, m') ∧ Shows m' ⟨[20, 30], [(2, 20), (1, 20)]⟩ := by
  obtain ⟨m', e, h⟩ := (C135_swap_right_remove demo_reachable demo_shows 10 20).2.1 10 rfl rfl
  exact ⟨m', e, h.1⟩
example : ∃ m', Repair.swapRightRemove demo 10 10 = .ok (some 10, m') ∧ Shows m' ⟨[10, 30, 20], [(3, 20), (2, 10), (1, 10)]⟩ := by
  obtain ⟨m', e, h⟩ := (C135_swap_right_remove demo_reachable demo_shows 10 10).1 10 rfl rfl
  exact ⟨m', e, h.1⟩
example : ∃ m', Repair.swapRightRemove demo 40 10 = .ok (none, m') ∧ Shows m' ⟨[10, 30, 20], [(3, 20)]⟩ := by
  obtain ⟨m', e, h⟩ := (C135_swap_right_remove demo_reachable demo_shows 40 10).2.2 (by rw [demo_shows.containsRight]; rfl)
  exact ⟨m', e, h.1⟩

/-! ### retain_paired and retain_unpaired -/

theorem retainPairedDrop_repair (xs ls : List (LRec L R)) (t : RawTable (LeftItem L)) (u : RawTable (RightItem R)) {hb : BuildHasher L R}
    {lc rc : Nat} {rs : List (RRec R)} (ht : t.entries.Perm ((xs ++ ls).map (toL hb))) (hu : u.entries.Perm (rs.map (toR hb)))
    (hw : WF hb lc rc (xs ++ ls) rs) (hf : Fresh (xs ++ ls)) :
    ∃ t' u' rs', Repair.retainPairedDrop t u (xs.map (key hb)) = .ok (t', u') ∧ t'.entries.Perm (ls.map (toL hb)) ∧
      u'.entries.Perm (rs'.map (toR hb)) ∧ WF hb lc rc ls rs' ∧ (rs'.map (·.r)).Perm (rs.map (·.r)) := by
  induction xs generalizing t u rs with
  | nil => exact ⟨t, u, rs, rfl, ht, hu, hw, .refl _⟩
  | cons x xs ih =>
    rw [List.cons_append] at ht hw hf
    have h2 := List.pairwise_cons.1 hw.apartL
    obtain ⟨t1, e1, p1⟩ := removeL_id (hb := hb) (x := x) (ls := xs ++ ls) ht fun a h => (h2.1 a h).1.symm
    obtain ⟨y, rs1, hq, h3, h4, -⟩ := hw.ownerOf List.mem_cons_self
    have hw := hw.perm (.refl _) hq
    obtain ⟨w, e2, p2⟩ := getMutR_id (hb := hb) (y := y) (rs := rs1) (hu.trans (hq.map _)) fun a ha =>
      ((List.pairwise_cons.1 hw.apartR).1 a ha).1.symm
    obtain ⟨t', u', rs', e3, p3, p4, hw', hr⟩ := ih t1 (w { (toR hb y).2 with pairs := y.pairs.remove (key hb x) })
      (rs := ⟨y.r, y.id, y.pairs.remove (key hb x)⟩ :: rs1) p1 (p2 _) (hw.dropLeft h3 (PairSet.remove_perm _ _))
      fun a ha => hf a (List.mem_cons_of_mem _ ha)
    refine ⟨t', u', rs', ?_, p3, p4, hw', hr.trans (hq.map (·.r)).symm⟩
    have hx := hf x List.mem_cons_self
    simp only [List.map_cons, Repair.retainPairedDrop, key, e1]
    simp only [toL, ← h4, hx, ← h3, e2]
    exact e3

theorem retainPaired_repair {σ : Type} (hr : Repr m c) (f : σ → L → R → Bool × σ) (s : σ) :
    ∃ (d : List (L × R)) (m' : GroupMap L R), d.Perm c.pairs ∧
      Repair.retainPaired m f s = .ok ((split (fun s p => f s p.1 p.2) d s).2.2, m') ∧
      Repr m' ⟨c.rights, (split (fun s p => f s p.1 p.2) d s).1⟩ := by
  obtain ⟨ls, rs, h, hf, ha⟩ := hr
  have hf := hf trivial
  obtain ⟨xs, hp, e⟩ := h.leftList
  have hlist : m.iterPairedList = .ok (xs.map fun x => (x.l, x.r)) := by
    have := PairedIter.take_ok (h.looks hf) (m.left.len + 1) xs fun x hx => hp.mem_iff.1 hx
    simp only [iterPairedList, iterPaired, e, this, bind, Except.bind, pure, Except.pure]
    rw [List.take_of_length_le]
    have := h.left.length_eq
    simp only [List.length_map] at this
    rw [RawTable.len, this, hp.length_eq]; omega
  have e1 := retainPairedScan_eq h (fun s l r => (!(f s l r).1, (f s l r).2)) s xs fun x hx => hp.mem_iff.1 hx
  have hsp := split_perm (fun s (x : LRec L R) => f s x.l x.r) xs s
  rw [split_not (fun s (x : LRec L R) => f s x.l x.r) xs s] at e1
  have hls := ((List.perm_append_comm.trans hsp).trans hp).symm
  have h' := h.perm hls (.refl _)
  obtain ⟨t', u', rs', e2, p1, p2, hw, hr⟩ := retainPairedDrop_repair _ _ m.left m.right h'.left h'.right h'.wf
    (fun x hx => hf x (hls.mem_iff.2 hx))
  refine ⟨xs.map fun x => (x.l, x.r), { m with left := t', right := u' }, (hp.map _).trans ha.pairs.symm, ?_,
    ⟨_, rs', ⟨p1, p2, hw⟩, ?_, ?_⟩⟩
  · simp only [Repair.retainPaired, hlist, e1, e2, bind, Except.bind, pure, Except.pure]
    rw [split_mapped]
  · exact fun _ x hx => hf x (hls.mem_iff.2 (List.mem_append_right _ hx))
  · refine ⟨ha.rights.trans hr.symm, ?_⟩
    rw [split_mapped]

/-- C135, for C74: `retain_paired` runs the closure once over the pairs, in some order; the left items of the pairs it accepts stay, the other
left items are gone; no right item goes, and the map goes on working.  (`split` returns the accepted items, the rejected items and the last
state.)  So a closure whose answers do not depend on its state filters the pairs. -/
theorem C135_retain_paired {σ : Type} (h : Reachable m) (hc : Shows m c) (f : σ → L → R → Bool × σ) (s : σ) :
    ∃ (d : List (L × R)) (m' : GroupMap L R), d.Perm c.pairs ∧
      Repair.retainPaired m f s = .ok ((split (fun s p => f s p.1 p.2) d s).2.2, m') ∧
      UsableAs m' ⟨c.rights, (split (fun s p => f s p.1 p.2) d s).1⟩ ∧
      ∀ g : L → R → Bool, (∀ s l r, (f s l r).1 = g l r) → UsableAs m' ⟨c.rights, c.pairs.filter fun p => g p.1 p.2⟩ := by
  obtain ⟨d, m', hd, e, h'⟩ := retainPaired_repair (h.repr_of_shows hc) f s
  refine ⟨d, m', hd, e, Repr.usable h', fun g hg => Repr.usable (ReprG.same h' ⟨.refl _, ?_⟩)⟩
  rw [(CycleSpec.split_pure (f := fun s (p : L × R) => f s p.1 p.2) (g := fun p => g p.1 p.2) (fun s p => hg s p.1 p.2) d s).1]
  exact hd.filter _

/-- the left items with an odd number stay; 10 and 20 too -/
example : ∃ m', Repair.retainPaired demo (fun (_ : Unit) l _ => (l % 2 == 1, ())) () = .ok ((), m') ∧
    Shows m' ⟨[30, 20, 10], [(3, 20), (1, 10)]⟩ := by
  obtain ⟨d, m', -, e, -, h⟩ := C135_retain_paired demo_reachable demo_shows (fun (_ : Unit) l _ => (l % 2 == 1, ())) ()
  exact ⟨m', e, (h (fun l _ => l % 2 == 1) fun _ _ _ => rfl).1⟩

theorem retainUnpaired_repair {σ : Type} (hr : Repr m c) (f : σ → R → Bool × σ) (s : σ) :
    ∃ (d : List R) (m' : GroupMap L R), d.Perm (lone c) ∧ Repair.retainUnpaired m f s = .ok ((split f d s).2.2, m') ∧
      Repr m' ⟨(split f d s).1 ++ c.rights.filter (hasGroup c), c.pairs⟩ := by
  obtain ⟨d, m', hp, e, h', -⟩ := retainUnpaired_refines hr (fun s r => (!(f s r).1, (f s r).2)) s
  rw [split_not f d s] at e h'
  exact ⟨d, m', hp, e, h'⟩

/-- C135, for C75: `retain_unpaired` runs the closure once over the right items without left items, in some order, and keeps those that it
accepts; the other right items and the pairs stay. -/
theorem C135_retain_unpaired {σ : Type} (h : Reachable m) (hc : Shows m c) (f : σ → R → Bool × σ) (s : σ) :
    ∃ (d : List R) (m' : GroupMap L R), d.Perm (c.rights.filter fun r => !c.pairs.any (r == ·.2)) ∧
      Repair.retainUnpaired m f s = .ok ((split f d s).2.2, m') ∧
      UsableAs m' ⟨(split f d s).1 ++ c.rights.filter (fun r => c.pairs.any (r == ·.2)), c.pairs⟩ ∧
      ∀ g : R → Bool, (∀ s r, (f s r).1 = g r) → UsableAs m' ⟨c.rights.filter (fun r => c.pairs.any (r == ·.2) || g r), c.pairs⟩ := by
  obtain ⟨d, m', hp, e, h'⟩ := retainUnpaired_repair (h.repr_of_shows hc) f s
  refine ⟨d, m', hp, e, Repr.usable h', fun g hg => Repr.usable (ReprG.same h' ⟨?_, .refl _⟩)⟩
  rw [(CycleSpec.split_pure hg d s).1]
  refine ((hp.filter g).append_right _).trans ?_
  rw [lone, List.filter_filter]
  have := List.filter_append_perm (hasGroup c) (c.rights.filter fun r => hasGroup c r || g r)
  rw [List.filter_filter, List.filter_filter] at this
  refine (List.perm_append_comm.trans (.of_eq ?_)).trans this
  congr 2 <;> funext r <;> cases hasGroup c r <;> simp

/-- 30 is the only item asked about -/
example (k : Bool) : ∃ m', Repair.retainUnpaired demo (fun (n : Nat) _ => (k, n + 1)) 0 = .ok (1, m') ∧
    Shows m' ⟨(if k then [30] else []) ++ [20, 10], [(3, 20), (2, 10), (1, 10)]⟩ := by
  obtain ⟨d, m', hp, e, h, -⟩ := C135_retain_unpaired demo_reachable demo_shows (fun (n : Nat) _ => (k, n + 1)) 0
  have hd : d = [30] := List.perm_singleton.1 hp
  subst hd
  refine ⟨m', by cases k <;> exact e, ?_⟩
  cases k <;> exact h.1

/-! ### eq -/

/-- C135, for C76: `==` with `||` in the check of the lengths, and a closure that asks for the lone right items, says whether the two maps have
the same pairs and right items. -/
theorem C135_eq {m' : GroupMap L R} {c' : Contents L R} (h : Reachable m) (hc : Shows m c) (hc' : Shows m' c') :
    ∃ b, Repair.eq m m' = .ok b ∧ (b = true ↔ Sub c c' ∧ Sub c' c) := by
  have hlen : Repair.eq m m' = .ok (!(c.pairs.length != c'.pairs.length || c.rights.length != c'.rights.length) &&
      (c.pairs.all (fun p => hasPair c' p.1 p.2) && (lone c).all fun r => c'.rights.any (r == ·) && !hasGroup c' r)) := by
    rw [Repair.eq, hc.lenLeft, hc'.lenLeft, hc.lenRight, hc'.lenRight]
    split
    · next hd => rw [hd]; rfl
    · next hd =>
      rw [eq_false_of_ne_true' hd]
      obtain ⟨ls, rs, h, hf, ha⟩ := h.repr_of_shows hc
      have hf := hf trivial
      obtain ⟨zs, hi, hp⟩ := iter_at h ha
      have hloop : ∀ (n : Nat) {it : Iter R} {qs zs}, IterAt m ls it qs zs →
          Repair.eqLoop m m' n it = .ok (((yields qs zs).take n).all (Repair.eqEntry m')) := by
        intro n
        induction n with
        | zero => intro it qs zs _; simp [Repair.eqLoop]
        | succ n ih =>
          intro it qs zs hi
          rcases Iter.next_ok (h.looks hf) hi with ⟨h1, h2⟩ | ⟨e, it', qs', zs', h1, h2, h3⟩
          · simp [Repair.eqLoop, h2, h1, bind, Except.bind, pure, Except.pure]
          · simp only [Repair.eqLoop, h2, h1, bind, Except.bind, pure, Except.pure, List.take_succ_cons, List.all_cons, ih h3]
            cases Repair.eqEntry m' e <;> simp
      rw [hloop _ hi]
      have := hi.fuel
      rw [List.take_of_length_le (by omega), all_eq_of_perm hp, entries, List.all_append, List.all_map, List.all_map]
      simp only [Bool.not_false, Bool.true_and]
      congr 2
      · exact congrArg _ (funext fun p => hc'.arePaired _ _)
      · refine congrArg _ (funext fun r => ?_)
        simp only [Function.comp, Repair.eqEntry]
        rw [hc'.isRightPaired, hc'.containsRight]
  refine ⟨_, hlen, ?_⟩
  have hs := hc.sound
  have hs' := hc'.sound
  have fsts : ∀ {c : Contents L R}, c.Sound → (c.pairs.map (·.1)).Pairwise fun a b => (a == b) = false :=
    fun hs => List.pairwise_map.2 hs.lefts
  simp only [Bool.and_eq_true, Bool.not_eq_true', Bool.or_eq_false_iff, bne_eq_false_iff_eq, List.all_eq_true]
  constructor
  · rintro ⟨⟨h1, h2⟩, h3, h4⟩
    have s1 : ∀ p ∈ c.pairs, ∃ q ∈ c'.pairs, (p.1 == q.1) = true ∧ (p.2 == q.2) = true := by
      intro p hp
      obtain ⟨q, hq, e⟩ := List.any_eq_true.1 (h3 p hp)
      exact ⟨q, hq, Bool.and_eq_true_iff.1 e⟩
    have s2 : ∀ r ∈ c.rights, ∃ b ∈ c'.rights, (r == b) = true := by
      intro r hr
      cases hg : hasGroup c r with
      | false => exact List.any_eq_true.1 (h4 r (List.mem_filter.2 ⟨hr, by rw [hg]; rfl⟩)).1
      | true =>
        obtain ⟨p, hp, e⟩ := List.any_eq_true.1 hg
        obtain ⟨q, hq, -, e2⟩ := s1 p hp
        exact ⟨q.2, hs'.owned q hq, BEq.trans e e2⟩
    refine ⟨⟨s1, s2⟩, fun q hq => ?_, sub_back hs.rights s2 (by omega)⟩
    obtain ⟨a, ha, hqa⟩ := sub_back (fsts hs) (ys := c'.pairs.map (·.1)) (fun a ha => by
      obtain ⟨p, hp, rfl⟩ := List.mem_map.1 ha
      obtain ⟨q, hq, e, -⟩ := s1 p hp
      exact ⟨q.1, List.mem_map.2 ⟨q, hq, rfl⟩, e⟩) (by simp only [List.length_map]; omega) q.1 (List.mem_map.2 ⟨q, hq, rfl⟩)
    obtain ⟨p, hp, rfl⟩ := List.mem_map.1 ha
    obtain ⟨q', hq', e1, e2⟩ := s1 p hp
    obtain rfl := unique_of_apart hs'.lefts hq hq' (l := p.1) (BEq.symm hqa) e1
    exact ⟨p, hp, hqa, BEq.symm e2⟩
  · rintro ⟨s1, s2⟩
    have le : ∀ {c c' : Contents L R}, c.Sound → Sub c c' → c.pairs.length ≤ c'.pairs.length := fun {c c'} hs s => by
      have := PartialSpec.length_le_of_sub (fsts hs) (ys := c'.pairs.map (·.1)) (fun a ha => by
        obtain ⟨p, hp, rfl⟩ := List.mem_map.1 ha
        obtain ⟨q, hq, e, -⟩ := s.1 p hp
        exact ⟨q.1, List.mem_map.2 ⟨q, hq, rfl⟩, e⟩)
      simpa using this
    refine ⟨⟨Nat.le_antisymm (le hs s1) (le hs' s2), Nat.le_antisymm (PartialSpec.length_le_of_sub hs.rights s1.2)
      (PartialSpec.length_le_of_sub hs'.rights s2.2)⟩, fun p hp => ?_, fun r hr => ⟨?_, ?_⟩⟩
    · obtain ⟨q, hq, e⟩ := s1.1 p hp
      exact List.any_eq_true.2 ⟨q, hq, Bool.and_eq_true_iff.2 e⟩
    · exact List.any_eq_true.2 (s1.2 r (List.mem_filter.1 hr).1)
    · have hl := (List.mem_filter.1 hr).2
      rw [Bool.not_eq_true', hasGroup, List.any_eq_false] at hl
      rw [hasGroup, List.any_eq_false]
      intro q hq hrq
      obtain ⟨p, hp, _, e⟩ := s2.1 q hq
      exact hl p hp (BEq.trans hrq e)

/-- the two maps of `C76_false` -/
example (m m' : GroupMap Nat Nat) (h : Reachable m) (hc : Shows m ⟨[10], []⟩) (hc' : Shows m' ⟨[20], []⟩) :
    Repair.eq m m' = .ok false := by
  obtain ⟨b, e, hb⟩ := C135_eq h hc hc'
  cases b with
  | false => exact e
  | true =>
    obtain ⟨x, hx, hs⟩ := (hb.1 rfl).1.2 10 (by simp)
    simp at hx; subst hx; simp at hs
example : ∃ m m' : GroupMap Nat Nat, Reachable m ∧ Shows m ⟨[10], []⟩ ∧ Shows m' ⟨[20], []⟩ := by
  obtain ⟨m, _, r, s⟩ := of_items constHash [((none : Option Nat), 10)] trivial
  obtain ⟨m', _, -, s'⟩ := of_items constHash [((none : Option Nat), 20)] trivial
  exact ⟨m, m', r, s, s'⟩
example : Repair.eq demo demo = .ok true := by
  obtain ⟨b, e, hb⟩ := C135_eq demo_reachable demo_shows demo_shows
  rw [e, hb.2 ⟨.refl _, .refl _⟩]

/-! ### clones and lengths of iterators -/

theorem repair_iter_fuel (n : Nat) {it it' : Iter R} {xs : List (Option L × R)} (h : Iter.take m n it = .ok (xs, it')) : xs.length ≤ it.fuel := by
  induction n generalizing it xs with
  | zero => cases h; simp
  | succ n ih =>
    simp only [Iter.take, bind, Except.bind, pure, Except.pure] at h
    split at h
    · cases h
    · rename_i v e1
      cases v with
      | none => cases h; simp
      | some v =>
        obtain ⟨x, it1⟩ := v
        have hf : it1.fuel + 1 ≤ it.fuel := by
          obtain ⟨todo, cur⟩ := it
          simp only [Iter.next] at e1
          split at e1
          · split at e1
            · cases e1
            · split at e1
              · cases e1
              · cases e1; simp only [Iter.fuel, Option.getD_some, List.length_cons]; omega
          · rename_i hcur
            simp only [Iter.nextRight, Except.ok.injEq] at e1
            have hz : (cur.getD []).length = 0 := by
              cases cur with
              | none => rfl
              | some ps => cases ps with
                | nil => rfl
                | cons p ps => exact absurd rfl (hcur p ps)
            split at e1
            · cases e1
            · split at e1
              · cases e1; simp only [Iter.fuel, List.map_cons, List.sum_cons, RawTable.len, hz]; omega
              · rename_i hp
                cases e1; simp only [Iter.fuel, List.map_cons, List.sum_cons, RawTable.len, hz, hp, Option.getD_some, List.length_cons]; omega
        simp only at h
        split at h
        · cases h
        · rename_i v e2
          obtain ⟨ys, it2⟩ := v
          cases h
          have := ih e2
          simp only [List.length_cons]; omega

/-- C135, for C73: after any number `n` of steps, a clone of `iter` yields the items still to come, and `len` and `size_hint` are their number; so it
is with `iter_unpaired`. -/
theorem C135_sizes (h : Reachable m) (hc : Shows m c) (n : Nat) :
    (∃ (d : List (Option L × R)) (it : Iter R), d.Perm (c.pairs.map (fun p => (some p.1, p.2)) ++
        (c.rights.filter fun r => !c.pairs.any (r == ·.2)).map fun r => (none, r)) ∧ Iter.take m n m.iter = .ok (d.take n, it) ∧
      (∀ k, ∃ it', Iter.take m k (Repair.Iter.clone it) = .ok ((d.drop n).take k, it')) ∧
      Repair.Iter.len it m = .ok (d.drop n).length ∧ Repair.Iter.sizeHint it m = .ok (d.drop n).length) ∧
    (∃ (d : List R) (it : UnpairedIter R), d.Perm (c.rights.filter fun r => !c.pairs.any (r == ·.2)) ∧
      UnpairedIter.take n m.iterUnpaired = (d.take n, it) ∧ it.len = (d.drop n).length ∧ Repair.UnpairedIter.sizeHint it = (d.drop n).length) := by
  constructor
  · obtain ⟨⟨d, hp, -, h2⟩, -⟩ := C72_iterators h hc
    obtain ⟨it, e, h3⟩ := h2 n
    have hl : Repair.Iter.len it m = .ok (d.drop n).length := by
      obtain ⟨it1, e1⟩ := h3 d.length
      have hf := repair_iter_fuel _ e1
      rw [List.take_of_length_le (by simp)] at hf
      obtain ⟨it2, e2⟩ := h3 (it.fuel + 1)
      rw [List.take_of_length_le (by omega)] at e2
      simp only [Repair.Iter.len, Repair.Iter.clone, e2]; rfl
    exact ⟨d, it, hp, e, h3, hl, hl⟩
  · obtain ⟨-, -, ⟨d, hp, e, -⟩, -⟩ := C72_iterators h hc
    obtain ⟨it, e1, e2, -⟩ := (C73_partial h hc).2.1 n
    rw [e] at e1 e2
    exact ⟨d, it, hp, e1, e2, e2⟩

/-- after one step of `iter`, in the middle of a group or not, three of the four items are to come -/
example : ∃ (d : List (Option Nat × Nat)) (it : Iter Nat), Iter.take demo 1 demo.iter = .ok (d.take 1, it) ∧
    d.Perm [(some 3, 20), (some 2, 10), (some 1, 10), (none, 30)] ∧ Repair.Iter.sizeHint it demo = .ok 3 := by
  obtain ⟨⟨d, it, hp, e, -, -, hl⟩, -⟩ := C135_sizes demo_reachable demo_shows 1
  exact ⟨d, it, e, hp, by rw [hl, List.length_drop, hp.length_eq]; rfl⟩

/-! ### clear -/

/-- C135, for C122: `clear` with the guard drops the items as the drop of the map does (C132), and however it ends, the map is empty then. -/
theorem C135_clear (m : GroupMap L R) (d : τ → L ⊕ R → Bool × τ) (t : τ) :
    ∃ (e : Ending) (t' : τ) (m' : GroupMap L R), Repair.clearD m d t = (e, t', m') ∧ m.dropMap d t = (e, t') ∧ UsableAs m' ⟨[], []⟩ :=
  ⟨_, _, _, rfl, rfl, Repr.usable (clear_refines m)⟩

/-- a destructor that panics the first time it is run -/
example : ∃ (e : Ending) (t' : Nat) (m' : GroupMap Nat Nat), Repair.clearD demo (fun (t : Nat) _ => (t == 0, t + 1)) 0 = (e, t', m') ∧
    e = .panicked ∧ t' = 4 ∧ Shows m' ⟨[], []⟩ := by
  obtain ⟨e, t', m', h1, h2, h3⟩ := C135_clear demo (fun (t : Nat) (_ : Nat ⊕ Nat) => (t == 0, t + 1)) 0
  have : (demo.dropMap (fun (t : Nat) (_ : Nat ⊕ Nat) => (t == 0, t + 1)) 0) = (.panicked, 4) := by
    have hl := demo_shows.iterLeft.length_eq
    have hr := demo_shows.iterRight.length_eq
    simp only [iterLeft, iterRight, List.length_map] at hl hr
    match h1 : demo.left.toList, hl, h2 : demo.right.toList, hr with
    | [_, _, _], _, [_, _, _], _ => simp [dropMap, h1, h2, dropTwo, dropUntil]
  rw [this] at h2; cases h2
  exact ⟨_, _, m', h1, rfl, rfl, h3.1⟩

end Verif.GroupMap
