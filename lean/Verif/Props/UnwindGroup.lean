import Verif.GroupMap.UnwindAlways
import Verif.GroupMap.UnwindValid
import Verif.GroupMap.UnwindClosures
import Verif.Props.Unwind
/-! Properties C108–C109: `GroupMap` when `Hash`, `Eq`, a closure, or the crate itself panics, the panic is caught, and
the map is used further. -/
set_option linter.unusedSectionVars false
namespace Verif.GroupMap
open GroupSpec
open CycleMap (ranU bind_ok)
variable [RawImpl] [LawfulRaw] {L R : Type} [BEq L] [BEq R] [EquivBEq L] [EquivBEq R]
variable {m m' : GroupMap L R} {hb : BuildHasher L R}

/-! ### C108 -/

/-- C108: a call that is not interrupted returns, changes and panics as said by the main model (the one all other
properties are about), and no call is interrupted if the items' own code does not panic. -/
theorem C108_agrees (m : GroupMap L R) (op : Op L R) :
    (∀ f o f' m', execU op f m = .done o f' m' → m.exec op = .ok (o, m')) ∧
    (∀ f p m', execU op f m = .panic (some p) m' → m.exec op = .error p) ∧
    (∃ k, ∀ f, k ≤ f.fuse → ∀ m', execU op f m ≠ .panic none m') := by
  have h := execU_follows (m := m) op
  refine ⟨fun f o f' m' e => ?_, fun f p m' e => ?_, ?_⟩
  · have := h.agrees f; rw [e] at this; exact this
  · have := h.agrees f; rw [e] at this; exact this
  · obtain ⟨k, hk⟩ := h.calm
    refine ⟨k, fun f hf m' e => ?_⟩
    have := (hk f hf).1
    rw [e] at this; cases this

/-- C108: `retain_unpaired` with a closure that may panic does what C93 says, on any map; so does `retain_paired`, if
`iter_paired` does not panic (as on every reachable map). -/
theorem C108_closures {σ : Type} (m : GroupMap L R) (s : σ) :
    (∀ g : σ → R → Option Bool × σ, Unw.AsSaid (callU (.retainUnpaired σ g s)) m (m.retainUnpairedP g s)) ∧
    (∀ (g : σ → L → R → Option Bool × σ) ps, m.iterPairedList = .ok ps →
      Unw.AsSaid (callU (.retainPaired σ g s)) m (m.retainPairedP (fun s p => g s p.1 p.2) s)) :=
  ⟨fun g => (retainUnpairedU_obeys g s).asSaid, fun g ps e => (retainPairedU_obeys g s e).asSaid⟩

theorem Sane.items (h : Sane hb m) :
    (∀ e ∈ m.left.entries, e.1 = hb.hl e.2.value) ∧ (∀ e ∈ m.right.entries, e.1 = hb.hr e.2.value) ∧
    m.iterLeft.Pairwise (fun a b => (a == b) = false) ∧
    (∀ l, m.containsLeft l = m.iterLeft.any (l == ·)) ∧ (∀ r, m.containsRight r = m.iterRight.any (r == ·)) ∧
    m.lenLeft = m.iterLeft.length ∧ m.lenRight = m.iterRight.length := by
  obtain ⟨hl, hr, rfl⟩ := h
  refine ⟨fun e he => (hl.hash e he).symm, fun e he => (hr.hash e he).symm, ?_, fun l => ?_, fun r => ?_, ?_, ?_⟩
  · rw [iterLeft, List.pairwise_map, RawTable.toList, List.pairwise_map]
    exact hl.apart
  · rw [containsLeft, hl.get_isSome (hash_left m.hb l), iterLeft, List.any_map]; exact congrArg _ (funext fun x => BEq.comm)
  · rw [containsRight, hr.get_isSome (hash_right m.hb r), iterRight, List.any_map]; exact congrArg _ (funext fun x => BEq.comm)
  · simp [lenLeft, RawTable.len, iterLeft, RawTable.toList]
  · simp [lenRight, RawTable.len, iterRight, RawTable.toList]

/-- C108: after any history in which calls end with a panic of `Hash`, `Eq` or a closure, or with a panic of the crate,
and the panics are caught, every item is stored under its own hash, no left item is yielded twice, `contains_left` and
`contains_right` agree with `iter_left` and `iter_right`, `len_left` and `len_right` count the items, and `hasher()` is
what the map was made with.  (Right items may be there twice even without panics, see `C66_duplicates`.) -/
theorem C108_items (n : Nat) (hb : BuildHasher L R) (calls : List (Fate × Call L R)) (hc : LawfulCalls calls)
    (h : (withCapacityAndHasher n hb).runU calls = some m) :
    (∀ e ∈ m.left.entries, e.1 = hb.hl e.2.value) ∧ (∀ e ∈ m.right.entries, e.1 = hb.hr e.2.value) ∧
    m.iterLeft.Pairwise (fun a b => (a == b) = false) ∧
    (∀ l, m.containsLeft l = m.iterLeft.any (l == ·)) ∧ (∀ r, m.containsRight r = m.iterRight.any (r == ·)) ∧
    m.lenLeft = m.iterLeft.length ∧ m.lenRight = m.iterRight.length ∧ m.hasher = hb := by
  have h1 := runU_sane (withCapacity_sane n hb) hc h
  obtain ⟨a1, a2, a3, a4, a5, a6, a7⟩ := h1.items
  exact ⟨a1, a2, a3, a4, a5, a6, a7, h1.hb⟩

theorem Sane.containsLeft_of_mem (h : Sane hb m) {k : UInt64} {x : LeftItem L} (hx : (k, x) ∈ m.left.entries) {l : L}
    (e : (l == x.value) = true) : m.containsLeft l = true := by
  obtain ⟨hl, hr, rfl⟩ := h
  rw [containsLeft, hl.get_isSome (hash_left m.hb l)]
  exact List.any_eq_true.2 ⟨x, List.mem_map.2 ⟨_, hx, rfl⟩, BEq.symm e⟩

theorem Sane.containsRight_of_mem (h : Sane hb m) {k : UInt64} {x : RightItem R} (hx : (k, x) ∈ m.right.entries) {r : R}
    (e : (r == x.value) = true) : m.containsRight r = true := by
  obtain ⟨hl, hr, rfl⟩ := h
  rw [containsRight, hr.get_isSome (hash_right m.hb r)]
  exact List.any_eq_true.2 ⟨x, List.mem_map.2 ⟨_, hx, rfl⟩, BEq.symm e⟩

theorem Sane.insert_effect (h : Sane hb m) {l : L} {r : R} (e : m.insert l r = .ok m') :
    m'.containsLeft l = true ∧ m'.containsRight r = true := by
  have h2 : Sane hb m' := (insertU_follows l r).result (insertU_keeps h l r) (by rw [e]; rfl)
  obtain ⟨hl0, hr0, rfl⟩ := h
  have wl : ∀ {x w}, m.left.getMut (m.hb.hl l) (equivalentKeyLeft l) = some (x, w) → ∀ {a b},
      ∃ k, (k, { x with hash := a, rid := b }) ∈ (w { x with hash := a, rid := b }).entries ∧ (l == x.value) = true := by
    intro x w hx a b
    obtain ⟨hp, k, es, -, h3⟩ := RawTable.getMut_perm hx
    exact ⟨k, (h3 _).mem_iff.2 List.mem_cons_self, BEq.symm hp⟩
  have wr : ∀ {x w}, m.right.getMut (m.hb.hr r) (equivalentKeyRight r) = some (x, w) → ∀ {a},
      ∃ k, (k, { x with pairs := a }) ∈ (w { x with pairs := a }).entries ∧ (r == x.value) = true := by
    intro x w hx a
    obtain ⟨hp, k, es, -, h3⟩ := RawTable.getMut_perm hx
    exact ⟨k, (h3 _).mem_iff.2 List.mem_cons_self, BEq.symm hp⟩
  simp only [insert] at e
  split at e
  · cases e
    exact ⟨h2.containsLeft_of_mem (RawTable.mem_insert hl0.hash _ _) (by simp),
      h2.containsRight_of_mem (RawTable.mem_insert hr0.hash _ _) (by simp)⟩
  · rename_i hl hr
    split at e
    · cases e
    · rename_i hw
      cases e
      obtain ⟨k, hk, e⟩ := wl hl
      exact ⟨h2.containsLeft_of_mem hk e,
        h2.containsRight_of_mem (RawTable.mem_insert (hr0.write hw).hash _ _) (by simp)⟩
  · rename_i hl hr
    cases e
    obtain ⟨k, hk, e⟩ := wr hr
    exact ⟨h2.containsLeft_of_mem (RawTable.mem_insert hl0.hash _ _) (by simp), h2.containsRight_of_mem hk e⟩
  · rename_i x wx y wy hl hr
    split at e
    · cases e
    · rename_i z wz hw
      cases e
      obtain ⟨k, hk, e⟩ := wl hl
      obtain ⟨k', hk', e'⟩ := wr hr
      refine ⟨h2.containsLeft_of_mem hk e, ?_⟩
      obtain ⟨a, ha, hv⟩ := mem_written (v := { z with pairs := z.pairs.remove (m.hb.hl l, x.id) }) (val := (·.value)) hw rfl ⟨_, hk', rfl⟩
      exact h2.containsRight_of_mem (k := a.1) (x := a.2) ha (by rw [hv]; exact e')

/-- C108: after such a history, if `insert(l, r)` returns then both items are there, if `insert_right(r)` returns then
`r` is there, and if `remove_left(l)` returns then `l` is not there any more.  (And `clear()` makes any map as good as
new, see `C97_clear`.) -/
theorem C108_effect (n : Nat) (hb : BuildHasher L R) (calls : List (Fate × Call L R)) (hc : LawfulCalls calls)
    (h : (withCapacityAndHasher n hb).runU calls = some m) :
    (∀ l r m', m.insert l r = .ok m' → m'.containsLeft l = true ∧ m'.containsRight r = true) ∧
    (∀ r o m', m.insertRight r = .ok (o, m') → m'.containsRight r = true) ∧
    (∀ l o m', m.removeLeft l = .ok (o, m') → m'.containsLeft l = false ∧ m'.getRight l = none) := by
  have h1 := runU_sane (withCapacity_sane n hb) hc h
  refine ⟨fun l r m' e => h1.insert_effect e, fun r o m' e => ?_, fun l o m' e => ?_⟩
  · have h2 : Sane hb m' := (insertRightU_follows r).result (insertRightU_keeps h1 r) e
    obtain ⟨⟨o1, m1⟩, e1, e⟩ := bind_ok e
    obtain ⟨⟨-, h3, rfl⟩, -⟩ := (removeRightU_follows r).result (removeRightU_keeps r h1 h1.left) e1
    cases e
    exact h2.containsRight_of_mem (RawTable.mem_insert h3.hash _ _) (by simp)
  · obtain ⟨⟨h2, -, rfl⟩, h3⟩ := (removeLeftU_follows l).result (removeLeftU_keeps h1 l) e
    have : m'.containsLeft l = false := by
      rw [containsLeft, h2.get_isSome (hash_left m'.hb l)]
      refine List.any_eq_false.2 fun x hx => ?_
      obtain ⟨a, ha, rfl⟩ := List.mem_map.1 hx
      simpa [equivalentKeyLeft] using BEq.symm_false (h3.all a ha)
    refine ⟨this, ?_⟩
    have h4 := Option.isNone_iff_eq_none.1 (Option.isSome_eq_false_iff.1 this)
    simp only [getRight, getRightBy]
    rw [show (m'.left.get (m'.hb.hl l) fun x => x.value == l) = none from h4]

/-- a history in which the hash of `20` panics during `swap_right(&10, 20)`, then a closure during `retain_paired`, then
the crate itself during `remove_left(&1)` -/
def Demo.panicking : List (Fate × Call Nat Nat) :=
  [(⟨99, none⟩, .plain (.insert 1 10)), (⟨99, none⟩, .plain (.insert 2 10)), (⟨2, none⟩, .plain (.swapRight 10 20)),
    (⟨99, none⟩, .retainPaired Unit (fun _ _ _ => (none, ())) ()), (⟨99, none⟩, .plain (.removeLeft 1)),
    (⟨99, none⟩, .plain (.insert 6 60))]

omit [RawImpl] [LawfulRaw] in
theorem Demo.panicking_lawful : LawfulCalls panicking := by
  intro f cl cr h; simp [panicking] at h

open Demo in
/-- the hypotheses of C108 are met by a map that is broken indeed: `2` has the right item `10`, but they are not paired -/
example : letI := tidyRaw
    ∃ m, (withCapacityAndHasher 0 spreadHash).runU panicking = some m ∧ LawfulCalls panicking ∧
      m.lenLeft = 2 ∧ m.lenRight = 2 ∧ m.getRight 2 = some 10 ∧ m.arePaired 2 10 = false := by
  let _ := tidyRaw
  obtain ⟨m, e, h⟩ := ranU (e := (withCapacityAndHasher 0 spreadHash).runU panicking)
    (p := fun m => decide (m.lenLeft = 2 ∧ m.lenRight = 2 ∧ m.getRight 2 = some 10 ∧ m.arePaired 2 10 = false))
    (by decide +kernel)
  exact ⟨m, e, panicking_lawful, of_decide_eq_true h⟩

open Demo in
/-- all three kinds of outcomes of C108_agrees occur: returning, a panic of the crate, a panic of the items' code -/
example : letI := tidyRaw
    ∃ m, (withCapacityAndHasher 0 spreadHash).runU (panicking.take 4) = some m ∧
      (match execU (.removeLeft 1) ⟨99, none⟩ m with | .panic (some .unwrapNone) _ => true | _ => false) = true ∧
      (match execU (.removeLeft 1) ⟨1, none⟩ m with | .panic none _ => true | _ => false) = true ∧
      (match execU (.removeLeft 20) ⟨99, none⟩ m with | .done _ _ _ => true | _ => false) = true := by
  let _ := tidyRaw
  obtain ⟨m, e, h⟩ := ranU (e := (withCapacityAndHasher 0 spreadHash).runU (panicking.take 4))
    (p := fun m => (match execU (.removeLeft 1) ⟨99, none⟩ m with | .panic (some .unwrapNone) _ => true | _ => false) &&
      ((match execU (.removeLeft 1) ⟨1, none⟩ m with | .panic none _ => true | _ => false) &&
      (match execU (.removeLeft 20) ⟨99, none⟩ m with | .done _ _ _ => true | _ => false))) (by decide +kernel)
  refine ⟨m, e, ?_⟩
  rw [Bool.and_eq_true, Bool.and_eq_true] at h
  exact h

/-- a closure that accepts what it sees first and panics on the second ends both calls by that panic, and the map is as it was -/
example : letI := tidyRaw
    let g : Nat → Option Bool × Nat := fun s => (if s == 1 then none else some true, s + 1)
    ∃ m, (withCapacityAndHasher 0 CycleMap.idHash).runU [(⟨99, none⟩, .plain (.extendOpt [(some 1, 10), (some 2, 20), (none, 30), (none, 40)]))] = some m ∧
      (match callU (.retainPaired Nat (fun s _ _ => g s) 0) ⟨99, none⟩ m, m.retainPairedP (fun s _ => g s) 0 with
        | .panic none m', .ok (.panicked, 2, m'') => m'.lenLeft == 2 && m''.lenLeft == 2 | _, _ => false) = true ∧
      (match callU (.retainUnpaired Nat (fun s _ => g s) 0) ⟨99, none⟩ m, m.retainUnpairedP (fun s _ => g s) 0 with
        | .panic none m', .ok (.panicked, 2, m'') => m'.lenRight == 4 && m''.lenRight == 4 | _, _ => false) = true := by
  let _ := tidyRaw
  intro g
  obtain ⟨m, e, h⟩ := ranU
    (e := (withCapacityAndHasher 0 CycleMap.idHash).runU [(⟨99, none⟩, .plain (.extendOpt [(some 1, 10), (some 2, 20), (none, 30), (none, 40)]))])
    (p := fun m => (match callU (.retainPaired Nat (fun s _ _ => g s) 0) ⟨99, none⟩ m, m.retainPairedP (fun s _ => g s) 0 with
        | .panic none m', .ok (.panicked, 2, m'') => m'.lenLeft == 2 && m''.lenLeft == 2 | _, _ => false) &&
      (match callU (.retainUnpaired Nat (fun s _ => g s) 0) ⟨99, none⟩ m, m.retainUnpairedP (fun s _ => g s) 0 with
        | .panic none m', .ok (.panicked, 2, m'') => m'.lenRight == 4 && m''.lenRight == 4 | _, _ => false)) (by decide +kernel)
  rw [Bool.and_eq_true] at h
  exact ⟨m, e, h⟩

/-! ### C109 -/

/-- a map that shows the contents `c` and goes on working like them -/
def Works (m : GroupMap L R) (c : Contents L R) : Prop :=
  Shows m c ∧ ∀ ops, SafeRun c ops → ∃ os m' c', m.run ops = .ok (os, m') ∧ Steps c ops os c' ∧ Shows m' c'

theorem Repr.works {c : Contents L R} (h : Repr m c) : Works m c := by
  refine ⟨h.shows, fun ops hs => ?_⟩
  obtain ⟨os, m', c', e, s, h', -⟩ := run_simulates h hs
  exact ⟨os, m', c', e, s, h'.shows⟩

omit [RawImpl] [LawfulRaw] in
/-- C109 in full: a call on a map that is interrupted by a panic of `Hash` or `Eq` leaves a coherent map.  False, see
`C109_false`. -/
def C109_full : Prop :=
  ∀ [RawImpl] [LawfulRaw] [LawfulCap] (L R : Type) [BEq L] [BEq R] [EquivBEq L] [EquivBEq R] (m m' : GroupMap L R)
    (c : Contents L R) (op : Op L R) (f : Fate), Reachable m → Shows m c → execU op f m = .panic none m' →
    ∃ d, Leaves c op d ∧ Works m' d

/-- C109, what holds: an interrupted call leaves a map that works, and it holds what it held except what the call had
already removed (`Leaves`).  Missing (`Smooth`): calls that make a table grow, the removal (or replacement) of a right
item with several left items, `swap_…` of a right item with left items, `insert_left` and `pair` when both items are
there. -/
theorem C109_partial [LawfulCap] {c : Contents L R} (hm : Reachable m) (hc : Shows m c) (op : Op L R) (f : Fate)
    (hs : Smooth m c op) (e : execU op f m = .panic none m') : ∃ d, Leaves c op d ∧ Works m' d := by
  have h := execU_leaves (S := fun _ => True) (hm.repr_of_shows hc) op hs f trivial
  rw [e] at h
  obtain ⟨d, h1, h2⟩ := h rfl
  exact ⟨d, h1, h2.works⟩

/-- C109, what holds for `retain_paired` and `retain_unpaired`: if the closure (or `Hash` or `Eq`) panics, nothing has
been removed. -/
theorem C109_retain_partial (m m' : GroupMap L R) (f : Fate) :
    (∀ (σ : Type) (g : σ → L → R → Option Bool × σ) (s : σ), callU (.retainPaired σ g s) f m = .panic none m' → m' = m) ∧
    (∀ (σ : Type) (g : σ → R → Option Bool × σ) (s : σ), callU (.retainUnpaired σ g s) f m = .panic none m' → m' = m) := by
  refine ⟨fun σ g s e => ?_, fun σ g s e => ?_⟩
  · have h := (stops_void (b := Out.unit (L := L) (R := R)) (retainPairedU_same g s : Same (retainPairedU g s) m)) f trivial
    rw [show (retainPairedU g s >>= fun _ => pure Out.unit) f m = .panic none m' from e] at h
    exact h rfl
  · have h := (stops_void (b := Out.unit (L := L) (R := R)) (retainUnpairedU_same g s : Same (retainUnpairedU g s) m)) f trivial
    rw [show (retainUnpairedU g s >>= fun _ => pure Out.unit) f m = .panic none m' from e] at h
    exact h rfl

/-- `insert_remove(1, 20)` on `10 ↦ {1, 2}`, `20 ↦ {3}`, where the hash of the removed `3` panics: `1` is gone, and `20`
with `3`; `2` is where it was -/
example : letI := swissRaw 4; ∃ os m c m', (withCapacityAndHasher 9 spreadHash).run
      [.insert 1 10, .insert 2 10, .insert 3 20] = .ok (os, m) ∧ Shows m c ∧
      Smooth m c (.insertRemove 1 20) ∧ execU (.insertRemove 1 20) ⟨4, none⟩ m = .panic none m' ∧
      m'.getRight 2 = some 10 ∧ m'.containsLeft 1 = false ∧ m'.containsRight 20 = false ∧ m'.containsLeft 3 = false := by
  let _ := swissRaw 4; have := swissRaw_lawful 4
  have hs : SafeRun GroupSpec.empty [Op.insert 1 10, .insert 2 10, .insert 3 20] := by
    refine ⟨rfl, ?_⟩
    rintro _ _ ⟨rfl, rfl⟩
    refine ⟨rfl, ?_⟩
    rintro _ _ ⟨rfl, rfl⟩
    exact ⟨rfl, fun _ _ _ => trivial⟩
  obtain ⟨os, m, c, e, s, h, -⟩ := run_simulates (withCapacity_repr 9 spreadHash) hs
  obtain ⟨_, _, _, rfl, ⟨rfl, rfl⟩, _, _, _, rfl, ⟨rfl, rfl⟩, _, _, _, rfl, ⟨rfl, rfl⟩, rfl, rfl⟩ := s
  obtain ⟨x, e', hx⟩ := ran (e := (withCapacityAndHasher 9 spreadHash).run [.insert 1 10, .insert 2 10, .insert 3 20])
    (p := fun x => decide (1 ≤ RawImpl.growthLeft x.2.left ∧ 1 ≤ RawImpl.growthLeft x.2.right) &&
      (execU (.insertRemove 1 20) ⟨4, none⟩ x.2).leaves fun m' : GroupMap Nat Nat =>
        decide (m'.getRight 2 = some 10 ∧ m'.containsLeft 1 = false ∧ m'.containsRight 20 = false ∧ m'.containsLeft 3 = false))
    (by decide +kernel)
  rw [e'] at e
  cases e
  rw [Bool.and_eq_true, decide_eq_true_eq] at hx
  obtain ⟨m', e2, h2⟩ := Halt.of_leaves hx.2
  exact ⟨_, _, _, m', e', h.shows, ⟨hx.1, (by decide : (group _ _).length ≤ 1)⟩, e2, of_decide_eq_true h2⟩

omit [RawImpl] [LawfulRaw] in
/-- the witness: the hash of `20` panics during `swap_right(&10, 20)`; `10` has lost its left items, but they still say
they are its.  `remove_left(&1)` panics. -/
theorem C109_witness : letI := swissRaw 4
    ∃ m m', (withCapacityAndHasher 0 spreadHash).runU [(⟨99, none⟩, .plain (.insert 1 10))] = some m ∧
      execU (.swapRight 10 20) ⟨2, none⟩ m = .panic none m' ∧
      m'.getRight 1 = some 10 ∧ m'.arePaired 1 10 = false ∧ m'.isRightPaired 10 = false ∧
      (m'.removeLeft 1).toOption.isSome = false := by
  let _ := swissRaw 4
  obtain ⟨m, e, h⟩ := ranU (e := (withCapacityAndHasher 0 spreadHash).runU [(⟨99, none⟩, .plain (.insert 1 10))])
    (p := fun m => (execU (.swapRight 10 20) ⟨2, none⟩ m).leaves fun m' : GroupMap Nat Nat =>
        decide (m'.getRight 1 = some 10 ∧ m'.arePaired 1 10 = false ∧ m'.isRightPaired 10 = false ∧
          (m'.removeLeft 1).toOption.isSome = false)) (by decide +kernel)
  obtain ⟨m', e', h'⟩ := Halt.of_leaves h
  exact ⟨m, m', e, e', of_decide_eq_true h'⟩

/-- `1` with `10`; `20` and `30` without left items -/
def Demo.three : List (Fate × Call Nat Nat) :=
  [(⟨99, none⟩, .plain (.insert 1 10)), (⟨99, none⟩, .plain (.insertRight 20)), (⟨99, none⟩, .plain (.insertRight 30))]

omit [RawImpl] [LawfulRaw] in
/-- the second witness: `Eq` panics in the `remove_left` of `insert_left(1, &20)`; the group of `20` has a dangling
entry, `get_left_iter(&20)` panics.  If `insert_left(1, &30)` is called then, `1` is listed in the groups of both `20`
and `30`. -/
theorem C109_witness_insert_left : letI := swissRaw 4
    ∃ m m' m'' o, (withCapacityAndHasher 0 spreadHash).runU Demo.three = some m ∧
      execU (.insertLeft 1 20) ⟨4, none⟩ m = .panic none m' ∧
      (m'.getLeftList 20).toOption = none ∧ m'.getRight 1 = some 10 ∧
      m'.insertLeft 1 30 = .ok (o, m'') ∧
      (m''.getLeftList 20).toOption = some (some [1]) ∧ (m''.getLeftList 30).toOption = some (some [1]) ∧
      m''.getRight 1 = some 30 := by
  let _ := swissRaw 4
  obtain ⟨m, e, h⟩ := ranU (e := (withCapacityAndHasher 0 spreadHash).runU Demo.three)
    (p := fun m => (execU (.insertLeft 1 20) ⟨4, none⟩ m).leaves fun m' : GroupMap Nat Nat =>
        decide ((m'.getLeftList 20).toOption = none ∧ m'.getRight 1 = some 10) &&
        (m'.insertLeft 1 30).toOption.any fun x : Option Nat × GroupMap Nat Nat => decide ((x.2.getLeftList 20).toOption = some (some [1]) ∧
          (x.2.getLeftList 30).toOption = some (some [1]) ∧ x.2.getRight 1 = some 30)) (by decide +kernel)
  obtain ⟨m', e', h'⟩ := Halt.of_leaves h
  rw [Bool.and_eq_true, decide_eq_true_eq] at h'
  obtain ⟨x, e2, h2⟩ := ranU h'.2
  cases e3 : m'.insertLeft 1 30 with
  | error p => rw [e3] at e2; cases e2
  | ok y =>
    rw [e3] at e2; cases e2
    exact ⟨m, m', _, _, e, e', h'.1.1, h'.1.2, e3, of_decide_eq_true h2⟩

omit [RawImpl] [LawfulRaw] in
/-- the third witness: `Eq` panics in the last probe of `pair(&1, &20)`; `1` says it belongs to `20`, which does not
list it, and `remove_left(&1)` panics. -/
theorem C109_witness_pair : letI := swissRaw 4
    ∃ m m', (withCapacityAndHasher 0 spreadHash).runU Demo.three = some m ∧
      execU (.pair 1 20) ⟨4, none⟩ m = .panic none m' ∧
      m'.getRight 1 = some 20 ∧ m'.arePaired 1 20 = false ∧ m'.isRightPaired 20 = false ∧ m'.isRightPaired 10 = false ∧
      (m'.removeLeft 1).toOption.isSome = false := by
  let _ := swissRaw 4
  obtain ⟨m, e, h⟩ := ranU (e := (withCapacityAndHasher 0 spreadHash).runU Demo.three)
    (p := fun m => (execU (.pair 1 20) ⟨4, none⟩ m).leaves fun m' : GroupMap Nat Nat =>
        decide (m'.getRight 1 = some 20 ∧ m'.arePaired 1 20 = false ∧ m'.isRightPaired 20 = false ∧
          m'.isRightPaired 10 = false ∧ (m'.removeLeft 1).toOption.isSome = false)) (by decide +kernel)
  obtain ⟨m', e', h'⟩ := Halt.of_leaves h
  exact ⟨m, m', e, e', of_decide_eq_true h'⟩

omit [RawImpl] [LawfulRaw] in
/-- the fourth witness: the hash of the first removed left item panics in `remove_right(&10)`, with `10 ↦ {1, 2}`; the
other left item stays without a right item, and `iter_paired()` panics. -/
theorem C109_witness_remove_right : letI := swissRaw 4
    ∃ m m', (withCapacityAndHasher 0 spreadHash).runU
        [(⟨99, none⟩, .plain (.insert 1 10)), (⟨99, none⟩, .plain (.insert 2 10))] = some m ∧
      execU (.removeRight 10) ⟨2, none⟩ m = .panic none m' ∧
      m'.lenLeft = 1 ∧ m'.lenRight = 0 ∧ m'.iterPairedList.toOption = none := by
  let _ := swissRaw 4
  obtain ⟨m, e, h⟩ := ranU (e := (withCapacityAndHasher 0 spreadHash).runU
      [(⟨99, none⟩, .plain (.insert 1 10)), (⟨99, none⟩, .plain (.insert 2 10))])
    (p := fun m => (execU (.removeRight 10) ⟨2, none⟩ m).leaves fun m' : GroupMap Nat Nat =>
        decide (m'.lenLeft = 1 ∧ m'.lenRight = 0 ∧ m'.iterPairedList.toOption = none)) (by decide +kernel)
  obtain ⟨m', e', h'⟩ := Halt.of_leaves h
  exact ⟨m, m', e, e', of_decide_eq_true h'⟩

omit [RawImpl] [LawfulRaw] in
/-- the fifth witness: `Hash` panics while the right table grows during `insert(4, 40)`.  `4` is there without a right
item, and its id is given to the next left item, too: after `insert(5, 10)` two left items have the same id. -/
theorem C109_witness_insert : letI := swissRaw 4
    ∃ m m' m'', (withCapacityAndHasher 0 spreadHash).runU
        [(⟨99, none⟩, .plain (.insert 1 10)), (⟨99, none⟩, .plain (.insert 2 20)), (⟨99, none⟩, .plain (.insert 3 30))] = some m ∧
      execU (.insert 4 40) ⟨8, none⟩ m = .panic none m' ∧
      m'.containsLeft 4 = true ∧ m'.getRight 4 = none ∧ m'.containsRight 40 = false ∧
      m'.insert 5 10 = .ok m'' ∧ ¬ (m''.left.toList.map (·.id)).Nodup := by
  let _ := swissRaw 4
  obtain ⟨m, e, h⟩ := ranU (e := (withCapacityAndHasher 0 spreadHash).runU
      [(⟨99, none⟩, .plain (.insert 1 10)), (⟨99, none⟩, .plain (.insert 2 20)), (⟨99, none⟩, .plain (.insert 3 30))])
    (p := fun m => (execU (.insert 4 40) ⟨8, none⟩ m).leaves fun m' : GroupMap Nat Nat =>
        decide (m'.containsLeft 4 = true ∧ m'.getRight 4 = none ∧ m'.containsRight 40 = false) &&
        (m'.insert 5 10).toOption.any fun x : GroupMap Nat Nat => decide (¬ (x.left.toList.map LeftItem.id).Nodup)) (by decide +kernel)
  obtain ⟨m', e', h'⟩ := Halt.of_leaves h
  rw [Bool.and_eq_true, decide_eq_true_eq] at h'
  obtain ⟨x, e2, h2⟩ := ranU h'.2
  cases e3 : m'.insert 5 10 with
  | error p => rw [e3] at e2; cases e2
  | ok y =>
    rw [e3] at e2; cases e2
    exact ⟨m, m', _, e, e', h'.1.1, h'.1.2.1, h'.1.2.2, e3, of_decide_eq_true h2⟩

omit [RawImpl] [LawfulRaw] in
theorem C109_false : ¬ C109_full := by
  intro h
  let _ := swissRaw 4; have := swissRaw_lawful 4; have := swissRaw_cap 4
  obtain ⟨x, e, hx⟩ := ran (e := (withCapacityAndHasher 0 spreadHash).exec (.insert 1 10))
    (p := fun x => (execU (.swapRight 10 20) ⟨2, none⟩ x.2).leaves fun m' : GroupMap Nat Nat =>
      decide (m'.getRight 1 = some 10 ∧ m'.arePaired 1 10 = false)) (by decide +kernel)
  have ha : (withCapacityAndHasher 0 spreadHash : GroupMap Nat Nat).arePaired 1 10 = false := by decide +kernel
  have hr : Reachable x.2 := .step (op := .insert 1 10) (.withCapacity 0 spreadHash) ha e
  obtain ⟨m', e', h'⟩ := Halt.of_leaves hx
  obtain ⟨c, hc⟩ := hr.repr
  obtain ⟨d, _, hd, _⟩ := h Nat Nat _ m' c _ _ hr hc.shows e'
  obtain ⟨h1, h2⟩ := of_decide_eq_true h'
  rw [hd.getRight] at h1
  rw [hd.arePaired, hasPair, List.any_eq_false] at h2
  cases h3 : findL d 1 with
  | none => rw [h3] at h1; cases h1
  | some p =>
    rw [h3] at h1
    have h4 := h2 p (List.mem_of_find?_eq_some h3)
    have h5 := List.find?_some h3
    have h6 : p.2 = 10 := Option.some.inj h1
    rw [h6] at h4
    exact h4 (by simpa using h5)

end Verif.GroupMap
