import Verif.CycleMap.Ledger
import Verif.PartialMap.Ledger
import Verif.GroupMap.Ledger
import Verif.Props.CycleDemo
import Verif.Props.PartialDemo
import Verif.Props.GroupDemo
/-! Property C123: no item gets lost, and none is made up. -/
set_option linter.unusedSectionVars false
set_option linter.unusedSimpArgs false

namespace Verif.CycleMap
open CycleSpec OptionalPair Demo

variable [RawImpl] [LawfulRaw] {L R : Type} [BEq L] [BEq R] [EquivBEq L] [EquivBEq R]
variable {m : CycleMap L R} {c : List (L × R)}

/-- the items in the map -/
def stored (m : CycleMap L R) : List (L ⊕ R) := m.iterLeft.map .inl ++ m.iterRight.map .inr

theorem items_sides (c : List (L × R)) : (items c).Perm ((c.map (·.1)).map .inl ++ (c.map (·.2)).map .inr) := by
  induction c with
  | nil => exact .refl _
  | cons p c ih =>
    refine perm_of_measure fun k k1 k0 kc ka kp => ?_
    have := kp _ _ ih
    simp [items, pieces, ka, kc, k0] at *
    omega

theorem Shows.stored (h : Shows m c) : (stored m).Perm (items c) :=
  ((h.iterLeft.map _).append (h.iterRight.map _)).trans (items_sides c).symm

/-- C123: whatever call is made, the items it takes (`takes`) and those that were in the map are, one by one, those in the map afterwards, those it hands
out (`hands`), and those it drops; which these are, `Drops` says for each call. -/
theorem C123_call (h : Reachable m) (hc : Shows m c) {op : Op L R} (hs : Safe c op) (hcl : ∀ cl cr, op ≠ .clone cl cr) :
    ∃ o m' g, m.exec op = .ok (o, m') ∧ Drops c op g ∧ (takes op ++ m.stored).Perm (m'.stored ++ hands op o ++ g) := by
  have h := h.repr_of_shows hc
  obtain ⟨o, m', c', e, s, h'⟩ := exec_simulates h hs
  obtain ⟨g, d, p⟩ := step_ledger h.oneToOne hs s hcl
  exact ⟨o, m', g, e, d, (hc.stored.append_left _).trans (p.trans ((h'.shows.stored.symm.append_right _).append_right _))⟩

/-- C123, for histories: all items ever taken and those that were in the map at the start are, one by one, those in the map at the end, those handed out
on the way, and those dropped on the way. -/
theorem C123_history (h : Reachable m) (hc : Shows m c) {ops : List (Op L R)} (hs : SafeRun c ops)
    (hcl : ∀ op ∈ ops, ∀ cl cr, op ≠ .clone cl cr) :
    ∃ os m' c' g, m.run ops = .ok (os, m') ∧ DropsAll c ops os c' g ∧ Shows m' c' ∧
      (ops.flatMap takes ++ m.stored).Perm (m'.stored ++ (ops.zip os).flatMap (fun x => hands x.1 x.2) ++ g) := by
  obtain ⟨os, m', c', g, e, d, h', p⟩ := run_ledger (h.repr_of_shows hc) hs hcl
  exact ⟨os, m', c', g, e, d, h'.shows, (hc.stored.append_left _).trans (p.trans ((h'.shows.stored.symm.append_right _).append_right _))⟩

/-- the calls that never drop an item -/
def keeps : Op L R → Bool
  | .swapLeft .. | .swapLeftChecked .. | .swapLeftOrInsert .. | .swapRight .. | .swapRightChecked .. | .swapRightOrInsert .. | .clear |
    .drainFilter .. | .retain .. | .extend _ | .clone .. => false
  | _ => true

theorem keeps_drops {op : Op L R} (h : keeps op = true) {g : List (L ⊕ R)} (hd : Drops c op g) : g = [] := by
  cases op <;> first | exact hd | cases h

/-- C123, without drops: in a history of `insert`, the removals, whole `drain`s and `drain_filter`s, and lookups nothing is ever dropped. -/
theorem C123_keeps (h : Reachable m) (hc : Shows m c) {ops : List (Op L R)} (hs : SafeRun c ops) (hk : ∀ op ∈ ops, keeps op = true) :
    ∃ os m', m.run ops = .ok (os, m') ∧
      (ops.flatMap takes ++ m.stored).Perm (m'.stored ++ (ops.zip os).flatMap (fun x => hands x.1 x.2)) := by
  obtain ⟨os, m', c', g, e, d, -, p⟩ := C123_history h hc hs fun op ho cl cr he => by
    have := hk op ho; rw [he] at this; cases this
  refine ⟨os, m', e, ?_⟩
  have hg : g = [] := by
    clear e p hs h hc
    induction ops generalizing os c g with
    | nil => exact d.2.2
    | cons op ops ih =>
      obtain ⟨o, os', c₁, g₁, g₂, -, -, d1, d2, rfl⟩ := d
      rw [keeps_drops (hk op List.mem_cons_self) d1, ih (fun x hx => hk x (List.mem_cons_of_mem _ hx)) os' g₂ d2]
      rfl
  rw [hg, List.append_nil] at p
  exact p

/-- `insert(2, 10)` hands out two pairs and drops nothing -/
example : ∃ o m' g, demo.exec (.insert 2 10) = .ok (o, m') ∧ Drops [(3, 30), (2, 20), (1, 10)] (.insert 2 10) g ∧
    (takes (.insert 2 10) ++ demo.stored).Perm (m'.stored ++ hands (.insert 2 10) o ++ g) :=
  C123_call demo_reachable demo_shows trivial fun _ _ h => by cases h

/-- `swap_left(9, 2)`, where there is no 9, drops the new `2` and the stored pair of `2` -/
example : ∃ o m' g, demo.exec (.swapLeft 9 2) = .ok (o, m') ∧ g = [.inl 2, .inl 2, .inr 20] ∧
    (takes (.swapLeft 9 2) ++ demo.stored).Perm (m'.stored ++ hands (.swapLeft 9 2) o ++ g) := by
  obtain ⟨o, m', g, h1, h2, h3⟩ := C123_call demo_reachable demo_shows (op := .swapLeft 9 2) trivial fun _ _ h => by cases h
  exact ⟨o, m', g, h1, h2, h3⟩

/-- a history in which nothing is dropped -/
example : ∃ os m', demo.run [.insert 2 10, .removeViaLeft 3, .insert 7 20, .len] = .ok (os, m') ∧
    (([.inl 2, .inr 10, .inl 7, .inr 20] : List (Nat ⊕ Nat)) ++ demo.stored).Perm (m'.stored ++
      (([.insert 2 10, .removeViaLeft 3, .insert 7 20, .len] : List (Op Nat Nat)).zip os).flatMap (fun x : Op Nat Nat × Out Nat Nat => hands x.1 x.2)) := by
  obtain ⟨os, m', h1, h2⟩ := C123_keeps demo_reachable demo_shows (ops := [.insert 2 10, .removeViaLeft 3, .insert 7 20, .len])
    ⟨trivial, fun _ _ _ => ⟨trivial, fun _ _ _ => ⟨trivial, fun _ _ _ => ⟨trivial, fun _ _ _ => trivial⟩⟩⟩⟩ (by simp [keeps])
  exact ⟨os, m', h1, h2⟩

end Verif.CycleMap

namespace Verif.PartialMap
open PartialSpec OptionalPair Demo

variable [RawImpl] [LawfulRaw] {L R : Type} [BEq L] [BEq R] [EquivBEq L] [EquivBEq R]
variable {m : PartialMap L R} {c : List (OptionalPair L R)}

/-- the items in the map -/
def stored (m : PartialMap L R) : List (L ⊕ R) := m.iterLeft.map .inl ++ m.iterRight.map .inr

theorem items_sides (c : List (OptionalPair L R)) : (items c).Perm ((c.filterMap leftOf).map .inl ++ (c.filterMap rightOf).map .inr) := by
  induction c with
  | nil => exact .refl _
  | cons p c ih =>
    refine perm_of_measure fun k k1 k0 kc ka kp => ?_
    have := kp _ _ ih
    cases p <;> simp [items, pieces, leftOf, rightOf, List.filterMap_cons, ka, kc, k0] at * <;> omega

theorem Shows.stored (h : Shows m c) : (stored m).Perm (items c) :=
  ((h.iterLeft.map _).append (h.iterRight.map _)).trans (items_sides c).symm

/-- C123, for `PartialCycleMap`: whatever call is made, the items it takes and those that were in the map are, one by one, those in the map afterwards,
those it hands out, and those it drops; which these are, `Drops` says for each call. -/
theorem C123_call (h : Reachable m) (hc : Shows m c) {op : Op L R} (hs : Safe m.hb c op) (hcl : ∀ cl cr, op ≠ .clone cl cr) :
    ∃ o m' g, m.exec op = .ok (o, m') ∧ Drops c op g ∧ (takes op ++ m.stored).Perm (m'.stored ++ hands op o ++ g) := by
  have h := h.repr_of_shows hc
  obtain ⟨o, m', c', e, s, h', -⟩ := exec_simulates h hs
  obtain ⟨g, d, p⟩ := step_ledger h.oneToOne hs s hcl
  exact ⟨o, m', g, e, d, (hc.stored.append_left _).trans (p.trans ((h'.shows.stored.symm.append_right _).append_right _))⟩

/-- C123, for histories -/
theorem C123_history (h : Reachable m) (hc : Shows m c) {ops : List (Op L R)} (hs : SafeRun m.hb c ops)
    (hcl : ∀ op ∈ ops, ∀ cl cr, op ≠ .clone cl cr) :
    ∃ os m' c' g, m.run ops = .ok (os, m') ∧ DropsAll c ops os c' g ∧ Shows m' c' ∧
      (ops.flatMap takes ++ m.stored).Perm (m'.stored ++ (ops.zip os).flatMap (fun x => hands x.1 x.2) ++ g) := by
  obtain ⟨os, m', c', g, e, d, h', p⟩ := run_ledger rfl (h.repr_of_shows hc) hs hcl
  exact ⟨os, m', c', g, e, d, h'.shows, (hc.stored.append_left _).trans (p.trans ((h'.shows.stored.symm.append_right _).append_right _))⟩

/-- the calls that never drop an item -/
def keeps : Op L R → Bool
  | .swapLeft .. | .swapLeftChecked .. | .swapLeftOrInsert .. | .swapRight .. | .swapRightChecked .. | .swapRightOrInsert .. | .clear |
    .drain _ | .drainFilter .. | .retain .. | .retainPaired .. | .retainUnpaired .. | .extendPairs _ | .extend _ | .clone .. => false
  | _ => true

theorem keeps_drops {op : Op L R} (h : keeps op = true) {g : List (L ⊕ R)} (hd : Drops c op g) : g = [] := by
  cases op <;> first | exact hd | cases h

/-- C123, without drops: in a history of insertions, removals, calls that pair or unpair, and lookups nothing is ever dropped. -/
theorem C123_keeps (h : Reachable m) (hc : Shows m c) {ops : List (Op L R)} (hs : SafeRun m.hb c ops) (hk : ∀ op ∈ ops, keeps op = true) :
    ∃ os m', m.run ops = .ok (os, m') ∧
      (ops.flatMap takes ++ m.stored).Perm (m'.stored ++ (ops.zip os).flatMap (fun x => hands x.1 x.2)) := by
  obtain ⟨os, m', c', g, e, d, -, p⟩ := C123_history h hc hs fun op ho cl cr he => by
    have := hk op ho; rw [he] at this; cases this
  refine ⟨os, m', e, ?_⟩
  have hg : g = [] := by
    clear e p hs h hc
    induction ops generalizing os c g with
    | nil => exact d.2.2
    | cons op ops ih =>
      obtain ⟨o, os', c₁, g₁, g₂, -, -, d1, d2, rfl⟩ := d
      rw [keeps_drops (hk op List.mem_cons_self) d1, ih (fun x hx => hk x (List.mem_cons_of_mem _ hx)) os' g₂ d2]
      rfl
  rw [hg, List.append_nil] at p
  exact p

/-- a history in which nothing is dropped: `pair_forced` keeps the former partners in the map, `pair_forced_remove` hands them out -/
example : ∃ os m', demo.run [.pairForced 1 20, .pairForcedRemove 3 20, .removeLeft 3, .insertRight 20] = .ok (os, m') ∧
    (([.inr 20] : List (Nat ⊕ Nat)) ++ demo.stored).Perm (m'.stored ++
      (([.pairForced 1 20, .pairForcedRemove 3 20, .removeLeft 3, .insertRight 20] : List (Op Nat Nat)).zip os).flatMap
        (fun x : Op Nat Nat × Out Nat Nat => hands x.1 x.2)) := by
  obtain ⟨os, m', h1, h2⟩ := C123_keeps demo_reachable demo_shows (ops := [.pairForced 1 20, .pairForcedRemove 3 20, .removeLeft 3, .insertRight 20])
    ⟨trivial, fun _ _ _ => ⟨trivial, fun _ _ _ => ⟨trivial, fun _ _ _ => ⟨trivial, fun _ _ _ => trivial⟩⟩⟩⟩ (by simp [keeps])
  exact ⟨os, m', h1, h2⟩

/-- `swap_left_or_insert(2, 5, 50)` swaps, and drops `50` -/
example : ∃ o m' g, demo.exec (.swapLeftOrInsert 2 5 50) = .ok (o, m') ∧ g = [.inr 50] ∧
    (takes (.swapLeftOrInsert 2 5 50) ++ demo.stored).Perm (m'.stored ++ hands (.swapLeftOrInsert 2 5 50) o ++ g) := by
  obtain ⟨o, m', g, h1, h2, h3⟩ := C123_call demo_reachable demo_shows (op := .swapLeftOrInsert 2 5 50) (.inl rfl) fun _ _ h => by cases h
  exact ⟨o, m', g, h1, h2, h3⟩

end Verif.PartialMap

namespace Verif.GroupMap
open GroupSpec Demo

variable [RawImpl] [LawfulRaw] {L R : Type} [BEq L] [BEq R] [EquivBEq L] [EquivBEq R]
variable {m : GroupMap L R} {c : Contents L R}

/-- the items in the map -/
def stored (m : GroupMap L R) : List (L ⊕ R) := m.iterLeft.map .inl ++ m.iterRight.map .inr

theorem Shows.stored (h : Shows m c) : (stored m).Perm (items c) := by
  refine ((h.iterLeft.map _).append (h.iterRight.map _)).trans ?_
  rw [List.map_map]
  exact List.perm_append_comm

/-- C123, for `GroupMap`: whatever call is made, the items it takes and those that were in the map are, one by one, those in the map afterwards, those it
hands out, and those it drops; which these are, `Drops` says for each call. -/
theorem C123_call (h : Reachable m) (hc : Shows m c) {op : Op L R} (hs : Safe c op) (hcl : ∀ cl cr, op ≠ .clone cl cr) :
    ∃ o m' g, m.exec op = .ok (o, m') ∧ Drops c op g ∧ (takes op ++ m.stored).Perm (m'.stored ++ hands op o ++ g) := by
  have h := h.repr_of_shows hc
  obtain ⟨o, m', c', e, s, h', -⟩ := exec_simulates h hs
  obtain ⟨g, d, p⟩ := step_ledger h hs s hcl
  exact ⟨o, m', g, e, d, (hc.stored.append_left _).trans (p.trans ((h'.shows.stored.symm.append_right _).append_right _))⟩

/-- C123, for histories -/
theorem C123_history (h : Reachable m) (hc : Shows m c) {ops : List (Op L R)} (hs : SafeRun c ops)
    (hcl : ∀ op ∈ ops, ∀ cl cr, op ≠ .clone cl cr) :
    ∃ os m' c' g, m.run ops = .ok (os, m') ∧ DropsAll c ops os c' g ∧ Shows m' c' ∧
      (ops.flatMap takes ++ m.stored).Perm (m'.stored ++ (ops.zip os).flatMap (fun x => hands x.1 x.2) ++ g) := by
  obtain ⟨os, m', c', g, e, d, h', p⟩ := run_ledger (h.repr_of_shows hc) hs hcl
  exact ⟨os, m', c', g, e, d, h'.shows, (hc.stored.append_left _).trans (p.trans ((h'.shows.stored.symm.append_right _).append_right _))⟩

/-- the calls that never drop an item -/
def keeps : Op L R → Bool
  | .insert .. | .insertLeft .. | .swapRight .. | .swapRightRemove .. | .clear | .retainUnpaired .. | .extend _ | .extendOpt _ | .clone .. => false
  | _ => true

theorem keeps_drops {op : Op L R} (h : keeps op = true) {g : List (L ⊕ R)} (hd : Drops c op g) : g = [] := by
  cases op <;> first | exact hd | cases h

/-- C123, without drops: in a history of `insert_remove`, `insert_right`, `pair`, removals and lookups nothing is ever dropped. -/
theorem C123_keeps (h : Reachable m) (hc : Shows m c) {ops : List (Op L R)} (hs : SafeRun c ops) (hk : ∀ op ∈ ops, keeps op = true) :
    ∃ os m', m.run ops = .ok (os, m') ∧
      (ops.flatMap takes ++ m.stored).Perm (m'.stored ++ (ops.zip os).flatMap (fun x => hands x.1 x.2)) := by
  obtain ⟨os, m', c', g, e, d, -, p⟩ := C123_history h hc hs fun op ho cl cr he => by
    have := hk op ho; rw [he] at this; cases this
  refine ⟨os, m', e, ?_⟩
  have hg : g = [] := by
    clear e p hs h hc
    induction ops generalizing os c g with
    | nil => exact d.2.2
    | cons op ops ih =>
      obtain ⟨o, os', c₁, g₁, g₂, -, -, d1, d2, rfl⟩ := d
      rw [keeps_drops (hk op List.mem_cons_self) d1, ih (fun x hx => hk x (List.mem_cons_of_mem _ hx)) os' g₂ d2]
      rfl
  rw [hg, List.append_nil] at p
  exact p

/-- a history in which nothing is dropped -/
example : ∃ os m', demo.run [.insertRemove 1 20, .pair 2 30, .insertRight 30, .removeRight 20] = .ok (os, m') ∧
    (([.inl 1, .inr 20, .inr 30] : List (Nat ⊕ Nat)) ++ demo.stored).Perm (m'.stored ++
      (([.insertRemove 1 20, .pair 2 30, .insertRight 30, .removeRight 20] : List (Op Nat Nat)).zip os).flatMap (fun x : Op Nat Nat × Out Nat Nat => hands x.1 x.2)) := by
  obtain ⟨os, m', h1, h2⟩ := C123_keeps demo_reachable demo_shows (ops := [.insertRemove 1 20, .pair 2 30, .insertRight 30, .removeRight 20])
    ⟨trivial, fun _ _ _ => ⟨trivial, fun _ _ _ => ⟨trivial, fun _ _ _ => ⟨trivial, fun _ _ _ => trivial⟩⟩⟩⟩ (by simp [keeps])
  exact ⟨os, m', h1, h2⟩

/-- `insert(1, 20)` moves the stored `1` to the stored `20` and drops its arguments -/
example : ∃ o m' g, demo.exec (.insert 1 20) = .ok (o, m') ∧ g = [.inr 20, .inl 1] ∧
    (takes (.insert 1 20) ++ demo.stored).Perm (m'.stored ++ hands (.insert 1 20) o ++ g) := by
  obtain ⟨o, m', g, h1, h2, h3⟩ := C123_call demo_reachable demo_shows (op := .insert 1 20) rfl fun _ _ h => by cases h
  exact ⟨o, m', g, h1, h2, h3⟩

end Verif.GroupMap
