import Verif.Cost
import Verif.PartialMap.Room
import Verif.PartialMap.UnwindFollows
/-! How often the items' own code runs in the calls of a `PartialCycleMap`, over many calls (see `Verif.Cost`). -/
set_option linter.unusedSectionVars false
set_option linter.unusedSimpArgs false
namespace Verif.PartialMap
open PartialSpec OptionalPair Unw RawTable
open CycleMap (bind_ok)

variable [RawImpl] [LawfulRaw] [LawfulCap] [LawfulAmort] {L R : Type} [BEq L] [BEq R] {m : PartialMap L R}

/-- The number of places at which the items' own code runs in a call, growing included, if every call saves up for the
next growth of the tables: a hash and a probe count one each. -/
def price (m : PartialMap L R) : Op L R → Nat
  | .insert .. => 10
  | .insertLeft .. | .insertRight .. => 5
  | .pair .. | .unpair .. => 4
  | .pairForced .. | .pairForcedRemove .. => 8
  | .remove .. => 6
  | .removeViaLeft .. | .removeViaRight .. | .removeLeft .. | .removeRight .. => 2
  | .swapLeft .. | .swapRight .. => 10
  | .swapLeftChecked .. | .swapRightChecked .. => 14
  | .swapLeftOrInsert .. | .swapRightOrInsert .. => 12
  | .getLeft .. | .getRight .. | .containsLeft .. | .containsRight .. | .isLeftPaired .. | .isRightPaired .. => 2
  | .arePaired .. => 4
  | .lenLeft | .lenRight | .isEmpty | .clear | .iterUnpaired | .iterLeft | .iterRight => 0
  | .drain .. | .drainFilter .. => 0
  | .iter => 2 * m.left.len
  | .iterPaired => m.left.len
  | .retain .. => 6 * m.left.len
  | .retainPaired .. => 5 * m.left.len
  | .retainUnpaired .. => 2 * (m.left.len + m.right.len)
  | .extendPairs xs => 11 * xs.length + 1
  | .extend xs => 11 * xs.length + 1
  | .reserveLeft .. | .tryReserveLeft .. => m.left.len
  | .reserveRight .. | .tryReserveRight .. => m.right.len
  | .shrinkToLeft .. => 2 * m.left.len
  | .shrinkToRight .. => 2 * m.right.len
  | .shrinkToFit => 2 * m.left.len + 2 * m.right.len
  | .clone .. => 1

/-- the calls that concern single items -/
def single : Op L R → Bool
  | .iter | .iterPaired | .iterUnpaired | .iterLeft | .iterRight | .drain .. | .drainFilter .. => false
  | .retain .. | .retainPaired .. | .retainUnpaired .. | .extendPairs .. | .extend .. => false
  | .reserveLeft .. | .reserveRight .. | .tryReserveLeft .. | .tryReserveRight .. => false
  | .shrinkToLeft .. | .shrinkToRight .. | .shrinkToFit | .clone .. => false
  | _ => true

/-- calls one after the other; the fuse burns through all of them -/
def runAllU : List (Op L R) → Unw (PartialMap L R) (List (Out L R))
  | [] => return []
  | op :: rest => do
    let o ← execU op
    return o :: (← runAllU rest)

/-- what the calls of a history cost together -/
def bill (m : PartialMap L R) : List (Op L R) → Nat
  | [] => 0
  | op :: rest => m.price op + match m.exec op with
    | .ok (_, m') => m'.bill rest
    | .error _ => 0

/-- what the next growth of the two tables may cost beyond what was saved up for it -/
def debt (m : PartialMap L R) : Nat := m.left.debt + m.right.debt

theorem Roomy.debt {m' : PartialMap L R} {a b : Nat} (h : Roomy Meter.debt a b m m') :
    m'.debt ≤ m.debt + 2 * a + 2 * b := by
  have h1 := h.1.1
  have h2 := h.2.1
  simp only [PartialMap.debt]; omega

local notation "Costs" => Pays (M := PartialMap L R) debt

local macro "pay1" : tactic => `(tactic| first
  | exact Nat.le_refl _
  | exact getMut_debt (by assumption) _
  | exact removeEntry_debt (by assumption))

local macro "pay" : tactic => `(tactic| exact Nat.add_le_add (by pay1) (by pay1))

theorem arePairedU_costs (l : L) (r : R) : Costs (arePairedU l r) m 4 :=
  .user_bind <| .user_bind <| .user_bind <| .user_bind <| .get_bind .pure

theorem removeViaLeftU_costs (l : L) : Costs (removeViaLeftU l) m 2 := by
  refine .user_bind <| .user_bind <| .get_bind ?_
  try simp only
  split
  · exact .pure
  · refine .set_bind (by pay) ?_
    split
    · split
      · exact .fail
      · exact .set_bind (by pay) .pure
    · exact .pure

theorem removeViaRightU_costs (r : R) : Costs (removeViaRightU r) m 2 := by
  refine .user_bind <| .user_bind <| .get_bind ?_
  try simp only
  split
  · exact .pure
  · refine .set_bind (by pay) ?_
    split
    · split
      · exact .fail
      · exact .set_bind (by pay) .pure
    · exact .pure

theorem removeLeftU_costs (l : L) : Costs (removeLeftU l) m 2 := by
  refine .user_bind <| .user_bind <| .get_bind ?_
  try simp only
  split
  · exact .pure
  · refine .set_bind (by pay) ?_
    split
    · split
      · exact .fail
      · exact .set_bind (by pay) .pure
    · exact .pure

theorem removeRightU_costs (r : R) : Costs (removeRightU r) m 2 := by
  refine .user_bind <| .user_bind <| .get_bind ?_
  try simp only
  split
  · exact .pure
  · refine .set_bind (by pay) ?_
    split
    · split
      · exact .fail
      · exact .set_bind (by pay) .pure
    · exact .pure

theorem removeU_costs (l : L) (r : R) : Costs (removeU l r) m 6 :=
  (arePairedU_costs l r).seq (c' := 2) (fun a m' => by
    split
    · refine (removeViaLeftU_costs l).seq (c' := 0) (fun o m' => ?_) (by omega)
      split
      · exact .pure
      · exact .pure
      · exact .fail
    · exact .pure) (by omega)

theorem insertU_costs (l : L) (r : R) : Costs (insertU l r) m 10 := by
  refine (removeViaLeftU_costs l).seq (c' := 8) (fun o m => ?_) (by omega)
  refine (removeViaRightU_costs r).seq (c' := 6) (fun o m => ?_) (by omega)
  refine .user_bind <| .user_bind <| .get_bind ?_
  refine pays_insert_bind (k := 0) (c := 2) (by simp only [debt]; omega) ?_
  refine .get_bind ?_
  exact pays_insert_bind (k := 0) (c := 0) (by simp only [debt]; omega) .pure

theorem insertLeftU_costs (l : L) : Costs (insertLeftU l : Unw _ (OptionalPair L R)) m 5 := by
  refine (removeViaLeftU_costs l).seq (c' := 3) (fun o m => ?_) (by omega)
  refine .user_bind <| .get_bind ?_
  exact pays_insert_bind (k := 0) (c := 0) (by simp only [debt]; omega) .pure

theorem insertRightU_costs (r : R) : Costs (insertRightU r : Unw _ (OptionalPair L R)) m 5 := by
  refine (removeViaRightU_costs r).seq (c' := 3) (fun o m => ?_) (by omega)
  refine .user_bind <| .get_bind ?_
  exact pays_insert_bind (k := 0) (c := 0) (by simp only [debt]; omega) .pure

theorem pairU_costs (l : L) (r : R) : Costs (pairU l r) m 4 := by
  refine .user_bind <| .user_bind <| .user_bind <| .user_bind <| .get_bind <| .set_bind ?_ .pure
  have := (pair_roomy (G := Meter.debt) (m := m) l r).debt
  omega

theorem unpairU_costs (l : L) (r : R) : Costs (unpairU l r) m 4 := by
  refine .user_bind <| .user_bind <| .user_bind <| .user_bind <| .get_bind <| .set_bind ?_ .pure
  have := (unpair_roomy (G := Meter.debt) (m := m) l r).debt
  omega

local macro "paid" : tactic => `(tactic| repeat' first
  | exact .pure
  | exact .fail
  | refine .set_bind (by pay) ?_
  | split)

theorem pairForcedU_costs (l : L) (r : R) : Costs (pairForcedU l r) m 8 := by
  refine (arePairedU_costs l r).seq (c' := 4) (fun a m' => ?_) (by omega)
  split
  · exact .pure
  · refine .user_bind <| .user_bind <| .user_bind <| .user_bind <| .get_bind ?_
    try simp only
    paid

theorem pairForcedRemoveU_costs (l : L) (r : R) : Costs (pairForcedRemoveU l r) m 8 := by
  refine (arePairedU_costs l r).seq (c' := 4) (fun a m' => ?_) (by omega)
  split
  · exact .pure
  · refine .user_bind <| .user_bind <| .user_bind <| .user_bind <| .get_bind ?_
    try simp only
    paid

theorem swapLeftEqCheckU_costs (a b : L) (h : UInt64) : Costs (swapLeftEqCheckU a b h) m 4 := by
  refine .user_bind <| .get_bind ?_
  try simp only
  split
  · exact .pure
  · refine .user_bind ?_
    split
    · exact removeViaLeftU_costs b
    · exact .pure

theorem swapRightEqCheckU_costs (a b : R) (h : UInt64) : Costs (swapRightEqCheckU a b h) m 4 := by
  refine .user_bind <| .get_bind ?_
  try simp only
  split
  · exact .pure
  · refine .user_bind ?_
    split
    · exact removeViaRightU_costs b
    · exact .pure

theorem swapLeftU_costs (a b : L) : Costs (swapLeftU a b) m 10 := by
  refine .user_bind <| .get_bind ?_
  refine (swapLeftEqCheckU_costs a b _).seq (c' := 5) (fun o m1 => ?_) (by omega)
  refine .user_bind <| .user_bind <| .get_bind ?_
  try simp only
  split
  · exact .pure
  · have step : ∀ {α : Type} {t : RawTable (MappingPair L)} {m2 : PartialMap L R} {x h v hasher} {g : Unit → Unw (PartialMap L R) α},
        m2.left.removeEntry (m1.hb.hl a) (equivalentKey a) = some (x, t) → (∀ m3, Costs (g ()) m3 0) →
        Costs (set { m2 with left := t } >>= fun _ => t.insertU h v hasher (fun t => { m2 with left := t }) >>= g) m2 2 := by
      intro α t m2 x h v hasher g e hg
      have := removeEntry_debt e
      refine .set_bind (by simp only [debt]; omega) ?_
      exact pays_insert_bind (k := 0) (c := 0) (by simp only [debt]; omega) (hg _)
    split
    · split
      · exact .fail_bind
      · refine .set_bind (by pay) <| .get_bind <| .user_bind ?_
        split
        · exact .fail
        · exact step (by assumption) fun _ => by split <;> exact .pure
    · refine .get_bind <| .user_bind ?_
      split
      · exact .fail
      · exact step (by assumption) fun _ => by split <;> exact .pure

theorem swapRightU_costs (a b : R) : Costs (swapRightU a b) m 10 := by
  refine .user_bind <| .get_bind ?_
  refine (swapRightEqCheckU_costs a b _).seq (c' := 5) (fun o m1 => ?_) (by omega)
  refine .user_bind <| .user_bind <| .get_bind ?_
  try simp only
  split
  · exact .pure
  · have step : ∀ {α : Type} {t : RawTable (MappingPair R)} {m2 : PartialMap L R} {x h v hasher} {g : Unit → Unw (PartialMap L R) α},
        m2.right.removeEntry (m1.hb.hr a) (equivalentKey a) = some (x, t) → (∀ m3, Costs (g ()) m3 0) →
        Costs (set { m2 with right := t } >>= fun _ => t.insertU h v hasher (fun t => { m2 with right := t }) >>= g) m2 2 := by
      intro α t m2 x h v hasher g e hg
      have := removeEntry_debt e
      refine .set_bind (by simp only [debt]; omega) ?_
      exact pays_insert_bind (k := 0) (c := 0) (by simp only [debt]; omega) (hg _)
    split
    · split
      · exact .fail_bind
      · refine .set_bind (by pay) <| .get_bind <| .user_bind ?_
        split
        · exact .fail
        · exact step (by assumption) fun _ => by split <;> exact .pure
    · refine .get_bind <| .user_bind ?_
      split
      · exact .fail
      · exact step (by assumption) fun _ => by split <;> exact .pure

theorem swapLeftCheckedU_costs (a : L) (e : R) (b : L) : Costs (swapLeftCheckedU a e b) m 14 :=
  (arePairedU_costs a e).seq (c' := 10) (fun o m' => by
    split
    · exact .pure
    · exact swapLeftU_costs a b) (by omega)

theorem swapRightCheckedU_costs (a : R) (e : L) (b : R) : Costs (swapRightCheckedU a e b) m 14 :=
  (arePairedU_costs e a).seq (c' := 10) (fun o m' => by
    split
    · exact .pure
    · exact swapRightU_costs a b) (by omega)

theorem swapLeftOrInsertU_costs (a b : L) (r : R) : Costs (swapLeftOrInsertU a b r) m 12 := by
  refine .user_bind <| .user_bind <| .get_bind ?_
  try simp only
  split
  · exact swapLeftU_costs a b
  · refine (insertU_costs b r).seq (c' := 0) (fun o m' => ?_) (by omega)
    split
    · exact .pure
    · exact .pure
    · exact .fail

theorem swapRightOrInsertU_costs (a b : R) (l : L) : Costs (swapRightOrInsertU a b l) m 12 := by
  refine .user_bind <| .user_bind <| .get_bind ?_
  try simp only
  split
  · exact swapRightU_costs a b
  · refine (insertU_costs l b).seq (c' := 0) (fun o m' => ?_) (by omega)
    split
    · exact .pure
    · exact .pure
    · exact .fail

theorem nextU_costs (l : MappingPair L) : Costs (nextU l) m 2 := .user_bind <| .user_bind <| .get_bind .pure

theorem collectU_costs (ls : List (MappingPair L)) : Costs (collectU ls) m (2 * ls.length) := by
  induction ls generalizing m with
  | nil => exact .pure
  | cons l rest ih =>
    exact (nextU_costs l).seq (c' := 2 * rest.length) (fun p m' => ih.map) (by simp only [List.length_cons]; omega)

theorem collectPairedU_costs (ls : List (MappingPair L)) : Costs (collectPairedU ls) m ls.length := by
  induction ls generalizing m with
  | nil => exact .pure
  | cons l rest ih =>
    simp only [collectPairedU]
    split
    · exact ih.mono (by simp)
    · refine .user_bind <| .get_bind ?_
      split
      · exact .fail
      · exact .pure
      · exact ih.map

theorem drainU_costs (n : Nat) : Costs (drainU n) m 0 := by
  refine .of_run (drainU_run n) fun a m' e => ?_
  obtain ⟨⟨o2, m2⟩, h2, h1⟩ := bind_ok e
  obtain ⟨⟨o3, m3⟩, h3, h1⟩ := bind_ok h1; cases h1
  have h : Roomy Meter.debt 0 0 m { m with left := m.left.clear, right := m3.right } :=
    ⟨.clear, (DrainIter.take_room h2).trans0 (DrainIter.take_room h3)⟩
  have := h.debt
  omega

theorem drainFilterU_costs {σ : Type} (f : σ → OptionalPair L R → Bool × σ) (st : σ) (n : Nat) :
    Costs (drainFilterU (sure f) st n) m 0 := by
  refine .of_run (drainFilterU_run f st n) fun a m' e => ?_
  obtain ⟨⟨ps, s, m1⟩, h1, h2⟩ := bind_ok e
  cases h2
  have := (drainFilterTake_roomy (G := Meter.debt) h1).debt
  omega

theorem retainScanU_costs {σ : Type} (f : σ → OptionalPair L R → Bool × σ) (ls : List (MappingPair L)) (st : σ) :
    Costs (retainScanU (sure f) ls st) m (6 * ls.length) := by
  induction ls generalizing st m with
  | nil => exact .pure
  | cons l rest ih =>
    refine (nextU_costs l).seq (c' := 6 * rest.length + 4) (fun p m' => ?_) (by simp only [List.length_cons]; omega)
    simp only [sure]
    split
    · rename_i h; cases h
    · refine .user_bind ?_
      split
      · refine .user_bind <| .user_bind <| .user_bind <| .get_bind ?_
        split
        · exact .fail
        · exact (ih _).map
      · refine Pays.mono (c := 6 * rest.length + 2) (.user_bind <| .user_bind <| .get_bind ?_) (by omega)
        split
        · exact .fail
        · exact (ih _).map
    · exact (ih _).mono (by omega)

theorem retainDropU_costs (b : Bool) (ks : List (Option UInt64 × Option UInt64 × Nat)) : Costs (retainDropU b ks) m 0 := by
  induction ks generalizing m with
  | nil => exact .pure
  | cons k ks ih =>
    obtain ⟨x, y, i⟩ := k
    rcases x with _ | x <;> rcases y with _ | y <;> (try simp only [retainDropU])
    · exact .fail
    · refine .get_bind <| .set_bind ?_ ih
      split
      · exact Nat.le_refl _
      · pay
    · refine .get_bind <| .set_bind ?_ ih
      split
      · exact Nat.le_refl _
      · pay
    · split
      · refine .get_bind <| .set_bind ?_ ih
        have := (removeViaHashesAndId_roomy (G := Meter.debt) (m := m) x y i).debt
        omega
      · exact .fail

theorem retainU_costs {σ : Type} (f : σ → OptionalPair L R → Bool × σ) (st : σ) :
    Costs (retainU (sure f) st) m (6 * m.left.len) := by
  refine .get_bind ?_
  refine (retainScanU_costs f _ st).seq (c' := 0) (fun ks m' => retainDropU_costs true ks) ?_
  simp only [PartialMap.iter, toList, RawTable.len, List.length_map]; omega

theorem retainPairedScanU_costs {σ : Type} (f : σ → L → R → Bool × σ) (ls : List (MappingPair L)) (st : σ) :
    Costs (retainPairedScanU (sure₂ f) ls st) m (5 * ls.length) := by
  induction ls generalizing st m with
  | nil => exact .pure
  | cons l rest ih =>
    simp only [retainPairedScanU]
    split
    · exact (ih _).mono (by simp only [List.length_cons]; omega)
    · refine Pays.mono (c := 5 * rest.length + 4 + 1) (.user_bind <| .get_bind ?_) (by simp only [List.length_cons]; omega)
      split
      · exact .fail
      · exact .pure
      · simp only [sure₂]
        split
        · rename_i h; cases h
        · refine .user_bind <| .user_bind <| .user_bind <| .user_bind ?_
          split
          · exact .fail
          · exact (ih _).map
        · exact (ih _).mono (by omega)

theorem retainPairedU_costs {σ : Type} (f : σ → L → R → Bool × σ) (st : σ) :
    Costs (retainPairedU (sure₂ f) st) m (5 * m.left.len) := by
  refine .get_bind ?_
  refine (retainPairedScanU_costs f _ st).seq (c' := 0) (fun ks m' => .get_bind <| .set ?_) ?_
  · have := (retainPairedDrop_roomy (G := Meter.debt) (m := m') ks).debt
    omega
  · simp only [PartialMap.iterPaired, toList, RawTable.len, List.length_map]; omega

theorem retainUnpairedScanU_costs {σ : Type} (f : σ → OptionalPair L R → Bool × σ) (xs : List (OptionalPair L R)) (st : σ) :
    Costs (retainUnpairedScanU (sure f) xs st) m (2 * xs.length) := by
  induction xs generalizing st m with
  | nil => exact .pure
  | cons x rest ih =>
    simp only [retainUnpairedScanU, sure]
    split
    · rename_i h; cases h
    · refine Pays.mono (c := 2 * rest.length + 2) ?_ (by simp only [List.length_cons]; omega)
      split
      · refine .user_bind <| .user_bind <| .get_bind ?_
        split
        · exact .fail
        · exact (ih _).map
      · refine .user_bind <| .user_bind <| .get_bind ?_
        split
        · exact .fail
        · exact (ih _).map
      · exact .fail
    · exact (ih _).mono (by simp only [List.length_cons]; omega)

theorem retainUnpairedU_costs {σ : Type} (f : σ → OptionalPair L R → Bool × σ) (st : σ) :
    Costs (retainUnpairedU (sure f) st) m (2 * (m.left.len + m.right.len)) := by
  refine .get_bind ?_
  refine (retainUnpairedScanU_costs f _ st).seq (c' := 0) (fun ks m' => retainDropU_costs false ks) ?_
  have : m.iterUnpairedList.length ≤ m.left.len + m.right.len := by
    rw [iterUnpairedList_eq]
    refine Nat.le_trans (UnpairedIter.future_length _) ?_
    simp [PartialMap.iterUnpaired, toList, RawTable.len]
  omega

theorem extendPairsU_costs (xs : List (L × R)) : Costs (extendPairsU xs) m (11 * xs.length + 1) := by
  induction xs generalizing m with
  | nil => exact .user
  | cons x xs ih =>
    refine (Pays.user_bind (c := 11 * xs.length + 11) ?_).mono (by simp only [List.length_cons]; omega)
    exact (insertU_costs x.1 x.2).seq (fun _ _ => ih) (by omega)

theorem extendU_costs (xs : List (OptionalPair L R)) : Costs (extendU xs) m (11 * xs.length + 1) := by
  induction xs generalizing m with
  | nil => exact .user
  | cons x xs ih =>
    refine Pays.mono (c := 11 * xs.length + 11 + 1) ?_ (by simp only [List.length_cons]; omega)
    cases x with
    | neither => exact .user_bind (ih.mono (by omega))
    | someLeft l => exact .user_bind ((insertLeftU_costs l).seq (fun _ _ => ih) (by omega))
    | someRight r => exact .user_bind ((insertRightU_costs r).seq (fun _ _ => ih) (by omega))
    | someBoth l r => exact .user_bind ((insertU_costs l r).seq (fun _ _ => ih) (by omega))

theorem reserveLeftU_costs (n : Nat) : Costs (reserveLeftU n) m m.left.len :=
  .get_bind <| pays_grow (by have := reserve_pays m.left n (·.hashWith m.hb.hl); simp only [debt]; omega)

theorem reserveRightU_costs (n : Nat) : Costs (reserveRightU n) m m.right.len :=
  .get_bind <| pays_grow (by have := reserve_pays m.right n (·.hashWith m.hb.hr); simp only [debt]; omega)

theorem shrinkToLeftU_costs (n : Nat) : Costs (shrinkToLeftU n) m (2 * m.left.len) :=
  .get_bind <| pays_grow (by have := shrinkTo_pays m.left n (·.hashWith m.hb.hl); simp only [debt]; omega)

theorem shrinkToRightU_costs (n : Nat) : Costs (shrinkToRightU n) m (2 * m.right.len) :=
  .get_bind <| pays_grow (by have := shrinkTo_pays m.right n (·.hashWith m.hb.hr); simp only [debt]; omega)

/-- the map after a table of it was moved -/
theorem of_grow {T : Type} {op : TableOp} {t after : RawTable T} {hasher : T → UInt64} {put : RawTable T → PartialMap L R}
    {f f' m' u} (e : t.grow op hasher put after f m = .done u f' m') : m' = put after := by
  have := (follows_grow (t := t) (op := op) (hasher := hasher) (put := put) (after := after) (m := m)).agrees f
  rw [e] at this
  cases this; rfl

theorem shrinkToFitU_costs : Costs shrinkToFitU m (2 * m.left.len + 2 * m.right.len) := by
  refine .get_bind ?_
  refine (Pays.bind (c := 2 * m.left.len) (c' := 2 * m.right.len) (pays_grow ?_) fun u f f' m' e => ?_).mono (by omega)
  · have := shrinkTo_pays m.left m.lenLeft (·.hashWith m.hb.hl); simp only [debt]; omega
  · rw [of_grow e]
    exact shrinkToRightU_costs (m := { m with left := _ }) m.right.len

theorem execU_costs (op : Op L R) : Costs (execU op) m (m.price op) := by
  cases op
  case insert l r => exact (insertU_costs l r).map
  case insertLeft l => exact (insertLeftU_costs l).map
  case insertRight r => exact (insertRightU_costs r).map
  case pair l r => exact (pairU_costs l r).map
  case pairForced l r => exact (pairForcedU_costs l r).map
  case pairForcedRemove l r => exact (pairForcedRemoveU_costs l r).map
  case unpair l r => exact (unpairU_costs l r).map
  case remove l r => exact (removeU_costs l r).map
  case removeViaLeft l => exact (removeViaLeftU_costs l).map
  case removeViaRight r => exact (removeViaRightU_costs r).map
  case removeLeft l => exact (removeLeftU_costs l).map
  case removeRight r => exact (removeRightU_costs r).map
  case swapLeft a b => exact (swapLeftU_costs a b).map
  case swapLeftChecked a e b => exact (swapLeftCheckedU_costs a e b).map
  case swapLeftOrInsert a b r => exact (swapLeftOrInsertU_costs a b r).map
  case swapRight a b => exact (swapRightU_costs a b).map
  case swapRightChecked a e b => exact (swapRightCheckedU_costs a e b).map
  case swapRightOrInsert a b l => exact (swapRightOrInsertU_costs a b l).map
  case getLeft r => exact .user_bind <| .user_bind <| .get_bind .pure
  case getRight l => exact .user_bind <| .user_bind <| .get_bind .pure
  case containsLeft l => exact .user_bind <| .user_bind <| .get_bind .pure
  case containsRight r => exact .user_bind <| .user_bind <| .get_bind .pure
  case isLeftPaired l => exact .user_bind <| .user_bind <| .get_bind .pure
  case isRightPaired r => exact .user_bind <| .user_bind <| .get_bind .pure
  case arePaired l r => exact (arePairedU_costs l r).map
  case lenLeft => exact .get_bind .pure
  case lenRight => exact .get_bind .pure
  case isEmpty => exact .get_bind .pure
  case clear => exact .get_bind <| .set_bind (by simp [debt, PartialMap.clear, clear_debt]) .pure
  case iter =>
    refine .get_bind ?_
    have := collectU_costs (m := m) m.iter.todo
    simp only [PartialMap.iter, toList, List.length_map] at this
    exact this.map
  case iterPaired =>
    refine .get_bind ?_
    have := collectPairedU_costs (m := m) m.iterPaired.todo
    simp only [PartialMap.iterPaired, toList, List.length_map] at this
    exact this.map
  case iterUnpaired => exact .get_bind .pure
  case iterLeft => exact .get_bind .pure
  case iterRight => exact .get_bind .pure
  case drain n => exact (drainU_costs n).map
  case drainFilter σ f s n => exact (drainFilterU_costs f s n).map
  case retain σ f s => exact (retainU_costs f s).map
  case retainPaired σ f s => exact (retainPairedU_costs f s).map
  case retainUnpaired σ f s => exact (retainUnpairedU_costs f s).map
  case extendPairs xs => exact (extendPairsU_costs xs).map
  case extend xs => exact (extendU_costs xs).map
  case reserveLeft n => exact (reserveLeftU_costs n).map
  case reserveRight n => exact (reserveRightU_costs n).map
  case tryReserveLeft n ok => cases ok with | false => exact .pure | true => exact (reserveLeftU_costs n).map
  case tryReserveRight n ok => cases ok with | false => exact .pure | true => exact (reserveRightU_costs n).map
  case shrinkToLeft n => exact (shrinkToLeftU_costs n).map
  case shrinkToRight n => exact (shrinkToRightU_costs n).map
  case shrinkToFit => exact shrinkToFitU_costs.map
  case clone cl cr =>
    refine .user_bind <| .get_bind <| .set_bind ?_ .pure
    exact Nat.add_le_add (clone_debt _ _) (clone_debt _ _)

theorem runAllU_costs (ops : List (Op L R)) : Costs (runAllU ops) m (m.bill ops) := by
  induction ops generalizing m with
  | nil => exact .pure
  | cons op rest ih =>
    have h := execU_costs (m := m) op
    have hf := execU_follows (m := m) op
    cases e : m.exec op with
    | error p =>
      simp only [bill, e]
      refine (h.bind (c' := 0) fun a f f' m' e' => ?_).mono (by omega)
      have := hf.agrees f
      rw [e', e] at this
      cases this
    | ok x =>
      simp only [bill, e]
      refine (h.bind (c' := x.2.bill rest) fun a f f' m' e' => ?_).mono (by omega)
      have := hf.agrees f
      rw [e', e] at this
      cases this
      exact ih.map

omit [LawfulRaw] [LawfulCap] [LawfulAmort] in
theorem runAllU_follows [LawfulRaw] (ops : List (Op L R)) : Follows (runAllU ops) m (m.run ops) := by
  induction ops generalizing m with
  | nil => exact .pure
  | cons op rest ih =>
    refine Follows.bind (r' := fun y => do let (os, m) ← y.2.run rest; return (y.1 :: os, m)) (execU_follows op) fun a m' _ => ?_
    exact Follows.bind (r' := fun y => .ok (a :: y.1, y.2)) ih fun b m'' _ => .pure

/-- a history on a map, with what has been saved up for the next growth to spend besides -/
theorem runAllU_done {ops : List (Op L R)} {os m'} (h : m.run ops = .ok (os, m')) {f : Fate} (hf : m.debt + m.bill ops ≤ f.fuse) :
    ∃ f', runAllU ops f m = .done os f' m' ∧ f.fuse ≤ f'.fuse + (m.debt + m.bill ops) := by
  have h1 := (runAllU_follows (m := m) ops).agrees f
  have h2 := runAllU_costs (m := m) ops f
  cases e : runAllU ops f m with
  | done a f' n =>
    rw [e] at h1 h2
    rw [show m.run ops = .ok (a, n) from h1] at h
    cases h
    simp only at h2
    exact ⟨f', rfl, by omega⟩
  | panic w n =>
    rw [e] at h1 h2
    cases w with
    | none => simp only at h2; omega
    | some p => rw [show m.run ops = .error p from h1] at h; cases h
  | abort =>
    rw [e] at h1
    obtain ⟨p, h1⟩ := h1
    rw [h1] at h; cases h

omit [LawfulRaw] [LawfulCap] [LawfulAmort] in
theorem price_single {op : Op L R} (h : single op = true) : m.price op ≤ 14 := by
  cases op <;> simp only [price] <;> first | omega | cases h

omit [LawfulRaw] [LawfulCap] [LawfulAmort] in
theorem bill_single {ops : List (Op L R)} (h : ∀ op ∈ ops, single op = true) : m.bill ops ≤ 14 * ops.length := by
  induction ops generalizing m with
  | nil => exact Nat.le_refl _
  | cons op rest ih =>
    have h1 := price_single (m := m) (h op (by simp))
    simp only [bill, List.length_cons]
    split
    · rename_i m' _
      have := ih (m := m') fun o ho => h o (by simp [ho])
      omega
    · omega

theorem debt_new (n : Nat) (hb : BuildHasher L R) : (withCapacityAndHasher n hb).debt = 0 := by
  have h : ∀ {T : Type}, (RawTable.withCapacity n : RawTable T).len = 0 := by
    intro T; rw [RawTable.withCapacity, touch_len]; rfl
  simp only [debt, withCapacityAndHasher, RawTable.debt, h]
  omega

end Verif.PartialMap
