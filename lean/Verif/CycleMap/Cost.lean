import Verif.Cost
import Verif.CycleMap.Room
import Verif.CycleMap.UnwindFollows
/-! How often the items' own code runs in the calls of a `CycleMap`, over many calls (see `Verif.Cost`). -/
set_option linter.unusedSectionVars false
set_option linter.unusedSimpArgs false
namespace Verif.CycleMap
open CycleSpec OptionalPair Unw RawTable

variable [RawImpl] [LawfulRaw] [LawfulCap] [LawfulAmort] {L R : Type} [BEq L] [BEq R] {m : CycleMap L R}

/-- The number of places at which the items' own code runs in a call, growing included, if every call saves up for the
next growth of the tables: a hash and a probe count one each. -/
def price (m : CycleMap L R) : Op L R → Nat
  | .insert .. => 10
  | .remove .. => 6
  | .removeViaLeft .. | .removeViaRight .. => 2
  | .swapLeft .. => 10
  | .swapLeftChecked .. => 14
  | .swapLeftOrInsert .. => 12
  | .swapRight .. => 11
  | .swapRightChecked .. => 15
  | .swapRightOrInsert .. => 13
  | .getLeft .. | .getRight .. | .containsLeft .. | .containsRight .. => 2
  | .arePaired .. => 4
  | .len | .isEmpty | .clear | .iterLeft | .iterRight => 0
  | .drain .. | .drainFilter .. | .drainFilterAll .. => 0
  | .iter => 2 * m.left.len
  | .retain .. => 6 * m.left.len
  | .extend xs => 11 * xs.length + 1
  | .reserve .. | .tryReserve .. => m.left.len + m.right.len
  | .shrinkTo .. | .shrinkToFit => 2 * m.left.len + 2 * m.right.len
  | .clone .. => 1

/-- the calls that concern a single pair -/
def single : Op L R → Bool
  | .iter | .iterLeft | .iterRight | .drain .. | .drainFilter .. | .drainFilterAll .. | .retain .. | .extend .. => false
  | .reserve .. | .tryReserve .. | .shrinkTo .. | .shrinkToFit | .clone .. => false
  | _ => true

/-- calls one after the other; the fuse burns through all of them -/
def runAllU : List (Op L R) → Unw (CycleMap L R) (List (Out L R))
  | [] => return []
  | op :: rest => do
    let o ← execU op
    return o :: (← runAllU rest)

/-- what the calls of a history cost together -/
def bill (m : CycleMap L R) : List (Op L R) → Nat
  | [] => 0
  | op :: rest => m.price op + match m.exec op with
    | .ok (_, m') => m'.bill rest
    | .error _ => 0

/-- what the next growth of the two tables may cost beyond what was saved up for it -/
def debt (m : CycleMap L R) : Nat := m.left.debt + m.right.debt

theorem Roomy.debt {m' : CycleMap L R} {k : Nat} (h : Roomy Meter.debt k m m') : m'.debt ≤ m.debt + 4 * k := by
  have h1 := h.1.1
  have h2 := h.2.1
  simp only [CycleMap.debt]; omega

local notation "Costs" => Pays (M := CycleMap L R) debt

theorem arePairedU_costs (l : L) (r : R) : Costs (arePairedU l r) m 4 :=
  .user_bind <| .user_bind <| .user_bind <| .user_bind <| .get_bind .pure

theorem removeViaLeftU_costs (l : L) : Costs (removeViaLeftU l) m 2 := by
  refine .user_bind <| .user_bind <| .get_bind ?_
  try simp only
  cases h1 : m.left.removeEntry (m.hb.hl l) (equivalentKey l) with
  | none => exact .pure
  | some x =>
    have := removeEntry_debt h1
    refine .set_bind (by simp only [debt]; omega) ?_
    try simp only
    cases h2 : m.right.removeEntry x.1.hash (hashAndId (m.hb.hl l) x.1.id) with
    | none => exact .fail
    | some y =>
      have := removeEntry_debt h2
      exact .set_bind (by simp only [debt]; omega) .pure

theorem removeViaRightU_costs (r : R) : Costs (removeViaRightU r) m 2 := by
  refine .user_bind <| .user_bind <| .get_bind ?_
  try simp only
  cases h1 : m.right.removeEntry (m.hb.hr r) (equivalentKey r) with
  | none => exact .pure
  | some x =>
    have := removeEntry_debt h1
    refine .set_bind (by simp only [debt]; omega) ?_
    try simp only
    cases h2 : m.left.removeEntry x.1.hash (hashAndId (m.hb.hr r) x.1.id) with
    | none => exact .fail
    | some y =>
      have := removeEntry_debt h2
      exact .set_bind (by simp only [debt]; omega) .pure

theorem removeViaHashesAndIdU_costs (a b : UInt64) (i : Nat) : Costs (removeViaHashesAndIdU a b i) m 0 := by
  refine .get_bind ?_
  try simp only
  cases h1 : m.left.removeEntry a (hashAndId b i) with
  | none => exact .pure
  | some x =>
    have := removeEntry_debt h1
    refine .set_bind (by simp only [debt]; omega) ?_
    try simp only
    cases h2 : m.right.removeEntry b (hashAndId a i) with
    | none => exact .fail
    | some y =>
      have := removeEntry_debt h2
      exact .set_bind (by simp only [debt]; omega) .pure

theorem removeU_costs (l : L) (r : R) : Costs (removeU l r) m 6 :=
  (arePairedU_costs l r).seq (c' := 2) (fun a m' => by
    split
    · exact removeViaLeftU_costs l
    · exact .pure) (by omega)

theorem insertU_costs (l : L) (r : R) : Costs (insertU l r) m 10 := by
  refine (removeViaLeftU_costs l).seq (c' := 8) (fun o m => ?_) (by omega)
  refine (removeViaRightU_costs r).seq (c' := 6) (fun o m => ?_) (by omega)
  refine .user_bind <| .user_bind <| .get_bind ?_
  refine pays_insert_bind (k := 0) (c := 2) (by simp only [debt]; omega) ?_
  refine .get_bind ?_
  exact pays_insert_bind (k := 0) (c := 0) (by simp only [debt]; omega) .pure

theorem swapLeftEqCheckU_costs (a b : L) (h : UInt64) : Costs (swapLeftEqCheckU a b h) m 4 := by
  refine .user_bind <| .get_bind ?_
  cases m.left.get h (equivalentKey b) with
  | none => exact .pure
  | some x =>
    refine .user_bind ?_
    split
    · exact removeViaLeftU_costs b
    · exact .pure

theorem swapRightEqCheckU_costs (a b : R) (h : UInt64) : Costs (swapRightEqCheckU a b h) m 4 := by
  refine .user_bind <| .get_bind ?_
  cases m.right.get h (equivalentKey b) with
  | none => exact .pure
  | some x =>
    refine .user_bind ?_
    split
    · exact removeViaRightU_costs b
    · exact .pure

theorem swapLeftU_costs (a b : L) : Costs (swapLeftU a b) m 10 := by
  refine .user_bind <| .get_bind ?_
  refine (swapLeftEqCheckU_costs a b _).seq (c' := 5) (fun o m1 => ?_) (by omega)
  refine .user_bind <| .user_bind <| .get_bind ?_
  try simp only
  cases m1.left.get (m1.hb.hl a) (equivalentKey a) with
  | none => exact .pure
  | some x =>
    try simp only
    cases h1 : m1.right.getMut x.hash (hashAndId (m1.hb.hl a) x.id) with
    | none => exact .fail
    | some y =>
      refine .set_bind (Nat.add_le_add_left (getMut_debt h1 _) _) <| .get_bind <| .user_bind ?_
      try simp only
      cases h2 : m1.left.removeEntry (m1.hb.hl a) (equivalentKey a) with
      | none => exact .fail
      | some z =>
        have := removeEntry_debt h2
        refine .set_bind (by simp only [debt]; omega) ?_
        exact pays_insert_bind (k := 0) (c := 0) (by simp only [debt]; omega) .pure

theorem swapRightU_costs (a b : R) : Costs (swapRightU a b) m 11 := by
  refine .user_bind <| .get_bind ?_
  refine (swapRightEqCheckU_costs a b _).seq (c' := 6) (fun o m1 => ?_) (by omega)
  refine .user_bind <| .user_bind <| .get_bind ?_
  try simp only
  cases m1.right.get (m1.hb.hr a) (equivalentKey a) with
  | none => exact .pure
  | some x =>
    try simp only
    cases h1 : m1.left.getMut x.hash (hashAndId (m1.hb.hr a) x.id) with
    | none => exact .fail
    | some y =>
      refine .user_bind <| .set_bind (Nat.add_le_add_right (getMut_debt h1 _) _) <| .get_bind <| .user_bind ?_
      try simp only
      cases h2 : m1.right.removeEntry (m1.hb.hr a) (equivalentKey a) with
      | none => exact .fail
      | some z =>
        have := removeEntry_debt h2
        refine .set_bind (by simp only [debt]; omega) ?_
        exact pays_insert_bind (k := 0) (c := 0) (by simp only [debt]; omega) .pure

theorem swapLeftCheckedU_costs (a : L) (e : R) (b : L) : Costs (swapLeftCheckedU a e b) m 14 :=
  (arePairedU_costs a e).seq (c' := 10) (fun o m' => by
    split
    · exact .pure
    · exact swapLeftU_costs a b) (by omega)

theorem swapRightCheckedU_costs (a : R) (e : L) (b : R) : Costs (swapRightCheckedU a e b) m 15 :=
  (arePairedU_costs e a).seq (c' := 11) (fun o m' => by
    split
    · exact .pure
    · exact swapRightU_costs a b) (by omega)

theorem swapLeftOrInsertU_costs (a b : L) (r : R) : Costs (swapLeftOrInsertU a b r) m 12 := by
  refine .user_bind <| .user_bind <| .get_bind ?_
  try simp only
  split
  · exact swapLeftU_costs a b
  · exact (insertU_costs b r).map

theorem swapRightOrInsertU_costs (a b : R) (l : L) : Costs (swapRightOrInsertU a b l) m 13 := by
  refine .user_bind <| .user_bind <| .get_bind ?_
  try simp only
  split
  · exact swapRightU_costs a b
  · refine (insertU_costs l b).seq (c' := 0) (fun o m' => ?_) (by omega)
    cases o
    · exact .pure
    · exact .fail
    · exact .pure
    · exact .fail

theorem nextU_costs (l : MappingPair L) : Costs (nextU l) m 2 := by
  refine .user_bind <| .user_bind <| .get_bind ?_
  try simp only
  cases m.getRight l.value with
  | none => exact .fail
  | some r => exact .pure

theorem collectU_costs (ls : List (MappingPair L)) : Costs (collectU ls) m (2 * ls.length) := by
  induction ls generalizing m with
  | nil => exact .pure
  | cons l rest ih =>
    exact (nextU_costs l).seq (c' := 2 * rest.length) (fun p m' => ih.map) (by simp only [List.length_cons]; omega)

theorem drainFilterU_costs {σ : Type} (f : σ → L → R → Bool × σ) (st : σ) (n : Nat) :
    Costs (drainFilterU (sure f) st n) m 0 := by
  refine .of_run (drainFilterU_run f st n) fun a m' e => ?_
  obtain ⟨⟨ps, s, m1⟩, h1, h2⟩ := bind_ok e
  cases h2
  have := (drainFilterTake_roomy (G := Meter.debt) h1).debt
  omega

theorem drainLoopU_costs (n : Nat) (ls : List (MappingPair L)) : Costs (drainLoopU n ls) m 0 := by
  induction n generalizing ls m with
  | zero => exact .pure
  | succ n ih =>
    cases ls with
    | nil => exact .pure
    | cons l rest =>
      refine .get_bind ?_
      try simp only
      cases h : m.right.removeEntry l.hash (justId l.id) with
      | none => exact .fail
      | some x =>
        have := removeEntry_debt h
        refine .set_bind (by simp only [debt]; omega) ?_
        exact (ih rest).map

theorem drainU_costs (n : Nat) : Costs (drainU n) m 0 := by
  refine .get_bind ?_
  refine .set_bind (by simp only [debt, clear_debt]; omega) ?_
  exact drainLoopU_costs n _

theorem retainScanU_costs {σ : Type} (f : σ → L → R → Bool × σ) (ls : List (MappingPair L)) (st : σ) :
    Costs (retainScanU (sure f) ls st) m (6 * ls.length) := by
  induction ls generalizing st m with
  | nil => exact .pure
  | cons l rest ih =>
    refine (nextU_costs l).seq (c' := 6 * rest.length + 4) (fun p m' => ?_) (by simp only [List.length_cons]; omega)
    simp only [sure]
    split
    · rename_i h; cases h
    · exact (ih _).mono (by omega)
    · refine .user_bind <| .user_bind <| .user_bind <| .user_bind <| .get_bind ?_
      try simp only
      cases m'.getLeftInner p.1 with
      | none => exact .fail
      | some lp => exact (ih _).map

theorem retainDropU_costs (ks : List (UInt64 × UInt64 × Nat)) : Costs (retainDropU ks) m 0 := by
  induction ks generalizing m with
  | nil => exact .pure
  | cons k ks ih => exact (removeViaHashesAndIdU_costs _ _ _).seq (c' := 0) (fun _ _ => ih) (by omega)

theorem retainU_costs {σ : Type} (f : σ → L → R → Bool × σ) (st : σ) : Costs (retainU (sure f) st) m (6 * m.left.len) := by
  refine .get_bind ?_
  refine (retainScanU_costs f _ st).seq (c' := 0) (fun ks m' => retainDropU_costs ks) ?_
  simp only [CycleMap.iter, toList, RawTable.len, List.length_map]; omega

theorem extendU_costs (xs : List (L × R)) : Costs (extendU xs) m (11 * xs.length + 1) := by
  induction xs generalizing m with
  | nil => exact .user
  | cons x xs ih =>
    refine (Pays.user_bind (c := 11 * xs.length + 11) ?_).mono (by simp only [List.length_cons]; omega)
    exact (insertU_costs x.1 x.2).seq (fun _ _ => ih) (by omega)

theorem reserve_left_costs (n : Nat) (hasher : MappingPair L → UInt64) :
    Costs (m.left.reserveU n hasher (fun t => { m with left := t })) m m.left.len :=
  pays_grow (by have := reserve_pays m.left n hasher; simp only [debt]; omega)

theorem reserve_right_costs (n : Nat) (hasher : MappingPair R → UInt64) :
    Costs (m.right.reserveU n hasher (fun t => { m with right := t })) m m.right.len :=
  pays_grow (by have := reserve_pays m.right n hasher; simp only [debt]; omega)

theorem shrink_left_costs (n : Nat) (hasher : MappingPair L → UInt64) :
    Costs (m.left.shrinkToU n hasher (fun t => { m with left := t })) m (2 * m.left.len) :=
  pays_grow (by have := shrinkTo_pays m.left n hasher; simp only [debt]; omega)

theorem shrink_right_costs (n : Nat) (hasher : MappingPair R → UInt64) :
    Costs (m.right.shrinkToU n hasher (fun t => { m with right := t })) m (2 * m.right.len) :=
  pays_grow (by have := shrinkTo_pays m.right n hasher; simp only [debt]; omega)

/-- the map after a table of it was moved -/
theorem of_grow {T : Type} {op : TableOp} {t after : RawTable T} {hasher : T → UInt64} {put : RawTable T → CycleMap L R}
    {f f' m' u} (e : t.grow op hasher put after f m = .done u f' m') : m' = put after := by
  have := (follows_grow (t := t) (op := op) (hasher := hasher) (put := put) (after := after) (m := m)).agrees f
  rw [e] at this
  cases this; rfl

theorem shrinkToTwiceU_costs (n : Nat) : Costs (shrinkToTwiceU n) m (2 * m.left.len + 2 * m.right.len) := by
  refine .get_bind ?_
  refine ((shrink_left_costs n _).bind (c' := 2 * m.right.len) fun u f f' m' e => ?_).mono (by omega)
  rw [of_grow e]
  exact .get_bind (shrink_right_costs (m := { m with left := _ }) n _)

theorem shrinkToFitU_costs : Costs shrinkToFitU m (2 * m.left.len + 2 * m.right.len) := by
  refine .get_bind ?_
  refine ((shrink_left_costs _ _).bind (c' := 2 * m.right.len) fun u f f' m' e => ?_).mono (by omega)
  rw [of_grow e]
  exact .get_bind (shrink_right_costs (m := { m with left := _ }) _ _)

theorem reserveTwiceU_costs (n : Nat) : Costs (reserveTwiceU n) m (m.left.len + m.right.len) := by
  refine .get_bind ?_
  refine ((reserve_left_costs n _).bind (c' := m.right.len) fun u f f' m' e => ?_).mono (by omega)
  rw [of_grow e]
  exact .get_bind (reserve_right_costs (m := { m with left := _ }) n _)

theorem tryReserveU_costs (n : Nat) (a b : Bool) : Costs (tryReserveU n a b) m (m.left.len + m.right.len) := by
  simp only [tryReserveU]
  split
  · refine .get_bind ?_
    refine ((reserve_left_costs n _).bind (c' := m.right.len) fun u f f' m' e => ?_).mono (by omega)
    rw [of_grow e]
    split
    · refine .get_bind ?_
      exact ((reserve_right_costs (m := { m with left := _ }) n _).bind (c' := 0) fun _ _ _ _ _ => .pure).mono (by simp)
    · exact .pure
  · exact .pure

theorem execU_costs (op : Op L R) : Costs (execU op) m (m.price op) := by
  cases op
  case insert l r => exact (insertU_costs l r).map
  case remove l r => exact (removeU_costs l r).map
  case removeViaLeft l => exact (removeViaLeftU_costs l).map
  case removeViaRight r => exact (removeViaRightU_costs r).map
  case swapLeft a b => exact (swapLeftU_costs a b).map
  case swapLeftChecked a e b => exact (swapLeftCheckedU_costs a e b).map
  case swapLeftOrInsert a b r => exact (swapLeftOrInsertU_costs a b r).map
  case swapRight a b => exact (swapRightU_costs a b).map
  case swapRightChecked a e b => exact (swapRightCheckedU_costs a e b).map
  case swapRightOrInsert a b l => exact (swapRightOrInsertU_costs a b l).map
  case getLeft r => exact .user_bind <| .user_bind <| .get_bind .pure
  case getRight l => exact .user_bind <| .user_bind <| .get_bind .pure
  case containsLeft l => exact .user_bind <| .user_bind <| .get_bind .pure
  case containsRight r => exact .user_bind <| .user_bind <| .get_bind .pure
  case arePaired l r => exact (arePairedU_costs l r).map
  case len => exact .get_bind .pure
  case isEmpty => exact .get_bind .pure
  case clear => exact .get_bind <| .set_bind (by simp [debt, CycleMap.clear, clear_debt]) .pure
  case iter =>
    refine .get_bind ?_
    have := collectU_costs (m := m) m.iter.todo
    simp only [CycleMap.iter, toList, List.length_map] at this
    exact this.map
  case iterLeft => exact .get_bind .pure
  case iterRight => exact .get_bind .pure
  case drain n => exact (drainU_costs n).map
  case drainFilter σ f s n => exact (drainFilterU_costs f s n).map
  case drainFilterAll σ f s => exact .get_bind (drainFilterU_costs f s _).map
  case retain σ f s => exact (retainU_costs f s).map
  case extend xs => exact (extendU_costs xs).map
  case reserve n => exact (reserveTwiceU_costs n).map
  case tryReserve n a b => exact (tryReserveU_costs n a b).map
  case shrinkTo n => exact (shrinkToTwiceU_costs n).map
  case shrinkToFit => exact shrinkToFitU_costs.map
  case clone cl cr =>
    refine .user_bind <| .get_bind <| .set_bind ?_ .pure
    exact Nat.add_le_add (clone_debt _ _) (clone_debt _ _)

theorem runAllU_costs (ops : List (Op L R)) : Costs (runAllU ops) m (m.bill ops) := by
  induction ops generalizing m with
  | nil => exact .pure
  | cons op rest ih =>
    have h := execU_costs (m := m) op
    have hf := execU_follows (m := m) op
    cases e : m.exec op with
    | error p =>
      simp only [bill, e]
      refine (h.bind (c' := 0) fun a f f' m' e' => ?_).mono (by omega)
      have := hf.agrees f
      rw [e', e] at this
      cases this
    | ok x =>
      simp only [bill, e]
      refine (h.bind (c' := x.2.bill rest) fun a f f' m' e' => ?_).mono (by omega)
      have := hf.agrees f
      rw [e', e] at this
      cases this
      exact ih.map

omit [LawfulRaw] [LawfulCap] [LawfulAmort] in
theorem runAllU_follows [LawfulRaw] (ops : List (Op L R)) : Follows (runAllU ops) m (m.run ops) := by
  induction ops generalizing m with
  | nil => exact .pure
  | cons op rest ih =>
    refine Follows.bind (r' := fun y => do let (os, m) ← y.2.run rest; return (y.1 :: os, m)) (execU_follows op) fun a m' _ => ?_
    exact Follows.bind (r' := fun y => .ok (a :: y.1, y.2)) ih fun b m'' _ => .pure

/-- a history on a map, with what has been saved up for the next growth to spend besides -/
theorem runAllU_done {ops : List (Op L R)} {os m'} (h : m.run ops = .ok (os, m')) {f : Fate} (hf : m.debt + m.bill ops ≤ f.fuse) :
    ∃ f', runAllU ops f m = .done os f' m' ∧ f.fuse ≤ f'.fuse + (m.debt + m.bill ops) := by
  have h1 := (runAllU_follows (m := m) ops).agrees f
  have h2 := runAllU_costs (m := m) ops f
  cases e : runAllU ops f m with
  | done a f' n =>
    rw [e] at h1 h2
    rw [show m.run ops = .ok (a, n) from h1] at h
    cases h
    simp only at h2
    exact ⟨f', rfl, by omega⟩
  | panic w n =>
    rw [e] at h1 h2
    cases w with
    | none => simp only at h2; omega
    | some p => rw [show m.run ops = .error p from h1] at h; cases h
  | abort =>
    rw [e] at h1
    obtain ⟨p, h1⟩ := h1
    rw [h1] at h; cases h

omit [LawfulRaw] [LawfulCap] [LawfulAmort] in
theorem price_single {op : Op L R} (h : single op = true) : m.price op ≤ 15 := by
  cases op <;> simp only [price] <;> first | omega | cases h

omit [LawfulRaw] [LawfulCap] [LawfulAmort] in
theorem bill_single {ops : List (Op L R)} (h : ∀ op ∈ ops, single op = true) : m.bill ops ≤ 15 * ops.length := by
  induction ops generalizing m with
  | nil => exact Nat.le_refl _
  | cons op rest ih =>
    have h1 := price_single (m := m) (h op (by simp))
    simp only [bill, List.length_cons]
    split
    · rename_i m' _
      have := ih (m := m') fun o ho => h o (by simp [ho])
      omega
    · omega

theorem debt_new (n : Nat) (hb : BuildHasher L R) : (withCapacityAndHasher n hb).debt = 0 := by
  have h : ∀ {T : Type}, (RawTable.withCapacity n : RawTable T).len = 0 := by
    intro T; rw [RawTable.withCapacity, touch_len]; rfl
  simp only [debt, withCapacityAndHasher, RawTable.debt, h]
  omega

end Verif.CycleMap
