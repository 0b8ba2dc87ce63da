import Verif.Cost
import Verif.GroupMap.Room
import Verif.GroupMap.UnwindFollows
/-!
How often the items' own code runs in the calls of a `GroupMap`, over many calls (see `Verif.Cost`).

`remove_right` puts the left items it removes into a `HashSet<L>`, which hashes and compares each of them; every left
item of the map has saved up two places for that.
-/
set_option linter.unusedSectionVars false
set_option linter.unusedSimpArgs false
namespace Verif.GroupMap
open GroupSpec Unw RawTable
open CycleMap (bind_ok)

variable [RawImpl] [LawfulRaw] [LawfulCap] [LawfulAmort] {L R : Type} [BEq L] [BEq R] {m : GroupMap L R}

/-- The number of places at which the items' own code runs in a call, growing included, if every call saves up for the
next growth of the tables and for the removal of the left items: a hash and a probe count one each. -/
def price (m : GroupMap L R) : Op L R → Nat
  | .insert .. => 10
  | .insertRemove .. => 12
  | .insertLeft .. => 9
  | .insertRight .. => 5
  | .swapRight .. | .swapRightRemove .. => 7
  | .pair .. => 5
  | .remove .. => 6
  | .removeLeft .. | .removeRight .. => 2
  | .getRight .. | .getLeftIter .. | .containsLeft .. | .containsRight .. | .isRightPaired .. => 2
  | .arePaired .. => 4
  | .lenLeft | .lenRight | .isEmpty | .clear | .iter | .iterPaired | .iterUnpaired | .iterLeft | .iterRight => 0
  | .retainPaired .. => 2 * m.left.len
  | .retainUnpaired .. => 2 * m.right.len
  | .extend xs => 11 * xs.length + 1
  | .extendOpt xs => 11 * xs.length + 1
  | .clone .. => 1

/-- the calls that concern single items and their groups -/
def single : Op L R → Bool
  | .iter | .iterPaired | .iterUnpaired | .iterLeft | .iterRight => false
  | .retainPaired .. | .retainUnpaired .. | .extend .. | .extendOpt .. | .clone .. => false
  | _ => true

/-- calls one after the other; the fuse burns through all of them -/
def runAllU : List (Op L R) → Unw (GroupMap L R) (List (Out L R))
  | [] => return []
  | op :: rest => do
    let o ← execU op
    return o :: (← runAllU rest)

/-- what the calls of a history cost together -/
def bill (m : GroupMap L R) : List (Op L R) → Nat
  | [] => 0
  | op :: rest => m.price op + match m.exec op with
    | .ok (_, m') => m'.bill rest
    | .error _ => 0

/-- what the next growth of the two tables and the removal of the left items may cost beyond what was saved up for it -/
def debt (m : GroupMap L R) : Nat := m.left.debt + 2 * m.left.len + m.right.debt

theorem Roomy.debt {m' : GroupMap L R} (h : Roomy Meter.debt 0 0 m m') : m'.debt ≤ m.debt := by
  have h1 := h.1
  have h2 := h.2.1
  have h3 : m'.left.len ≤ m.left.len + 0 := h1.2
  have h4 := h1.1
  simp only [GroupMap.debt]; omega

local notation "Costs" => Pays (M := GroupMap L R) debt

local macro "pay" : tactic => `(tactic| refine Roomy.debt ⟨?_, ?_⟩ <;> first
  | exact Room.refl
  | exact Room.getMut (by assumption) _
  | exact Room.removeEntry (by assumption))

local macro "puts" : tactic => `(tactic| (simp only [debt, insert_len]; omega))

theorem arePairedU_costs (l : L) (r : R) : Costs (arePairedU l r) m 4 :=
  .user_bind <| .user_bind <| .user_bind <| .user_bind <| .get_bind .pure

theorem removeLeftU_costs (l : L) : Costs (removeLeftU l) m 2 := by
  refine .user_bind <| .user_bind <| .get_bind ?_
  try simp only
  split
  · exact .pure
  · refine .set_bind (by pay) ?_
    split
    · exact .fail
    · exact .set_bind (by pay) .pure

theorem removeAllU_costs (b : Bool) (ps : List (UInt64 × Nat)) : Costs (removeAllU b ps) m 0 := by
  induction ps generalizing m with
  | nil => exact .pure
  | cons p rest ih =>
    obtain ⟨h, i⟩ := p
    simp only [removeAllU]
    refine .get_bind ?_
    split
    · exact .fail
    · rename_i l left' e
      have h1 := removeEntry_len e
      have h2 := removeEntry_debt e
      refine .set_save (d := 2) (by simp only [debt]; omega) ?_
      split
      · exact .user_bind <| .user_bind ih.map
      · exact (ih.map).mono (by omega)

theorem removeRightU_costs (r : R) : Costs (removeRightU r) m 2 := by
  refine .user_bind <| .user_bind <| .get_bind ?_
  try simp only
  split
  · exact .pure
  · exact .set_bind (by pay) ((removeAllU_costs _ _).map)

theorem removeU_costs (l : L) (r : R) : Costs (removeU l r) m 6 :=
  (arePairedU_costs l r).seq (c' := 2) (fun a m' => by
    split
    · exact removeRightU_costs r
    · exact .pure) (by omega)

theorem removeViaHashAndIdU_costs (h : UInt64) (i : Nat) : Costs (removeViaHashAndIdU h i) m 0 := by
  refine .get_bind ?_
  try simp only
  split
  · exact .pure
  · exact .set_bind (by pay) ((removeAllU_costs _ _).map)

theorem insertU_costs (l : L) (r : R) : Costs (insertU l r) m 10 := by
  refine .user_bind <| .user_bind <| .user_bind <| .user_bind <| .get_bind ?_
  try simp only
  split
  · refine pays_insert_bind (k := 2) (c := 2) (by puts) <| .get_bind ?_
    exact pays_insert_bind (k := 0) (c := 0) (by puts) <| .get_bind <| .set (Nat.le_refl _)
  · split
    · exact .fail
    · refine .set_bind (by pay) ?_
      refine Pays.mono (c := 2) ?_ (by omega)
      exact pays_insert_bind (k := 0) (c := 0) (by puts) <| .get_bind <| .set (Nat.le_refl _)
  · refine .set_bind (by pay) ?_
    refine Pays.mono (c := 4) ?_ (by omega)
    exact pays_insert_bind (k := 2) (c := 0) (by puts) <| .get_bind <| .set (Nat.le_refl _)
  · refine .set_bind (by pay) ?_
    split
    · exact .fail
    · exact .set (by pay)

theorem insertRemoveU_costs (l : L) (r : R) : Costs (insertRemoveU l r) m 12 := by
  refine (removeLeftU_costs l).seq (c' := 10) (fun o m => ?_) (by omega)
  refine (removeRightU_costs r).seq (c' := 8) (fun o m => ?_) (by omega)
  refine .user_bind <| .user_bind <| .get_bind ?_
  refine pays_insert_bind (k := 2) (c := 2) (by puts) <| .get_bind ?_
  exact pays_insert_bind (k := 0) (c := 0) (by puts) .pure

theorem insertLeftU_costs (l : L) (r : R) : Costs (insertLeftU l r) m 9 := by
  refine .user_bind <| .user_bind <| .get_bind ?_
  try simp only
  split
  · exact .pure
  · refine .user_bind <| .set_bind (by pay) ?_
    refine (removeLeftU_costs l).seq (c' := 4) (fun o m => ?_) (by omega)
    exact .get_bind <| pays_insert_bind (k := 2) (c := 0) (by puts) .pure

theorem insertRightU_costs (r : R) : Costs (insertRightU r) m 5 := by
  refine (removeRightU_costs r).seq (c' := 3) (fun o m => ?_) (by omega)
  exact .user_bind <| .get_bind <| pays_insert_bind (k := 0) (c := 0) (by puts) .pure

theorem rehashAllU_costs (h : UInt64) (ps : List (UInt64 × Nat)) : Costs (rehashAllU h ps) m 0 := by
  induction ps generalizing m with
  | nil => exact .pure
  | cons p rest ih =>
    obtain ⟨h, i⟩ := p
    simp only [rehashAllU]
    refine .get_bind ?_
    split
    · exact .fail
    · exact .set_bind (by pay) ih

theorem swapRightU_costs (a b : R) : Costs (swapRightU a b) m 7 := by
  refine .user_bind <| .user_bind <| .get_bind ?_
  try simp only
  split
  · exact (insertRightU_costs b).map
  · refine Pays.mono (c := 3) ?_ (by omega)
    refine .set_bind (by pay) <| .user_bind ?_
    refine pays_insert_bind (k := 0) (c := 0) (by puts) <| .get_bind <| .set_bind (Nat.le_refl _) ?_
    exact rehashAllU_costs _ _

theorem swapRightRemoveU_costs (a b : R) : Costs (swapRightRemoveU a b) m 7 := by
  refine .user_bind <| .user_bind <| .get_bind ?_
  try simp only
  split
  · exact (insertRightU_costs b).map
  · refine Pays.mono (c := 3) ?_ (by omega)
    refine .set_bind (by pay) <| .user_bind ?_
    refine pays_insert_bind (k := 0) (c := 0) (by puts) <| .get_bind <| .set_bind (Nat.le_refl _) ?_
    exact (rehashAllU_costs _ _).map

theorem pairU_costs (l : L) (r : R) : Costs (pairU l r) m 5 := by
  refine Pays.user_bind (c := 4) <| .user_bind <| .user_bind <| .user_bind <| .get_bind ?_
  try simp only
  split
  · refine .set_bind (by pay) ?_
    split
    · exact .fail
    · refine .set_bind (by pay) <| .user_bind ?_
      split
      · exact .fail
      · exact .set_bind (by pay) .pure
  · exact .pure

theorem retainPairedScanU_costs {σ : Type} (f : σ → L → R → Bool × σ) (ls : List (LeftItem L)) (st : σ) :
    Costs (retainPairedScanU (sure f) ls st) m (2 * ls.length) := by
  induction ls generalizing st m with
  | nil => exact .pure
  | cons l rest ih =>
    refine Pays.mono (c := 2 * rest.length + 2) (.get_bind ?_) (by simp only [List.length_cons]; omega)
    split
    · exact .fail
    · simp only [sure]
      split
      · rename_i h; cases h
      · exact (ih _).mono (by omega)
      · refine .user_bind <| .user_bind ?_
        split
        · exact .fail
        · exact (ih _).map

theorem retainPairedU_costs {σ : Type} (f : σ → L → R → Bool × σ) (st : σ) :
    Costs (retainPairedU (sure f) st) m (2 * m.left.len) := by
  refine .get_bind ?_
  refine ((retainPairedScanU_costs f _ st).bind (c' := 0) fun ks fate f' m' e => ?_).mono ?_
  · have h1 := (retainPairedScanU_follows (m := m) f m.iterPaired.todo st).agrees fate
    rw [e] at h1
    have h2 : m' = m := by
      simp only [Halt.agrees] at h1
      obtain ⟨x, _, h3⟩ := bind_ok h1
      cases h3; rfl
    subst h2
    exact .set (Roomy.debt ⟨retainPairedDrop_room, .refl⟩)
  · simp only [GroupMap.iterPaired, toList, RawTable.len, List.length_map]; omega

theorem retainUnpairedScanU_costs {σ : Type} (f : σ → R → Bool × σ) (rs : List R) (st : σ) :
    Costs (retainUnpairedScanU (sure1 f) rs st) m (2 * rs.length) := by
  induction rs generalizing st m with
  | nil => exact .pure
  | cons r rest ih =>
    refine Pays.mono (c := 2 * rest.length + 2) ?_ (by simp only [List.length_cons]; omega)
    simp only [retainUnpairedScanU, sure1]
    split
    · rename_i h; cases h
    · exact (ih _).mono (by omega)
    · refine .user_bind <| .user_bind <| .get_bind ?_
      split
      · exact .fail
      · exact (ih _).map

theorem retainUnpairedDropU_costs (ks : List (UInt64 × Nat)) : Costs (retainUnpairedDropU ks) m 0 := by
  induction ks generalizing m with
  | nil => exact .pure
  | cons k ks ih => exact (removeViaHashAndIdU_costs _ _).seq (c' := 0) (fun _ _ => ih) (by omega)

omit [RawImpl] [LawfulRaw] [LawfulCap] [LawfulAmort] [BEq L] [BEq R] in
theorem next_length {ts : List (RightItem R)} {x it} (h : UnpairedIter.next ts = some (x, it)) :
    it.todo.length + 1 ≤ ts.length := by
  induction ts with
  | nil => cases h
  | cons t ts ih =>
    simp only [UnpairedIter.next] at h
    split at h
    · cases h; simp
    · have := ih h
      simp only [List.length_cons]; omega

omit [RawImpl] [LawfulRaw] [LawfulCap] [LawfulAmort] [BEq L] [BEq R] in
theorem take_length (n : Nat) (it : UnpairedIter R) : (UnpairedIter.take n it).1.length ≤ it.todo.length := by
  induction n generalizing it with
  | zero => exact Nat.zero_le _
  | succ n ih =>
    simp only [UnpairedIter.take]
    split
    · exact Nat.zero_le _
    · rename_i r it' h
      have h1 := next_length h
      have h2 := ih it'
      simp only [List.length_cons]; omega

theorem retainUnpairedU_costs {σ : Type} (f : σ → R → Bool × σ) (st : σ) :
    Costs (retainUnpairedU (sure1 f) st) m (2 * m.right.len) := by
  refine .get_bind ?_
  refine (retainUnpairedScanU_costs f _ st).seq (c' := 0) (fun ks m' => retainUnpairedDropU_costs ks) ?_
  have := take_length (m.right.len + 1) m.iterUnpaired
  simp only [GroupMap.iterUnpaired, toList, List.length_map] at this
  have : m.iterUnpairedList.length ≤ m.right.len := this
  omega

theorem extendU_costs (xs : List (L × R)) : Costs (extendU xs) m (11 * xs.length + 1) := by
  induction xs generalizing m with
  | nil => exact .user
  | cons x xs ih =>
    refine (Pays.user_bind (c := 11 * xs.length + 11) ?_).mono (by simp only [List.length_cons]; omega)
    exact (insertU_costs x.1 x.2).seq (fun _ _ => ih) (by omega)

theorem extendOptU_costs (xs : List (Option L × R)) : Costs (extendOptU xs) m (11 * xs.length + 1) := by
  induction xs generalizing m with
  | nil => exact .user
  | cons x xs ih =>
    refine Pays.mono (c := 11 * xs.length + 11 + 1) ?_ (by simp only [List.length_cons]; omega)
    obtain ⟨l, r⟩ := x
    cases l with
    | none => exact .user_bind ((insertRightU_costs r).seq (fun _ _ => ih) (by omega))
    | some l => exact .user_bind ((insertU_costs l r).seq (fun _ _ => ih) (by omega))

theorem quiet_costs {α : Type} (r : GroupMap L R → Res α) : Costs (quiet r) m 0 := by
  refine .get_bind ?_
  split
  · exact .fail
  · exact .pure

theorem execU_costs (op : Op L R) : Costs (execU op) m (m.price op) := by
  cases op
  case insert l r => exact (insertU_costs l r).map
  case insertRemove l r => exact (insertRemoveU_costs l r).map
  case insertLeft l r => exact (insertLeftU_costs l r).map
  case insertRight r => exact (insertRightU_costs r).map
  case swapRight a b => exact (swapRightU_costs a b).map
  case swapRightRemove a b => exact (swapRightRemoveU_costs a b).map
  case pair l r => exact (pairU_costs l r).map
  case remove l r => exact (removeU_costs l r).map
  case removeLeft l => exact (removeLeftU_costs l).map
  case removeRight r => exact (removeRightU_costs r).map
  case getRight l => exact .user_bind <| .user_bind <| .get_bind .pure
  case getLeftIter r => exact .user_bind <| .user_bind <| (quiet_costs _).map
  case containsLeft l => exact .user_bind <| .user_bind <| .get_bind .pure
  case containsRight r => exact .user_bind <| .user_bind <| .get_bind .pure
  case isRightPaired r => exact .user_bind <| .user_bind <| .get_bind .pure
  case arePaired l r => exact (arePairedU_costs l r).map
  case lenLeft => exact .get_bind .pure
  case lenRight => exact .get_bind .pure
  case isEmpty => exact .get_bind .pure
  case clear => exact .get_bind <| .set_bind (Roomy.debt ⟨.clear, .clear⟩) .pure
  case iter => exact (quiet_costs _).map
  case iterPaired => exact (quiet_costs _).map
  case iterUnpaired => exact .get_bind .pure
  case iterLeft => exact .get_bind .pure
  case iterRight => exact .get_bind .pure
  case retainPaired σ f s => exact (retainPairedU_costs f s).map
  case retainUnpaired σ f s => exact (retainUnpairedU_costs f s).map
  case extend xs => exact (extendU_costs xs).map
  case extendOpt xs => exact (extendOptU_costs xs).map
  case clone cl cr => exact .user_bind <| .get_bind <| .set_bind (Roomy.debt ⟨.clone _, .clone _⟩) .pure

theorem runAllU_costs (ops : List (Op L R)) : Costs (runAllU ops) m (m.bill ops) := by
  induction ops generalizing m with
  | nil => exact .pure
  | cons op rest ih =>
    have h := execU_costs (m := m) op
    have hf := execU_follows (m := m) op
    cases e : m.exec op with
    | error p =>
      simp only [bill, e]
      refine (h.bind (c' := 0) fun a f f' m' e' => ?_).mono (by omega)
      have := hf.agrees f
      rw [e', e] at this
      cases this
    | ok x =>
      simp only [bill, e]
      refine (h.bind (c' := x.2.bill rest) fun a f f' m' e' => ?_).mono (by omega)
      have := hf.agrees f
      rw [e', e] at this
      cases this
      exact ih.map

omit [LawfulRaw] [LawfulCap] [LawfulAmort] in
theorem runAllU_follows [LawfulRaw] (ops : List (Op L R)) : Follows (runAllU ops) m (m.run ops) := by
  induction ops generalizing m with
  | nil => exact .pure
  | cons op rest ih =>
    refine Follows.bind (r' := fun y => do let (os, m) ← y.2.run rest; return (y.1 :: os, m)) (execU_follows op) fun a m' _ => ?_
    exact Follows.bind (r' := fun y => .ok (a :: y.1, y.2)) ih fun b m'' _ => .pure

/-- a history on a map, with what has been saved up for the next growth to spend besides -/
theorem runAllU_done {ops : List (Op L R)} {os m'} (h : m.run ops = .ok (os, m')) {f : Fate} (hf : m.debt + m.bill ops ≤ f.fuse) :
    ∃ f', runAllU ops f m = .done os f' m' ∧ f.fuse ≤ f'.fuse + (m.debt + m.bill ops) := by
  have h1 := (runAllU_follows (m := m) ops).agrees f
  have h2 := runAllU_costs (m := m) ops f
  cases e : runAllU ops f m with
  | done a f' n =>
    rw [e] at h1 h2
    rw [show m.run ops = .ok (a, n) from h1] at h
    cases h
    simp only at h2
    exact ⟨f', rfl, by omega⟩
  | panic w n =>
    rw [e] at h1 h2
    cases w with
    | none => simp only at h2; omega
    | some p => rw [show m.run ops = .error p from h1] at h; cases h
  | abort =>
    rw [e] at h1
    obtain ⟨p, h1⟩ := h1
    rw [h1] at h; cases h

omit [LawfulRaw] [LawfulCap] [LawfulAmort] in
theorem price_single {op : Op L R} (h : single op = true) : m.price op ≤ 12 := by
  cases op <;> simp only [price] <;> first | omega | cases h

omit [LawfulRaw] [LawfulCap] [LawfulAmort] in
theorem bill_single {ops : List (Op L R)} (h : ∀ op ∈ ops, single op = true) : m.bill ops ≤ 12 * ops.length := by
  induction ops generalizing m with
  | nil => exact Nat.le_refl _
  | cons op rest ih =>
    have h1 := price_single (m := m) (h op (by simp))
    simp only [bill, List.length_cons]
    split
    · rename_i m' _
      have := ih (m := m') fun o ho => h o (by simp [ho])
      omega
    · omega

theorem debt_new (n : Nat) (hb : BuildHasher L R) : (withCapacityAndHasher n hb).debt = 0 := by
  have h : ∀ {T : Type}, (RawTable.withCapacity n : RawTable T).len = 0 := by
    intro T; rw [RawTable.withCapacity, touch_len]; rfl
  simp only [debt, withCapacityAndHasher, RawTable.debt, h]
  omega

end Verif.GroupMap
