import Verif.CycleMap.Cost
import Verif.PartialMap.Cost
import Verif.GroupMap.Cost
import Verif.Swiss.Amort
import Verif.Props.UnwindGroup
import Verif.Props.UnwindPartial
/-!
Properties C136–C138: how often the items' own `Hash` and `Eq` run over a history of calls.

`execU op f m` (see `Verif.Unwind`) burns one of `f.fuse` for every key that is hashed and for every probe of a table by
key, and a growing table burns one for each element it hashes again; when the fuse is used up, the call is interrupted.
So a history that ends regularly with a fuse of `k` hashes and probes at most `k` times.  (How many elements a probe
compares the key with is up to the table and the hasher, and not counted.)
-/
set_option linter.unusedSectionVars false
namespace Verif

/-- The concrete table keeps to the contract of growing that C136–C138 rely on. -/
theorem C136_contract (w : Nat) : @LawfulAmort (swissRaw w) := swissRaw_amort w

namespace CycleMap
variable [RawImpl] [LawfulRaw] [LawfulCap] [LawfulAmort] {L R : Type} [BEq L] [BEq R]

/-! ### C136 -/

/-- C136: a history of calls on single pairs hashes and probes at most 15 times per call, all growth of the tables included;
it then returns and leaves what the main model says. -/
theorem C136_single {n : Nat} {hb : BuildHasher L R} {ops : List (Op L R)} {os : List (Out L R)} {m' : CycleMap L R}
    (hs : ∀ op ∈ ops, single op = true) (h : (withCapacityAndHasher n hb).run ops = .ok (os, m')) {f : Fate}
    (hf : 15 * ops.length ≤ f.fuse) :
    ∃ f', runAllU ops f (withCapacityAndHasher n hb) = .done os f' m' ∧ f.fuse ≤ f'.fuse + 15 * ops.length := by
  have h1 := bill_single (m := withCapacityAndHasher n hb) hs
  have h2 := debt_new (L := L) (R := R) n hb
  obtain ⟨f', h3, h4⟩ := runAllU_done h (f := f) (by omega)
  exact ⟨f', h3, by omega⟩

/-- C136: any history of calls from a new map hashes and probes at most as often as the prices of its calls say (the
bulk calls have prices in proportion to the number of entries at that time, or to the number of items given). -/
theorem C136_history {n : Nat} {hb : BuildHasher L R} {ops : List (Op L R)} {os : List (Out L R)} {m' : CycleMap L R}
    (h : (withCapacityAndHasher n hb).run ops = .ok (os, m')) {f : Fate} (hf : (withCapacityAndHasher n hb).bill ops ≤ f.fuse) :
    ∃ f', runAllU ops f (withCapacityAndHasher n hb) = .done os f' m' ∧
      f.fuse ≤ f'.fuse + (withCapacityAndHasher n hb).bill ops := by
  have h2 := debt_new (L := L) (R := R) n hb
  obtain ⟨f', h3, h4⟩ := runAllU_done h (f := f) (by omega)
  exact ⟨f', h3, by omega⟩

/-- C136: on any map, however it came about, the same holds if as many places are added as there are items. -/
theorem C136_any {m m' : CycleMap L R} {ops : List (Op L R)} {os : List (Out L R)} (h : m.run ops = .ok (os, m')) {f : Fate}
    (hf : m.left.len + m.right.len + m.bill ops ≤ f.fuse) :
    ∃ f', runAllU ops f m = .done os f' m' ∧ f.fuse ≤ f'.fuse + (m.left.len + m.right.len + m.bill ops) := by
  have h1 := m.left.debt_le
  have h2 := m.right.debt_le
  have h3 : m.debt ≤ m.left.len + m.right.len := by simp only [debt]; omega
  obtain ⟨f', h4, h5⟩ := runAllU_done h (f := f) (by omega)
  exact ⟨f', h4, by omega⟩

/-- a history of 8 calls needs 68 places, growing included; with one less it is interrupted -/
example : letI := swissRaw 4
    ∃ os m', (withCapacityAndHasher 0 idHash).run ((List.range 8).map fun i => Op.insert i (i * 10)) = .ok (os, m') ∧
      (∀ op ∈ ((List.range 8).map fun i => Op.insert i (i * 10)), single op = true) ∧
      (runAllU ((List.range 8).map fun i => Op.insert i (i * 10)) ⟨68, none⟩ (withCapacityAndHasher 0 idHash)).interrupted = false ∧
      (runAllU ((List.range 8).map fun i => Op.insert i (i * 10)) ⟨67, none⟩ (withCapacityAndHasher 0 idHash)).interrupted = true := by
  let _ := swissRaw 4
  obtain ⟨x, e, _⟩ := ran (e := (withCapacityAndHasher 0 idHash).run ((List.range 8).map fun i => Op.insert i (i * 10))) (p := fun _ => true) (by decide +kernel)
  exact ⟨x.1, x.2, e, by decide +kernel, by decide +kernel, by decide +kernel⟩

/-- one call alone may need more than its price: here `insert` makes both tables grow and hashes the seven pairs again -/
example : letI := swissRaw 4
    ∃ os m', (withCapacityAndHasher 0 idHash).run ((List.range 7).map fun i => Op.insert i (i * 10)) = .ok (os, m') ∧
      m'.price (.insert 8 80) = 10 ∧ (execU (.insert 8 80) ⟨19, none⟩ m').interrupted = true ∧
      (execU (.insert 8 80) ⟨20, none⟩ m').interrupted = false := by
  let _ := swissRaw 4
  obtain ⟨x, e, h⟩ := ran (e := (withCapacityAndHasher 0 idHash).run ((List.range 7).map fun i => Op.insert i (i * 10)))
    (p := fun x => (execU (.insert 8 80) ⟨19, none⟩ x.2).interrupted && !(execU (.insert 8 80) ⟨20, none⟩ x.2).interrupted)
    (by decide +kernel)
  rw [Bool.and_eq_true, Bool.not_eq_true'] at h
  exact ⟨x.1, x.2, e, rfl, h.1, h.2⟩

end CycleMap

namespace PartialMap
variable [RawImpl] [LawfulRaw] [LawfulCap] [LawfulAmort] {L R : Type} [BEq L] [BEq R]

/-! ### C137 -/

/-- C137: a history of calls on single items hashes and probes at most 14 times per call, all growth of the tables included;
it then returns and leaves what the main model says. -/
theorem C137_single {n : Nat} {hb : BuildHasher L R} {ops : List (Op L R)} {os : List (Out L R)} {m' : PartialMap L R}
    (hs : ∀ op ∈ ops, single op = true) (h : (withCapacityAndHasher n hb).run ops = .ok (os, m')) {f : Fate}
    (hf : 14 * ops.length ≤ f.fuse) :
    ∃ f', runAllU ops f (withCapacityAndHasher n hb) = .done os f' m' ∧ f.fuse ≤ f'.fuse + 14 * ops.length := by
  have h1 := bill_single (m := withCapacityAndHasher n hb) hs
  have h2 := debt_new (L := L) (R := R) n hb
  obtain ⟨f', h3, h4⟩ := runAllU_done h (f := f) (by omega)
  exact ⟨f', h3, by omega⟩

/-- C137: any history of calls from a new map hashes and probes at most as often as the prices of its calls say (the
bulk calls have prices in proportion to the number of entries at that time, or to the number of items given). -/
theorem C137_history {n : Nat} {hb : BuildHasher L R} {ops : List (Op L R)} {os : List (Out L R)} {m' : PartialMap L R}
    (h : (withCapacityAndHasher n hb).run ops = .ok (os, m')) {f : Fate} (hf : (withCapacityAndHasher n hb).bill ops ≤ f.fuse) :
    ∃ f', runAllU ops f (withCapacityAndHasher n hb) = .done os f' m' ∧
      f.fuse ≤ f'.fuse + (withCapacityAndHasher n hb).bill ops := by
  have h2 := debt_new (L := L) (R := R) n hb
  obtain ⟨f', h3, h4⟩ := runAllU_done h (f := f) (by omega)
  exact ⟨f', h3, by omega⟩

/-- C137: on any map, however it came about, the same holds if as many places are added as there are items. -/
theorem C137_any {m m' : PartialMap L R} {ops : List (Op L R)} {os : List (Out L R)} (h : m.run ops = .ok (os, m')) {f : Fate}
    (hf : m.left.len + m.right.len + m.bill ops ≤ f.fuse) :
    ∃ f', runAllU ops f m = .done os f' m' ∧ f.fuse ≤ f'.fuse + (m.left.len + m.right.len + m.bill ops) := by
  have h1 := m.left.debt_le
  have h2 := m.right.debt_le
  have h3 : m.debt ≤ m.left.len + m.right.len := by simp only [debt]; omega
  obtain ⟨f', h4, h5⟩ := runAllU_done h (f := f) (by omega)
  exact ⟨f', h4, by omega⟩

/-- a history of 8 calls needs 68 places, growing included; with one less it is interrupted -/
example : letI := swissRaw 4
    ∃ os m', (withCapacityAndHasher 0 CycleMap.idHash).run ((List.range 8).map fun i => Op.insert i (i * 10)) = .ok (os, m') ∧
      (∀ op ∈ ((List.range 8).map fun i => Op.insert i (i * 10)), single op = true) ∧
      (runAllU ((List.range 8).map fun i => Op.insert i (i * 10)) ⟨68, none⟩ (withCapacityAndHasher 0 CycleMap.idHash)).interrupted = false ∧
      (runAllU ((List.range 8).map fun i => Op.insert i (i * 10)) ⟨67, none⟩ (withCapacityAndHasher 0 CycleMap.idHash)).interrupted = true := by
  let _ := swissRaw 4
  obtain ⟨x, e, _⟩ := ran (e := (withCapacityAndHasher 0 CycleMap.idHash).run ((List.range 8).map fun i => Op.insert i (i * 10))) (p := fun _ => true) (by decide +kernel)
  exact ⟨x.1, x.2, e, by decide +kernel, by decide +kernel, by decide +kernel⟩

end PartialMap

namespace GroupMap
variable [RawImpl] [LawfulRaw] [LawfulCap] [LawfulAmort] {L R : Type} [BEq L] [BEq R]

/-! ### C138 -/

/-- C138: a history of calls on single items and their groups hashes and probes at most 12 times per call, all growth of the
tables included, and also the collecting of the groups that are removed, however large they are. -/
theorem C138_single {n : Nat} {hb : BuildHasher L R} {ops : List (Op L R)} {os : List (Out L R)} {m' : GroupMap L R}
    (hs : ∀ op ∈ ops, single op = true) (h : (withCapacityAndHasher n hb).run ops = .ok (os, m')) {f : Fate}
    (hf : 12 * ops.length ≤ f.fuse) :
    ∃ f', runAllU ops f (withCapacityAndHasher n hb) = .done os f' m' ∧ f.fuse ≤ f'.fuse + 12 * ops.length := by
  have h1 := bill_single (m := withCapacityAndHasher n hb) hs
  have h2 := debt_new (L := L) (R := R) n hb
  obtain ⟨f', h3, h4⟩ := runAllU_done h (f := f) (by omega)
  exact ⟨f', h3, by omega⟩

/-- C138: any history of calls from a new map hashes and probes at most as often as the prices of its calls say (the
bulk calls have prices in proportion to the number of entries at that time, or to the number of items given). -/
theorem C138_history {n : Nat} {hb : BuildHasher L R} {ops : List (Op L R)} {os : List (Out L R)} {m' : GroupMap L R}
    (h : (withCapacityAndHasher n hb).run ops = .ok (os, m')) {f : Fate} (hf : (withCapacityAndHasher n hb).bill ops ≤ f.fuse) :
    ∃ f', runAllU ops f (withCapacityAndHasher n hb) = .done os f' m' ∧
      f.fuse ≤ f'.fuse + (withCapacityAndHasher n hb).bill ops := by
  have h2 := debt_new (L := L) (R := R) n hb
  obtain ⟨f', h3, h4⟩ := runAllU_done h (f := f) (by omega)
  exact ⟨f', h3, by omega⟩

/-- C138: on any map, however it came about, the same holds if three places are added for every left item and one for every right item. -/
theorem C138_any {m m' : GroupMap L R} {ops : List (Op L R)} {os : List (Out L R)} (h : m.run ops = .ok (os, m')) {f : Fate}
    (hf : 3 * m.left.len + m.right.len + m.bill ops ≤ f.fuse) :
    ∃ f', runAllU ops f m = .done os f' m' ∧ f.fuse ≤ f'.fuse + (3 * m.left.len + m.right.len + m.bill ops) := by
  have h1 := m.left.debt_le
  have h2 := m.right.debt_le
  have h3 : m.debt ≤ 3 * m.left.len + m.right.len := by simp only [debt]; omega
  obtain ⟨f', h4, h5⟩ := runAllU_done h (f := f) (by omega)
  exact ⟨f', h4, by omega⟩

/-- a history of 9 calls needs 60 places, growing included; with one less it is interrupted -/
example : letI := swissRaw 4
    ∃ os m', (withCapacityAndHasher 0 CycleMap.idHash).run (((List.range 8).map fun i => Op.insert i 10) ++ [Op.removeRight 10]) = .ok (os, m') ∧
      (∀ op ∈ (((List.range 8).map fun i => Op.insert i 10) ++ [Op.removeRight 10]), single op = true) ∧
      (runAllU (((List.range 8).map fun i => Op.insert i 10) ++ [Op.removeRight 10]) ⟨60, none⟩ (withCapacityAndHasher 0 CycleMap.idHash)).interrupted = false ∧
      (runAllU (((List.range 8).map fun i => Op.insert i 10) ++ [Op.removeRight 10]) ⟨59, none⟩ (withCapacityAndHasher 0 CycleMap.idHash)).interrupted = true := by
  let _ := swissRaw 4
  obtain ⟨x, e, _⟩ := ran (e := (withCapacityAndHasher 0 CycleMap.idHash).run (((List.range 8).map fun i => Op.insert i 10) ++ [Op.removeRight 10])) (p := fun _ => true) (by decide +kernel)
  exact ⟨x.1, x.2, e, by decide +kernel, by decide +kernel, by decide +kernel⟩

end GroupMap

end Verif
