import Verif.CycleMap.Always
import Verif.PartialMap.Always
import Verif.Swiss.Good
import Verif.Props.Storage
/-! Properties C95–C99: what holds of every map, also one that earlier calls have broken. -/
set_option linter.unusedSectionVars false
namespace Verif

/-- a computation that succeeds with a result as asked for -/
theorem ran {α : Type} {e : Res α} {p : α → Bool} (h : e.toOption.any p = true) : ∃ x, e = .ok x ∧ p x = true := by
  cases e with
  | error => cases h
  | ok x => exact ⟨x, rfl, h⟩

end Verif

namespace Verif.CycleMap
variable [RawImpl] [LawfulRaw] {L R : Type} [BEq L] [BEq R] [EquivBEq L] [EquivBEq R]
variable {m m' : CycleMap L R}

/-! ### C95 -/

theorem Always.items (h1 : Always m) :
    (∀ e ∈ m.left.entries, e.1 = m.hb.hl e.2.value) ∧ (∀ e ∈ m.right.entries, e.1 = m.hb.hr e.2.value) ∧
    m.iterLeft.Pairwise (fun a b => (a == b) = false) ∧ m.iterRight.Pairwise (fun a b => (a == b) = false) ∧
    (∀ l, m.containsLeft l = m.iterLeft.any (l == ·)) ∧ (∀ r, m.containsRight r = m.iterRight.any (r == ·)) ∧
    m.len = m.iterLeft.length := by
  refine ⟨fun e he => (h1.left.hash e he).symm, fun e he => (h1.right.hash e he).symm, ?_, ?_, fun l => ?_, fun r => ?_, ?_⟩
  · rw [iterLeft, List.pairwise_map, RawTable.toList, List.pairwise_map]
    exact h1.left.apart.imp fun h => h.2
  · rw [iterRight, List.pairwise_map, RawTable.toList, List.pairwise_map]
    exact h1.right.apart.imp fun h => h
  · rw [containsLeft, h1.left.get_isSome (hash_left m.hb l), iterLeft, List.any_map]; rfl
  · rw [containsRight, h1.right.get_isSome (hash_right m.hb r), iterRight, List.any_map]; rfl
  · simp [len, RawTable.len, iterLeft, RawTable.toList]

theorem Always.ids (h1 : Always m) : (m.left.toList.map (·.id)).Nodup ∧ ∀ x ∈ m.left.toList, x.id < m.counter := by
  refine ⟨?_, ?_⟩
  · rw [List.Nodup, List.pairwise_map, RawTable.toList, List.pairwise_map]
    exact h1.left.apart.imp fun h => h.1
  · intro x hx
    obtain ⟨e, he, rfl⟩ := List.mem_map.1 hx
    exact h1.left.all e he

/-- C95: after any history, also one with a `drain` that was dropped early, every item is stored under its own hash,
no side yields an item twice, `contains_left` and `contains_right` agree with `iter_left` and `iter_right`, and
`len` counts the left items. -/
theorem C95_items (n : Nat) (hb : BuildHasher L R) (ops : List (Op L R)) (os : List (Out L R))
    (hc : LawfulClones ops) (h : (withCapacityAndHasher n hb).run ops = .ok (os, m)) :
    (∀ e ∈ m.left.entries, e.1 = hb.hl e.2.value) ∧ (∀ e ∈ m.right.entries, e.1 = hb.hr e.2.value) ∧
    m.iterLeft.Pairwise (fun a b => (a == b) = false) ∧ m.iterRight.Pairwise (fun a b => (a == b) = false) ∧
    (∀ l, m.containsLeft l = m.iterLeft.any (l == ·)) ∧ (∀ r, m.containsRight r = m.iterRight.any (r == ·)) ∧
    m.len = m.iterLeft.length := by
  obtain ⟨h1, h2⟩ := run_always (withCapacity_always n hb) hc h
  change m.hb = hb at h2
  rw [← h2]
  exact h1.items

/-- C95: after any history no id is in use twice on the left, and all ids there are below the counter.  (On the right
an early-dropped `drain` leaves ids that are given out again, see `C98_false`.) -/
theorem C95_ids (n : Nat) (hb : BuildHasher L R) (ops : List (Op L R)) (os : List (Out L R))
    (hc : LawfulClones ops) (h : (withCapacityAndHasher n hb).run ops = .ok (os, m)) :
    (m.left.toList.map (·.id)).Nodup ∧ ∀ x ∈ m.left.toList, x.id < m.counter :=
  (run_always (withCapacity_always n hb) hc h).1.ids

/-- a history that breaks the map: three pairs, `drain()` dropped after one item, two more pairs -/
def Demo.breaking : List (Op Nat Nat) :=
  [.insert 1 10, .insert 2 20, .insert 3 30, .drain 1, .insert 1 40, .insert 4 50]

open Demo in
/-- the hypotheses of C95 are met by a map that is broken indeed: it has two left and four right items -/
example : letI := swissRaw 4
    ∃ os m, (withCapacityAndHasher 4 spreadHash).run breaking = .ok (os, m) ∧ LawfulClones breaking ∧
      m.iterLeft.length = 2 ∧ m.iterRight.length = 4 := by
  let _ := swissRaw 4
  obtain ⟨x, e, h⟩ := ran (e := (withCapacityAndHasher 4 spreadHash).run breaking)
    (p := fun x => x.2.iterLeft.length == 2 && x.2.iterRight.length == 4) (by decide +kernel)
  exact ⟨_, _, e, fun cl cr h => by simp [breaking] at h, by simpa using h⟩

/-! ### C96 -/

/-- C96: `hasher()` always returns what the map was made with. -/
theorem C96_hasher (n : Nat) (hb : BuildHasher L R) (ops : List (Op L R)) (os : List (Out L R))
    (hc : LawfulClones ops) (h : (withCapacityAndHasher n hb).run ops = .ok (os, m)) : m.hasher = hb :=
  (run_always (withCapacity_always n hb) hc h).2

open Demo in
example : letI := swissRaw 4
    ∃ os m, (withCapacityAndHasher 4 spreadHash).run breaking = .ok (os, m) ∧ m.hasher = spreadHash := by
  let _ := swissRaw 4; have := swissRaw_lawful 4
  obtain ⟨x, e, -⟩ := ran (e := (withCapacityAndHasher 4 spreadHash).run breaking) (p := fun _ => true) (by decide +kernel)
  exact ⟨_, _, e, C96_hasher 4 spreadHash breaking _ (fun cl cr h => by simp [breaking] at h) e⟩

/-! ### C97 -/

/-- C97: `clear()` makes any map as good as new, also a broken one. -/
theorem C97_clear (m : CycleMap L R) (ops : List (Op L R)) (hs : SafeRun [] ops) :
    ∃ os m' c', m.clear.run ops = .ok (os, m') ∧ Steps [] ops os c' ∧ Shows m' c' := by
  obtain ⟨os, m', c', e, s, h⟩ := run_simulates (clear_refines m) hs
  exact ⟨os, m', c', e, s, h.shows⟩

open Demo in
example : letI := swissRaw 4
    ∃ os m, (withCapacityAndHasher 4 spreadHash).run breaking = .ok (os, m) ∧
      ∃ os' m' c', m.clear.run [.insert 1 10, .getRight 1] = .ok (os', m') ∧
        Steps [] [.insert 1 10, .getRight 1] os' c' ∧ Shows m' c' := by
  let _ := swissRaw 4; have := swissRaw_lawful 4
  obtain ⟨x, e, -⟩ := ran (e := (withCapacityAndHasher 4 spreadHash).run breaking) (p := fun _ => true) (by decide +kernel)
  exact ⟨_, _, e, C97_clear _ _ (by simp [SafeRun, Safe])⟩

/-! ### C99 -/

theorem Always.insert_effect (h1 : Always m) {l : L} {r : R} {o} (e : m.insert l r = .ok (o, m')) :
    m'.containsLeft l = true ∧ m'.containsRight r = true ∧ m'.arePaired l r = true := by
  obtain ⟨h2, -⟩ := insert_always h1 e
  obtain ⟨⟨o1, m1⟩, e1, e⟩ := bind_ok e
  obtain ⟨⟨o2, m2⟩, e2, e⟩ := bind_ok e
  have a1 := (removeViaLeft_less h1 e1).1.always h1
  have a2 := (removeViaRight_less a1 e2).1.always a1
  cases e
  have gl := h2.left.get_eq AwayL.symm (hash_left m2.hb l) (x := ⟨l, m2.hb.hr r, m2.counter⟩)
    (RawTable.mem_insert a2.left.hash _ _) (by simp [equivalentKey]) (fun y hy => hy.2)
  have gr := h2.right.get_eq AwayR.symm (hash_right m2.hb r) (x := ⟨r, m2.hb.hl l, m2.counter⟩)
    (RawTable.mem_insert a2.right.hash _ _) (by simp [equivalentKey]) (fun y hy => hy)
  refine ⟨?_, ?_, ?_⟩
  · rw [containsLeft, gl]; rfl
  · rw [containsRight, gr]; rfl
  · simp only [arePaired, gl, gr]; simp

theorem Always.remove_effect (h1 : Always m) :
    (∀ l o m', m.removeViaLeft l = .ok (o, m') → m'.containsLeft l = false ∧ m'.getRight l = none) ∧
    (∀ r o m', m.removeViaRight r = .ok (o, m') → m'.containsRight r = false ∧ m'.getLeft r = none) := by
  constructor
  · intro l o m' e
    obtain ⟨a, k⟩ := removeViaLeft_less h1 e
    have g : m'.left.get (m'.hb.hl l) (fun x => l == x.value) = none := by
      have := k.get_isSome (hash_left m.hb l)
      rw [← a.hb, List.any_eq_false.2] at this
      · exact Option.isSome_eq_false_iff.1 this |> Option.isNone_iff_eq_none.1
      · intro x hx
        obtain ⟨e', he, rfl⟩ := List.mem_map.1 hx
        simpa [equivalentKey] using (k.all e' he).2
    exact ⟨by unfold containsLeft equivalentKey; rw [g]; rfl, by rw [getRight, getRightBy, g]⟩
  · intro r o m' e
    obtain ⟨a, k⟩ := removeViaRight_less h1 e
    have g : m'.right.get (m'.hb.hr r) (fun x => r == x.value) = none := by
      have := k.get_isSome (hash_right m.hb r)
      rw [← a.hb, List.any_eq_false.2] at this
      · exact Option.isSome_eq_false_iff.1 this |> Option.isNone_iff_eq_none.1
      · intro x hx
        obtain ⟨e', he, rfl⟩ := List.mem_map.1 hx
        simpa [equivalentKey] using (k.all e' he)
    exact ⟨by unfold containsRight equivalentKey; rw [g]; rfl, by rw [getLeft, getLeftBy, g]⟩

/-- C99: whatever happened before, if `insert(l, r)` returns then both items are there and `are_paired`. -/
theorem C99_insert (n : Nat) (hb : BuildHasher L R) (ops : List (Op L R)) (os : List (Out L R))
    (hc : LawfulClones ops) (h : (withCapacityAndHasher n hb).run ops = .ok (os, m)) {l : L} {r : R} {o}
    (e : m.insert l r = .ok (o, m')) :
    m'.containsLeft l = true ∧ m'.containsRight r = true ∧ m'.arePaired l r = true :=
  (run_always (withCapacity_always n hb) hc h).1.insert_effect e

/-- C99: whatever happened before, if a removal returns then the item is not there any more. -/
theorem C99_remove (n : Nat) (hb : BuildHasher L R) (ops : List (Op L R)) (os : List (Out L R))
    (hc : LawfulClones ops) (h : (withCapacityAndHasher n hb).run ops = .ok (os, m)) :
    (∀ l o m', m.removeViaLeft l = .ok (o, m') → m'.containsLeft l = false ∧ m'.getRight l = none) ∧
    (∀ r o m', m.removeViaRight r = .ok (o, m') → m'.containsRight r = false ∧ m'.getLeft r = none) :=
  (run_always (withCapacity_always n hb) hc h).1.remove_effect

open Demo in
/-- on the broken map from above, `insert(5, 60)` goes through, and so does `remove_via_left(4)` -/
example : letI := swissRaw 4
    ∃ os m, (withCapacityAndHasher 4 spreadHash).run breaking = .ok (os, m) ∧
      (m.insert 5 60).toOption.isSome = true ∧ (m.removeViaLeft 4).toOption.isSome = true := by
  let _ := swissRaw 4
  obtain ⟨x, e, h⟩ := ran (e := (withCapacityAndHasher 4 spreadHash).run breaking)
    (p := fun x => (x.2.insert 5 60).toOption.isSome && (x.2.removeViaLeft 4).toOption.isSome) (by decide +kernel)
  exact ⟨_, _, e, by simpa using h⟩

/-! ### C98 -/

omit [RawImpl] [LawfulRaw] in
/-- C98 in full: once `insert(l, r)` has returned, `get_right(l)` is `r`, whatever happened before, also a `drain` that
was dropped early.  False, see `C98_false`. -/
def C98_full : Prop :=
  ∀ [RawImpl] [LawfulRaw] (L R : Type) [BEq L] [BEq R] [EquivBEq L] [EquivBEq R] (n : Nat) (hb : BuildHasher L R)
    (ops : List (Op L R)) (os : List (Out L R)) (m m' : CycleMap L R) (l : L) (r : R) (o : InsertOptional L R),
    LawfulClones ops → (withCapacityAndHasher n hb).run ops = .ok (os, m) → m.insert l r = .ok (o, m') →
      m'.getRight l = some r ∧ m'.getLeft r = some l

/-- C98, what holds: it is so in every reachable map (`C07_insert_effect`), that is as long as no `drain` is dropped
early, and after a `clear()`.  Missing: histories in which a `drain` was dropped early. -/
theorem C98_partial (m : CycleMap L R) (hm : Reachable m ∨ ∃ m₀ : CycleMap L R, m = m₀.clear) (l : L) (r : R) :
    ∃ o m', m.insert l r = .ok (o, m') ∧ m'.getRight l = some r ∧ m'.getLeft r = some l := by
  have hr : ∃ c, Repr m c := by
    rcases hm with hm | ⟨m₀, rfl⟩
    · exact hm.repr
    · exact ⟨_, clear_refines m₀⟩
  obtain ⟨c, hc⟩ := hr
  obtain ⟨m', e, h', _⟩ := insert_refines hc l r
  have s := h'.shows
  refine ⟨_, m', e, ?_, ?_⟩
  · rw [s.getRight]; simp [CycleSpec.findL, CycleSpec.insert]
  · rw [s.getLeft]; simp [CycleSpec.findR, CycleSpec.insert]

open Demo in
example : ∃ o m', demo.insert 2 50 = .ok (o, m') ∧ m'.getRight 2 = some 50 ∧ m'.getLeft 50 = some 2 :=
  C98_partial demo (.inl demo_reachable) 2 50

/-- items are their own hashes -/
def idHash : BuildHasher Nat Nat :=
  ⟨fun x => x.toUInt64, fun x => x.toUInt64, fun a b h => by rw [eq_of_beq h], fun a b h => by rw [eq_of_beq h]⟩

omit [RawImpl] [LawfulRaw] in
/-- the witness, on the table with control bytes and groups of 16 slots: `(1, 10)` is drained by an iterator that is
dropped at once, `(1, 30)` is inserted, and `get_right(&1)` is `10`, as `iter()` says, too.  The `10` left behind has
the id and the partner's hash that the lookup asks for, because `drain` starts the ids over. -/
theorem C98_witness : letI := swissRaw 4
    ∃ os m, (withCapacityAndHasher 0 idHash).run [.insert 1 10, .drain 0, .insert 1 30] = .ok (os, m) ∧
      m.getRight 1 = some 10 ∧ m.iterList.toOption = some [(1, 10)] ∧ m.arePaired 1 30 = true ∧ m.arePaired 1 10 = false := by
  let _ := swissRaw 4
  refine ⟨_, _, rfl, ?_, ?_, ?_, ?_⟩ <;> decide

omit [RawImpl] [LawfulRaw] in
theorem C98_false : ¬ C98_full := by
  intro h
  let _ := swissRaw 4; have := swissRaw_lawful 4
  obtain ⟨x, e, hx⟩ := ran (e := (withCapacityAndHasher 0 idHash).run [.insert 1 10, .drain 0])
    (p := fun x => (x.2.insert 1 30).toOption.any fun y => y.2.getRight 1 == some 10) (by decide +kernel)
  obtain ⟨y, e', hy⟩ := ran hx
  have := (h Nat Nat 0 idHash [.insert 1 10, .drain 0] _ _ _ 1 30 _ (fun cl cr h => by simp at h) e e').1
  simp [this] at hy

end Verif.CycleMap

namespace Verif.PartialMap
variable [RawImpl] [LawfulRaw] {L R : Type} [BEq L] [BEq R] [EquivBEq L] [EquivBEq R]
variable {m m' : PartialMap L R}
open CycleMap (bind_ok)

/-! ### C95 -/

theorem Always.items (h1 : Always m) :
    (∀ e ∈ m.left.entries, e.1 = m.hb.hl e.2.value) ∧ (∀ e ∈ m.right.entries, e.1 = m.hb.hr e.2.value) ∧
    m.iterLeft.Pairwise (fun a b => (a == b) = false) ∧ m.iterRight.Pairwise (fun a b => (a == b) = false) ∧
    (∀ l, m.containsLeft l = m.iterLeft.any (l == ·)) ∧ (∀ r, m.containsRight r = m.iterRight.any (r == ·)) ∧
    m.lenLeft = m.iterLeft.length ∧ m.lenRight = m.iterRight.length := by
  refine ⟨fun e he => (h1.left.hash e he).symm, fun e he => (h1.right.hash e he).symm, ?_, ?_, fun l => ?_, fun r => ?_, ?_, ?_⟩
  · rw [iterLeft, List.pairwise_map, RawTable.toList, List.pairwise_map]
    exact h1.left.apart.imp fun h => h
  · rw [iterRight, List.pairwise_map, RawTable.toList, List.pairwise_map]
    exact h1.right.apart.imp fun h => h
  · rw [containsLeft, h1.left.get_isSome (p := equivalentKey l) (fun x hx => (m.hb.hl_congr _ _ hx).symm), iterLeft,
      List.any_map]; rfl
  · rw [containsRight, h1.right.get_isSome (p := equivalentKey r) (fun x hx => (m.hb.hr_congr _ _ hx).symm), iterRight,
      List.any_map]; rfl
  · simp [lenLeft, RawTable.len, iterLeft, RawTable.toList]
  · simp [lenRight, RawTable.len, iterRight, RawTable.toList]

/-- C95: after any history, also one with the calls that break the map (`C41`, `C55`), every item is stored under its
own hash, no side yields an item twice, `contains_left` and `contains_right` agree with `iter_left` and `iter_right`,
and the lengths count them. -/
theorem C95_items (n : Nat) (hb : BuildHasher L R) (ops : List (Op L R)) (os : List (Out L R))
    (hc : LawfulClones ops) (h : (withCapacityAndHasher n hb).run ops = .ok (os, m)) :
    (∀ e ∈ m.left.entries, e.1 = hb.hl e.2.value) ∧ (∀ e ∈ m.right.entries, e.1 = hb.hr e.2.value) ∧
    m.iterLeft.Pairwise (fun a b => (a == b) = false) ∧ m.iterRight.Pairwise (fun a b => (a == b) = false) ∧
    (∀ l, m.containsLeft l = m.iterLeft.any (l == ·)) ∧ (∀ r, m.containsRight r = m.iterRight.any (r == ·)) ∧
    m.lenLeft = m.iterLeft.length ∧ m.lenRight = m.iterRight.length := by
  obtain ⟨h1, h2⟩ := run_always (withCapacity_always n hb) hc h
  change m.hb = hb at h2
  rw [← h2]
  exact h1.items

/-- a history that breaks the map: `drain_filter` takes the right item of a pair only, then more calls -/
def Demo.breaking : List (Op Nat Nat) :=
  [.insert 1 10, .insertLeft 2, .insertRight 20, .insert 3 30,
    .drainFilter Unit (fun s p => (match p with | .someRight r => r == 10 | _ => false, s)) () 9, .insert 4 40, .pair 2 20]

open Demo in
/-- the hypotheses of C95 are met by a map that is broken indeed: 1 has no partner but is not unpaired -/
example : letI := swissRaw 4
    ∃ os m, (withCapacityAndHasher 4 spreadHash).run breaking = .ok (os, m) ∧ LawfulClones breaking ∧
      m.iterLeft.length = 4 ∧ m.iterRight.length = 3 ∧ m.getRight 1 = none ∧ m.isLeftPaired 1 = true := by
  let _ := swissRaw 4
  obtain ⟨x, e, h⟩ := ran (e := (withCapacityAndHasher 4 spreadHash).run breaking)
    (p := fun x => x.2.iterLeft.length == 4 && (x.2.iterRight.length == 3 && (x.2.getRight 1 == none && x.2.isLeftPaired 1)))
    (by decide +kernel)
  exact ⟨_, _, e, fun cl cr h => by simp [breaking] at h, by simpa using h⟩

/-! ### C96 -/

/-- C96: `hasher()` always returns what the map was made with. -/
theorem C96_hasher (n : Nat) (hb : BuildHasher L R) (ops : List (Op L R)) (os : List (Out L R))
    (hc : LawfulClones ops) (h : (withCapacityAndHasher n hb).run ops = .ok (os, m)) : m.hasher = hb :=
  (run_always (withCapacity_always n hb) hc h).2

open Demo in
example : letI := swissRaw 4
    ∃ os m, (withCapacityAndHasher 4 spreadHash).run breaking = .ok (os, m) ∧ m.hasher = spreadHash := by
  let _ := swissRaw 4; have := swissRaw_lawful 4
  obtain ⟨x, e, -⟩ := ran (e := (withCapacityAndHasher 4 spreadHash).run breaking) (p := fun _ => true) (by decide +kernel)
  exact ⟨_, _, e, C96_hasher 4 spreadHash breaking _ (fun cl cr h => by simp [breaking] at h) e⟩

/-! ### C97 -/

/-- C97: `clear()` makes any map as good as new, also a broken one. -/
theorem C97_clear (m : PartialMap L R) (ops : List (Op L R)) (hs : SafeRun m.hb [] ops) :
    ∃ os m' c', m.clear.run ops = .ok (os, m') ∧ Steps [] ops os c' ∧ Shows m' c' := by
  obtain ⟨os, m', c', e, s, h, _⟩ := run_simulates (m := m.clear) rfl (clear_refines m) hs
  exact ⟨os, m', c', e, s, h.shows⟩

open Demo in
example : letI := swissRaw 4
    ∃ os m, (withCapacityAndHasher 4 spreadHash).run breaking = .ok (os, m) ∧
      ∃ os' m' c', m.clear.run [.insert 1 10, .getRight 1] = .ok (os', m') ∧
        Steps [] [.insert 1 10, .getRight 1] os' c' ∧ Shows m' c' := by
  let _ := swissRaw 4; have := swissRaw_lawful 4
  obtain ⟨x, e, -⟩ := ran (e := (withCapacityAndHasher 4 spreadHash).run breaking) (p := fun _ => true) (by decide +kernel)
  exact ⟨_, _, e, C97_clear _ _ (by simp [SafeRun, Safe])⟩

/-! ### C99 -/

theorem Own.got {T : Type} [BEq T] [EquivBEq T] {hf : T → UInt64} (hh : ∀ a b : T, (a == b) = true → hf a = hf b)
    {t t' : RawTable (MappingPair T)} {q q'} (h : Own hf q t) {a : T} {o i}
    (e : t' = t.insert (hf a) ⟨a, o, i⟩ (·.hashWith hf)) (h' : Own hf q' t') :
    t'.get (hf a) (equivalentKey a) = some ⟨a, o, i⟩ := by
  subst e
  exact h'.get_eq Away.symm (fun x hx => (hh _ _ hx).symm) (RawTable.mem_insert h.hash _ _) (by simp [equivalentKey])
    (fun y hy => hy)

theorem Own.gone {T : Type} [BEq T] [EquivBEq T] {hf : T → UInt64} (hh : ∀ a b : T, (a == b) = true → hf a = hf b)
    {t : RawTable (MappingPair T)} {a : T} (h : Own hf (fun x => (a == x) = false) t) :
    t.get (hf a) (equivalentKey a) = none := by
  have := h.get_isSome (p := equivalentKey a) (fun x hx => (hh _ _ hx).symm)
  rw [List.any_eq_false.2] at this
  · exact Option.isNone_iff_eq_none.1 (Option.isSome_eq_false_iff.1 this)
  · intro x hx
    obtain ⟨e, he, rfl⟩ := List.mem_map.1 hx
    simpa [equivalentKey] using h.all e he

theorem Always.insert_effect (h1 : Always m) :
    (∀ l r o m', m.insert l r = .ok (o, m') → m'.containsLeft l = true ∧ m'.containsRight r = true ∧
      m'.arePaired l r = true ∧ m'.isLeftPaired l = true ∧ m'.isRightPaired r = true) ∧
    (∀ l o m', m.insertLeft l = .ok (o, m') → m'.containsLeft l = true ∧ m'.isLeftPaired l = false) ∧
    (∀ r o m', m.insertRight r = .ok (o, m') → m'.containsRight r = true ∧ m'.isRightPaired r = false) := by
  refine ⟨fun l r o m' e => ?_, fun l o m' e => ?_, fun r o m' e => ?_⟩
  · obtain ⟨h2, -⟩ := insert_always h1 e
    obtain ⟨⟨o1, m1⟩, e1, e⟩ := bind_ok e
    obtain ⟨⟨o2, m2⟩, e2, e⟩ := bind_ok e
    have a1 := (removeViaLeft_less e1).always h1
    have a2 := (removeViaRight_less e2).always a1
    cases e
    have gl := Own.got m2.hb.hl_congr a2.left rfl h2.left
    have gr := Own.got m2.hb.hr_congr a2.right rfl h2.right
    refine ⟨?_, ?_, ?_, ?_, ?_⟩
    · rw [containsLeft, gl]; rfl
    · rw [containsRight, gr]; rfl
    · simp only [arePaired, gl, gr]; simp
    · simp only [isLeftPaired, gl]; rfl
    · simp only [isRightPaired, gr]; rfl
  · obtain ⟨h2, -⟩ := insertLeft_always h1 e
    obtain ⟨⟨o1, m1⟩, e1, e⟩ := bind_ok e
    have a1 := (removeViaLeft_less e1).always h1
    cases e
    have gl := Own.got m1.hb.hl_congr a1.left rfl h2.left
    refine ⟨?_, ?_⟩
    · rw [containsLeft, gl]; rfl
    · simp only [isLeftPaired, gl]; rfl
  · obtain ⟨h2, -⟩ := insertRight_always h1 e
    obtain ⟨⟨o1, m1⟩, e1, e⟩ := bind_ok e
    have a1 := (removeViaRight_less e1).always h1
    cases e
    have gr := Own.got m1.hb.hr_congr a1.right rfl h2.right
    refine ⟨?_, ?_⟩
    · rw [containsRight, gr]; rfl
    · simp only [isRightPaired, gr]; rfl

/-- C99: whatever happened before, if `insert(l, r)` returns then both items are there and `are_paired`; if
`insert_left(l)` or `insert_right(r)` returns then the item is there and not paired. -/
theorem C99_insert (n : Nat) (hb : BuildHasher L R) (ops : List (Op L R)) (os : List (Out L R))
    (hc : LawfulClones ops) (h : (withCapacityAndHasher n hb).run ops = .ok (os, m)) :
    (∀ l r o m', m.insert l r = .ok (o, m') → m'.containsLeft l = true ∧ m'.containsRight r = true ∧
      m'.arePaired l r = true ∧ m'.isLeftPaired l = true ∧ m'.isRightPaired r = true) ∧
    (∀ l o m', m.insertLeft l = .ok (o, m') → m'.containsLeft l = true ∧ m'.isLeftPaired l = false) ∧
    (∀ r o m', m.insertRight r = .ok (o, m') → m'.containsRight r = true ∧ m'.isRightPaired r = false) := by
  exact (run_always (withCapacity_always n hb) hc h).1.insert_effect

theorem Always.remove_effect (h1 : Always m) :
    (∀ l o m', m.removeViaLeft l = .ok (o, m') → m'.containsLeft l = false) ∧
    (∀ r o m', m.removeViaRight r = .ok (o, m') → m'.containsRight r = false) ∧
    (∀ l o m', m.removeLeft l = .ok (o, m') → m'.containsLeft l = false) ∧
    (∀ r o m', m.removeRight r = .ok (o, m') → m'.containsRight r = false) := by
  have gl : ∀ {l} {m' : PartialMap L R}, m'.hb = m.hb → Own m.hb.hl (fun x => (l == x) = false) m'.left → m'.containsLeft l = false := by
    intro l m' hh k
    rw [containsLeft, hh, k.gone m.hb.hl_congr]; rfl
  have gr : ∀ {r} {m' : PartialMap L R}, m'.hb = m.hb → Own m.hb.hr (fun x => (r == x) = false) m'.right → m'.containsRight r = false := by
    intro r m' hh k
    rw [containsRight, hh, k.gone m.hb.hr_congr]; rfl
  refine ⟨fun l o m' e => gl (removeViaLeft_less e).hb (removeViaLeft_away h1 e),
    fun r o m' e => gr (removeViaRight_less e).hb (removeViaRight_away h1 e), fun l o m' e => ?_, fun r o m' e => ?_⟩
  · refine gl (removeLeft_less e).hb ?_
    have : Own m.hb.hl (fun x => True ∧ (l == x) = false) m'.left := by
      refine h1.left.out m.hb.hl_congr ?_
      simp only [removeLeft] at e
      split at e
      · rename_i h1; rw [h1]; cases e; rfl
      · rename_i h1; rw [h1]
        repeat' split at e
        all_goals first | cases e; done | (cases e; rfl)
    exact this.mono fun _ h => h.2
  · refine gr (removeRight_less e).hb ?_
    have : Own m.hb.hr (fun x => True ∧ (r == x) = false) m'.right := by
      refine h1.right.out m.hb.hr_congr ?_
      simp only [removeRight] at e
      split at e
      · rename_i h1; rw [h1]; cases e; rfl
      · rename_i h1; rw [h1]
        repeat' split at e
        all_goals first | cases e; done | (cases e; rfl)
    exact this.mono fun _ h => h.2

/-- C99: whatever happened before, if a removal of an item returns then the item is not there any more. -/
theorem C99_remove (n : Nat) (hb : BuildHasher L R) (ops : List (Op L R)) (os : List (Out L R))
    (hc : LawfulClones ops) (h : (withCapacityAndHasher n hb).run ops = .ok (os, m)) :
    (∀ l o m', m.removeViaLeft l = .ok (o, m') → m'.containsLeft l = false) ∧
    (∀ r o m', m.removeViaRight r = .ok (o, m') → m'.containsRight r = false) ∧
    (∀ l o m', m.removeLeft l = .ok (o, m') → m'.containsLeft l = false) ∧
    (∀ r o m', m.removeRight r = .ok (o, m') → m'.containsRight r = false) := by
  exact (run_always (withCapacity_always n hb) hc h).1.remove_effect

open Demo in
/-- on the broken map from above, these calls go through -/
example : letI := swissRaw 4
    ∃ os m, (withCapacityAndHasher 4 spreadHash).run breaking = .ok (os, m) ∧
      (m.insert 5 60).toOption.isSome = true ∧ (m.removeLeft 2).toOption.isSome = true := by
  let _ := swissRaw 4
  obtain ⟨x, e, h⟩ := ran (e := (withCapacityAndHasher 4 spreadHash).run breaking)
    (p := fun x => (x.2.insert 5 60).toOption.isSome && (x.2.removeLeft 2).toOption.isSome) (by decide +kernel)
  exact ⟨_, _, e, by simpa using h⟩

end Verif.PartialMap

namespace Verif.GroupMap
variable [RawImpl] [LawfulRaw] {L R : Type} [BEq L] [BEq R] [EquivBEq L] [EquivBEq R]
variable {m m' : GroupMap L R}
open CycleMap (bind_ok)

/-- C96: `hasher()` always returns what the map was made with. -/
theorem C96_hasher (n : Nat) (hb : BuildHasher L R) (ops : List (Op L R)) (os : List (Out L R))
    (hc : LawfulClones ops) (h : (withCapacityAndHasher n hb).run ops = .ok (os, m)) : m.hasher = hb :=
  (run_always (withCapacity_always n hb) hc h).2

open Demo in
example : letI := swissRaw 4
    ∃ os m, (withCapacityAndHasher 4 spreadHash).run breaking = .ok (os, m) ∧ m.hasher = spreadHash := by
  let _ := swissRaw 4; have := swissRaw_lawful 4
  obtain ⟨x, e, -⟩ := ran (e := (withCapacityAndHasher 4 spreadHash).run breaking) (p := fun _ => true) (by decide +kernel)
  exact ⟨_, _, e, C96_hasher 4 spreadHash breaking _ (fun cl cr h => by simp [breaking] at h) e⟩

/-- C97: `clear()` makes any map as good as new, also a broken one. -/
theorem C97_clear (m : GroupMap L R) (ops : List (Op L R)) (hs : SafeRun GroupSpec.empty ops) :
    ∃ os m' c', m.clear.run ops = .ok (os, m') ∧ Steps GroupSpec.empty ops os c' ∧ Shows m' c' := by
  obtain ⟨os, m', c', e, s, h, _⟩ := run_simulates (clear_refines m) hs
  exact ⟨os, m', c', e, s, h.shows⟩

open Demo in
example : letI := swissRaw 4
    ∃ os m, (withCapacityAndHasher 4 spreadHash).run breaking = .ok (os, m) ∧
      ∃ os' m' c', m.clear.run [.insert 1 10, .getRight 1] = .ok (os', m') ∧
        Steps GroupSpec.empty [.insert 1 10, .getRight 1] os' c' ∧ Shows m' c' := by
  let _ := swissRaw 4; have := swissRaw_lawful 4
  obtain ⟨x, e, -⟩ := ran (e := (withCapacityAndHasher 4 spreadHash).run breaking) (p := fun _ => true) (by decide +kernel)
  exact ⟨_, _, e, C97_clear _ _ (by simp [SafeRun, Safe, GroupSpec.hasPair, GroupSpec.empty])⟩

theorem Always.containsLeft_of_mem (h : Always m) {k : UInt64} {x : LeftItem L} (hx : (k, x) ∈ m.left.entries) {l : L}
    (e : (l == x.value) = true) : m.containsLeft l = true := by
  rw [containsLeft, h.left.get_isSome (hash_left m.hb l)]
  exact List.any_eq_true.2 ⟨x, List.mem_map.2 ⟨_, hx, rfl⟩, BEq.symm e⟩

theorem Always.containsRight_of_mem (h : Always m) {k : UInt64} {x : RightItem R} (hx : (k, x) ∈ m.right.entries) {r : R}
    (e : (r == x.value) = true) : m.containsRight r = true := by
  rw [containsRight, h.right.get_isSome (hash_right m.hb r)]
  exact List.any_eq_true.2 ⟨x, List.mem_map.2 ⟨_, hx, rfl⟩, BEq.symm e⟩

/-- what a table holds it holds after an in-place change of anything but the item -/
theorem mem_written {T : Type} {t : RawTable T} {h p x w} (e : t.getMut h p = some (x, w)) {v : T} {val : T → R}
    (hv : val v = val x) {y : R} (hy : ∃ e ∈ t.entries, val e.2 = y) : ∃ e ∈ (w v).entries, val e.2 = y := by
  obtain ⟨-, k, es, h1, h2⟩ := RawTable.getMut_perm e
  obtain ⟨a, ha, rfl⟩ := hy
  rcases List.mem_cons.1 (h1.mem_iff.1 ha) with rfl | ha
  · exact ⟨(k, v), (h2 v).mem_iff.2 List.mem_cons_self, hv⟩
  · exact ⟨a, (h2 v).mem_iff.2 (List.mem_cons_of_mem _ ha), rfl⟩

/-- C99: whatever happened before, if `insert(l, r)` returns then both items are there; if `insert_right(r)` returns
then `r` is there. -/
theorem C99_insert (n : Nat) (hb : BuildHasher L R) (ops : List (Op L R)) (os : List (Out L R))
    (hc : LawfulClones ops) (h : (withCapacityAndHasher n hb).run ops = .ok (os, m)) :
    (∀ l r m', m.insert l r = .ok m' → m'.containsLeft l = true ∧ m'.containsRight r = true) ∧
    (∀ r o m', m.insertRight r = .ok (o, m') → m'.containsRight r = true) := by
  obtain ⟨h1, -⟩ := run_always (withCapacity_always n hb) hc h
  refine ⟨fun l r m' e => ?_, fun r o m' e => ?_⟩
  · obtain ⟨h2, -⟩ := insert_always h1 e
    have wl : ∀ {x w}, m.left.getMut (m.hb.hl l) (equivalentKeyLeft l) = some (x, w) → ∀ {a b},
        ∃ k, (k, { x with hash := a, rid := b }) ∈ (w { x with hash := a, rid := b }).entries ∧ (l == x.value) = true := by
      intro x w hx a b
      obtain ⟨hp, k, es, -, h3⟩ := RawTable.getMut_perm hx
      exact ⟨k, (h3 _).mem_iff.2 List.mem_cons_self, BEq.symm hp⟩
    have wr : ∀ {x w}, m.right.getMut (m.hb.hr r) (equivalentKeyRight r) = some (x, w) → ∀ {a},
        ∃ k, (k, { x with pairs := a }) ∈ (w { x with pairs := a }).entries ∧ (r == x.value) = true := by
      intro x w hx a
      obtain ⟨hp, k, es, -, h3⟩ := RawTable.getMut_perm hx
      exact ⟨k, (h3 _).mem_iff.2 List.mem_cons_self, BEq.symm hp⟩
    simp only [insert] at e
    split at e
    · cases e
      exact ⟨h2.containsLeft_of_mem (RawTable.mem_insert h1.left.hash _ _) (by simp),
        h2.containsRight_of_mem (RawTable.mem_insert h1.right.hash _ _) (by simp)⟩
    · rename_i hl hr
      split at e
      · cases e
      · rename_i hw
        cases e
        obtain ⟨k, hk, e⟩ := wl hl
        exact ⟨h2.containsLeft_of_mem hk e,
          h2.containsRight_of_mem (RawTable.mem_insert (KeyedR.write h1.right hw).hash _ _) (by simp)⟩
    · rename_i hl hr
      cases e
      obtain ⟨k, hk, e⟩ := wr hr
      exact ⟨h2.containsLeft_of_mem (RawTable.mem_insert h1.left.hash _ _) (by simp), h2.containsRight_of_mem hk e⟩
    · rename_i x wx y wy hl hr
      split at e
      · cases e
      · rename_i z wz hw
        cases e
        obtain ⟨k, hk, e⟩ := wl hl
        obtain ⟨k', hk', e'⟩ := wr hr
        refine ⟨h2.containsLeft_of_mem hk e, ?_⟩
        obtain ⟨a, ha, hv⟩ := mem_written (v := { z with pairs := z.pairs.remove (m.hb.hl l, x.id) }) (val := (·.value)) hw rfl ⟨_, hk', rfl⟩
        exact h2.containsRight_of_mem (k := a.1) (x := a.2) ha (by rw [hv]; exact e')
  · obtain ⟨h2, -⟩ := insertRight_always h1 e
    obtain ⟨⟨o1, m1⟩, e1, e⟩ := bind_ok e
    cases e
    have a1 := (removeRight_always h1 e1).1
    exact h2.containsRight_of_mem (RawTable.mem_insert a1.right.hash _ _) (by simp)

/-- C99: whatever happened before, if `remove_left(l)` returns then `l` is not there any more.  (`remove_right` may
leave an equal item behind, see `C66_duplicates`.) -/
theorem C99_remove (n : Nat) (hb : BuildHasher L R) (ops : List (Op L R)) (os : List (Out L R))
    (hc : LawfulClones ops) (h : (withCapacityAndHasher n hb).run ops = .ok (os, m)) {l : L} {o}
    (e : m.removeLeft l = .ok (o, m')) : m'.containsLeft l = false := by
  obtain ⟨h1, -⟩ := run_always (withCapacity_always n hb) hc h
  obtain ⟨h2, -, -, -, h5⟩ := removeLeft_always h1 e
  rw [containsLeft, h2.left.get_isSome (hash_left m'.hb l)]
  refine List.any_eq_false.2 fun x hx => ?_
  obtain ⟨a, ha, rfl⟩ := List.mem_map.1 hx
  simpa [equivalentKeyLeft] using BEq.symm_false (h5.all a ha).2

open Demo in
/-- on the broken map of C86, these calls go through -/
example : letI := swissRaw 4
    ∃ os m, (withCapacityAndHasher 4 spreadHash).run breaking = .ok (os, m) ∧
      (m.insert 5 60).toOption.isSome = true ∧ (m.insertRight 70).toOption.isSome = true := by
  let _ := swissRaw 4
  obtain ⟨x, e, h⟩ := ran (e := (withCapacityAndHasher 4 spreadHash).run breaking)
    (p := fun x => (x.2.insert 5 60).toOption.isSome && (x.2.insertRight 70).toOption.isSome) (by decide +kernel)
  exact ⟨_, _, e, by simpa using h⟩

end Verif.GroupMap
