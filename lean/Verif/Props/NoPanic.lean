import Verif.Props.CycleBasic
import Verif.Props.CycleIter
import Verif.Props.PartialSwap
import Verif.Props.PartialIter
import Verif.Props.GroupSwap
import Verif.Props.GroupTraits
/-!
Property C127: which calls panic on a valid map (with closures, `Hash`, `Eq` and destructors that do not).
-/
set_option linter.unusedSectionVars false
set_option linter.unusedSimpArgs false

namespace Verif.CycleMap
open CycleSpec OptionalPair Demo

variable [RawImpl] [LawfulRaw] {L R : Type} [BEq L] [BEq R] [EquivBEq L] [EquivBEq R]
variable {m : CycleMap L R} {c : List (L × R)}

/-- C127, `CycleMap`: a call panics exactly if it is `swap_right_or_insert(old, new, l)` with `old` missing and `l` present. -/
theorem C127_panics (h : Reachable m) (hc : Shows m c) (op : Op L R) :
    (∃ p, m.exec op = .error p) ↔
      ∃ old new l, op = .swapRightOrInsert old new l ∧ m.containsRight old = false ∧ m.containsLeft l = true := by
  have hp := C18_panics h hc
  have key : ∀ old new l, (∃ p, m.exec (.swapRightOrInsert old new l) = .error p) ↔ m.containsRight old = false ∧ m.containsLeft l = true := by
    intro old new l
    rw [hc.containsRight, hc.containsLeft]
    refine Iff.trans ?_ ((hp old new l).trans (by simp))
    simp only [exec, bind, Except.bind, pure, Except.pure]
    cases m.swapRightOrInsert old new l <;> simp
  constructor
  · rintro ⟨p, hp⟩
    by_cases hs : Safe c op
    · obtain ⟨o, m', c', e, -⟩ := exec_simulates (h.repr_of_shows hc) hs
      rw [hp] at e; cases e
    · cases op with
      | swapRightOrInsert old new l => exact ⟨old, new, l, rfl, (key old new l).1 ⟨p, hp⟩⟩
      | drain n =>
        obtain ⟨d, m', -, e, -⟩ := C21_actual h hc n
        simp [exec, e, bind, Except.bind, pure, Except.pure] at hp
      | clone cl cr => cases hp
      | _ => exact absurd trivial hs
  · rintro ⟨old, new, l, rfl, h1⟩
    exact (key old new l).2 h1

example (l : Nat) : (∃ p, demo.exec (.swapRightOrInsert 70 80 l) = .error p) ↔ l = 1 ∨ l = 2 ∨ l = 3 := by
  rw [C127_panics demo_reachable demo_shows]
  constructor
  · rintro ⟨_, _, _, h1, -, h2⟩
    cases h1
    rw [demo_shows.containsLeft] at h2
    simp at h2; omega
  · intro h
    refine ⟨_, _, _, rfl, by rw [demo_shows.containsRight]; rfl, ?_⟩
    rw [demo_shows.containsLeft]; simp; omega

end Verif.CycleMap

namespace Verif.PartialMap
open PartialSpec OptionalPair Demo

variable [RawImpl] [LawfulRaw] {L R : Type} [BEq L] [BEq R] [EquivBEq L] [EquivBEq R]
variable {m : PartialMap L R} {c : List (OptionalPair L R)}

theorem findL_none_iff (hc : Shows m c) (l : L) : findL c l = none ↔ m.containsLeft l = false := by
  rw [hc.containsLeft, findL, List.find?_eq_none, List.any_eq_false]

theorem findR_none_iff (hc : Shows m c) (r : R) : findR c r = none ↔ m.containsRight r = false := by
  rw [hc.containsRight, findR, List.find?_eq_none, List.any_eq_false]

theorem some_iff {α : Type} {o : Option α} {b : Bool} (h : o = none ↔ b = false) : o.isSome = b := by
  cases o <;> cases b <;> simp at h ⊢

/-- C127, `PartialCycleMap`: a call panics exactly if it is `swap_left_or_insert(old, new, _)` with `old` missing and `new` present, or
`swap_right_or_insert(old, new, l)` with `old` missing and `new` present but not the partner of `l`. -/
theorem C127_panics (h : Reachable m) (hc : Shows m c) (op : Op L R) :
    (∃ p, m.exec op = .error p) ↔
      (∃ old new r, op = .swapLeftOrInsert old new r ∧ m.containsLeft old = false ∧ m.containsLeft new = true) ∨
      (∃ old new l, op = .swapRightOrInsert old new l ∧ m.containsRight old = false ∧ m.containsRight new = true ∧
        m.arePaired l new = false) := by
  have hr := h.repr_of_shows hc
  have keyL : ∀ old new r, (∃ p, m.exec (.swapLeftOrInsert old new r) = .error p) ↔
      m.containsLeft old = false ∧ m.containsLeft new = true := by
    intro old new r
    have h1 := some_iff (findL_none_iff hc old)
    have h2 := some_iff (findL_none_iff hc new)
    by_cases hs : (findL c old).isSome = true ∨ findL c new = none
    · obtain ⟨m', e, -⟩ := swapLeftOrInsert_refines hr old new r hs
      simp only [exec, e, bind, Except.bind, pure, Except.pure]
      rw [findL_none_iff hc, h1] at hs
      rcases hs with hs | hs <;> simp [hs]
    · have e := swapLeftOrInsert_panics hr old new r hs
      simp only [exec, e, bind, Except.bind, pure, Except.pure]
      rw [findL_none_iff hc, h1] at hs
      simpa using hs
  have keyR : ∀ old new l, (∃ p, m.exec (.swapRightOrInsert old new l) = .error p) ↔
      m.containsRight old = false ∧ m.containsRight new = true ∧ m.arePaired l new = false := by
    intro old new l
    have h1 := some_iff (findR_none_iff hc old)
    rw [hc.arePaired]
    by_cases hs : (findR c old).isSome = true ∨ hasPair c l new = true ∨ findR c new = none
    · obtain ⟨m', e, -⟩ := swapRightOrInsert_refines hr old new l hs
      simp only [exec, e, bind, Except.bind, pure, Except.pure]
      rw [findR_none_iff hc, h1] at hs
      rcases hs with hs | hs | hs <;> simp [hs]
    · have e := swapRightOrInsert_panics hr old new l hs
      simp only [exec, e, bind, Except.bind, pure, Except.pure]
      rw [findR_none_iff hc, h1] at hs
      simp at hs ⊢
      exact ⟨hs.1, hs.2.2, hs.2.1⟩
  constructor
  · rintro ⟨p, hp⟩
    by_cases hs : Safe m.hb c op
    · obtain ⟨o, m', c', e, -⟩ := exec_simulates hr hs
      rw [hp] at e; cases e
    · cases op with
      | swapLeftOrInsert old new r => exact .inl ⟨old, new, r, rfl, (keyL old new r).1 ⟨p, hp⟩⟩
      | swapRightOrInsert old new l => exact .inr ⟨old, new, l, rfl, (keyR old new l).1 ⟨p, hp⟩⟩
      | drainFilter σ f s n =>
        obtain ⟨d1, us, d2, m', -, -, -, -, -, e, -⟩ := drainFilterTake_refines hr f s n
        simp [exec, e, bind, Except.bind, pure, Except.pure] at hp
      | unpair l r => cases hp
      | clone cl cr => cases hp
      | _ => exact absurd trivial hs
  · rintro (⟨old, new, l, rfl, h1⟩ | ⟨old, new, l, rfl, h1⟩)
    · exact (keyL old new l).2 h1
    · exact (keyR old new l).2 h1

/-- `swap_right_or_insert(70, 20, l)` panics unless `l` is 2, the partner of 20 -/
example (l : Nat) : (∃ p, demo.exec (.swapRightOrInsert 70 20 l) = .error p) ↔ l ≠ 2 := by
  have hp : demo.arePaired l 20 = decide (l = 2) := by
    rw [demo_shows.arePaired, Bool.eq_iff_iff]
    simp [hasPair, hasL, hasR]
  rw [C127_panics demo_reachable demo_shows]
  constructor
  · rintro (⟨_, _, _, h1, -⟩ | ⟨_, _, _, h1, -, -, h2⟩) <;> cases h1
    rw [hp] at h2; simpa using h2
  · intro h
    exact .inr ⟨_, _, _, rfl, by rw [demo_shows.containsRight]; rfl, by rw [demo_shows.containsRight]; rfl, by rw [hp]; simpa using h⟩

end Verif.PartialMap

namespace Verif.GroupMap
open GroupSpec Demo

variable [RawImpl] [LawfulRaw] {L R : Type} [BEq L] [BEq R] [EquivBEq L] [EquivBEq R]
variable {m : GroupMap L R} {c : Contents L R}

/-- C127, `GroupMap`: no call panics, apart from `extend`; and that does not as long as it is not given a pair that is there. -/
theorem C127_panics (h : Reachable m) (hc : Shows m c) (op : Op L R)
    (he : ∀ xs, op = .extend xs → NewPairs c (xs.map fun p => (some p.1, p.2))) (heo : ∀ xs, op = .extendOpt xs → NewPairs c xs) :
    ∃ o m', m.exec op = .ok (o, m') := by
  have hr := h.repr_of_shows hc
  by_cases hs : Safe c op
  · obtain ⟨o, m', c', e, -⟩ := exec_simulates hr hs
    exact ⟨o, m', e⟩
  · cases op with
    | insert l r =>
      obtain ⟨m', e, -⟩ := C62_actual h hc l r (by rw [hc.arePaired]; simpa [Safe] using hs)
      simp only [exec, e, bind, Except.bind, pure, Except.pure]
      exact ⟨_, _, rfl⟩
    | swapRight old new =>
      obtain ⟨ls, rs, h, -, ha⟩ := hr
      rcases h.wf.casesR old with hn | ⟨y, rs', hq, hr, hn⟩
      · exact absurd (.inl (ha.findR_none hn)) hs
      obtain ⟨qs, t1, t2, s, s0, e, -⟩ := swapRight_raw (h.perm (.refl _) hq) hr new
      simp only [exec, e, bind, Except.bind, pure, Except.pure]
      exact ⟨_, _, rfl⟩
    | swapRightRemove old new =>
      obtain ⟨ls, rs, h, -, ha⟩ := hr
      rcases h.wf.casesR old with hn | ⟨y, rs', hq, hr, hn⟩
      · exact absurd (.inl (ha.findR_none hn)) hs
      obtain ⟨qs, t1, t2, s, e, -⟩ := swapRightRemove_raw (h.perm (.refl _) hq) hr new
      simp only [exec, e, bind, Except.bind, pure, Except.pure]
      exact ⟨_, _, rfl⟩
    | retainPaired σ f s =>
      obtain ⟨ls, rs, h, hf, -⟩ := hr
      obtain ⟨xs, t, -, e, -⟩ := retainPaired_records h (hf trivial) f s
      simp only [exec, e, bind, Except.bind, pure, Except.pure]
      exact ⟨_, _, rfl⟩
    | extend xs => exact absurd (he xs rfl) hs
    | extendOpt xs => exact absurd (heo xs rfl) hs
    | clone cl cr => exact ⟨_, _, rfl⟩
    | _ => exact absurd trivial hs

/-- the calls that break a map do not panic themselves -/
example : (∃ o m', demo.exec (.insert 1 10) = .ok (o, m')) ∧ (∃ o m', demo.exec (.swapRight 10 20) = .ok (o, m')) ∧
    ∃ o m', demo.exec (.swapRightRemove 10 20) = .ok (o, m') :=
  ⟨C127_panics demo_reachable demo_shows _ nofun nofun, C127_panics demo_reachable demo_shows _ nofun nofun,
    C127_panics demo_reachable demo_shows _ nofun nofun⟩

/-- C127, `extend`: it may panic if it is given a pair that is there, as any call may that follows the `insert` of such a pair (C62). -/
theorem C127_extend (h : Reachable m) (hc : Shows m c) (l : L) (r r' : R) (hp : m.arePaired l r = true) (hr : m.containsRight r' = false) :
    m.exec (.extend [(l, r), (l, r')]) = .error .unwrapNone := by
  rw [hc.containsRight] at hr
  obtain ⟨m', e, -, -, -, -, h2, -⟩ := C62_actual h hc l r hp
  simp [exec, extend, e, h2 r' hr, bind, Except.bind]

example : demo.exec (.extend [(1, 10), (1, 40)]) = .error .unwrapNone :=
  C127_extend demo_reachable demo_shows 1 10 40 (by rw [demo_shows.arePaired]; rfl) (by rw [demo_shows.containsRight]; rfl)

end Verif.GroupMap
