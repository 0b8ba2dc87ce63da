import Verif.CycleMap.Machine
import Verif.CycleMap.Iterate
/-! The model simulates the list machine. -/
set_option linter.unusedSectionVars false
set_option linter.unusedSimpArgs false
namespace Verif.CycleMap
open CycleSpec OptionalPair

variable [RawImpl] [LawfulRaw] {L R : Type} [BEq L] [BEq R] [EquivBEq L] [EquivBEq R]
variable {m : CycleMap L R} {c : List (L × R)}

theorem findL_isSome (h : Repr m c) (l : L) :
    (m.left.get (m.hb.hl l) (equivalentKey l)).isSome = (findL c l).isSome := by
  rcases h.casesL l with ⟨hn, ps, hr, hp, hn'⟩ | ⟨p, ps, hr, hp, hl, hn⟩
  · rw [get_left_none hr hn', findL_none hn]; rfl
  · rw [get_left_some hr hl, findL_some hp hl hn]; rfl

theorem findR_isSome (h : Repr m c) (r : R) :
    (m.right.get (m.hb.hr r) (equivalentKey r)).isSome = (findR c r).isSome := by
  rcases h.casesR r with ⟨hn, ps, hr, hp, hn'⟩ | ⟨p, ps, hr, hp, hl, hn⟩
  · rw [get_right_none hr hn', findR_none hn]; rfl
  · rw [get_right_some hr hl, findR_some hp hl hn]; rfl

theorem swapLeftChecked_refines (h : Repr m c) (old : L) (e : R) (new : L) :
    ∃ m', m.swapLeftChecked old e new =
        .ok (if hasPair c old e then (CycleSpec.swapLeft c old new).1 else neither, m') ∧
      Repr m' (if hasPair c old e then (CycleSpec.swapLeft c old new).2 else c) ∧ m'.hb = m.hb ∧
      m'.counter = m.counter := by
  unfold swapLeftChecked
  rw [arePaired_refines h]
  cases hasPair c old e
  · exact ⟨m, rfl, h, rfl, rfl⟩
  · exact swapLeft_refines h old new

theorem swapRightChecked_refines (h : Repr m c) (old : R) (e : L) (new : R) :
    ∃ m', m.swapRightChecked old e new =
        .ok (if hasPair c e old then (CycleSpec.swapRight c old new).1 else neither, m') ∧
      Repr m' (if hasPair c e old then (CycleSpec.swapRight c old new).2 else c) ∧ m'.hb = m.hb ∧
      m'.counter = m.counter := by
  unfold swapRightChecked
  rw [arePaired_refines h]
  cases hasPair c e old
  · exact ⟨m, rfl, h, rfl, rfl⟩
  · exact swapRight_refines h old new

theorem swapLeftOrInsert_refines (h : Repr m c) (old new : L) (r : R) :
    ∃ m', m.swapLeftOrInsert old new r =
        .ok (if (findL c old).isSome then (CycleSpec.swapLeft c old new).1
             else (CycleSpec.insert c new r).1.mapLeft (·.1), m') ∧
      Repr m' (if (findL c old).isSome then (CycleSpec.swapLeft c old new).2 else (CycleSpec.insert c new r).2) ∧
      m'.hb = m.hb ∧ m'.counter ≤ m.counter + 1 := by
  unfold swapLeftOrInsert
  rw [findL_isSome h]
  cases (findL c old).isSome
  · obtain ⟨m', e, h', hb, hc⟩ := insert_refines h new r
    exact ⟨m', by simp [e, bind, Except.bind, pure, Except.pure], h', hb, Nat.le_of_eq hc⟩
  · obtain ⟨m', e, h', hb, hc⟩ := swapLeft_refines h old new
    exact ⟨m', by simp [e], h', hb, by omega⟩

theorem insert_out_absentL (h : OneToOne c) {l : L} {r : R} (hl : findL c l = none) :
    (CycleSpec.insert c l r).1 = ofPair (none, findR c r) := by
  simp [CycleSpec.insert, hl, hasPair_eq h]

theorem swapRightOrInsert_refines (h : Repr m c) (old new : R) (l : L)
    (hs : (findR c old).isSome ∨ findL c l = none) :
    ∃ m', m.swapRightOrInsert old new l =
        .ok (if (findR c old).isSome then (CycleSpec.swapRight c old new).1 else ofPair (none, findR c new), m') ∧
      Repr m' (if (findR c old).isSome then (CycleSpec.swapRight c old new).2 else (CycleSpec.insert c l new).2) ∧
      m'.hb = m.hb ∧ m'.counter ≤ m.counter + 1 := by
  unfold swapRightOrInsert
  rw [findR_isSome h]
  cases hf : (findR c old).isSome
  · obtain ⟨m', e, h', hb, hc⟩ := insert_refines h l new
    rw [insert_out_absentL h.oneToOne (by simpa [hf] using hs)] at e
    refine ⟨m', ?_, h', hb, Nat.le_of_eq hc⟩
    cases hn : findR c new <;> rw [hn] at e <;>
      simp [e, bind, Except.bind, pure, Except.pure, ofPair]
  · obtain ⟨m', e, h', hb, hc⟩ := swapRight_refines h old new
    exact ⟨m', by simp [e], h', hb, by omega⟩

/-- where it panics -/
theorem swapRightOrInsert_panics (h : Repr m c) (old new : R) (l : L)
    (hs : ¬ ((findR c old).isSome ∨ findL c l = none)) :
    m.swapRightOrInsert old new l = .error .unreachable := by
  unfold swapRightOrInsert
  rw [findR_isSome h]
  rw [not_or] at hs
  cases hf : (findR c old).isSome with
  | true => exact absurd hf hs.1
  | false =>
    obtain ⟨m', e, h', hb, hc⟩ := insert_refines h l new
    cases hl : findL c l with
    | none => exact absurd hl hs.2
    | some q =>
      simp only [CycleSpec.insert, hl] at e
      cases ho : (if hasPair c l new = true then none else findR c new) <;> rw [ho] at e <;>
        simp [e, bind, Except.bind, ofPair]


/-- one call -/
theorem exec_simulates (h : Repr m c) {op : Op L R} (hs : Safe c op) :
    ∃ o m' c', m.exec op = .ok (o, m') ∧ Step c op o c' ∧ Repr m' c' := by
  cases op with
  | insert l r =>
    obtain ⟨m', e, h', _⟩ := insert_refines h l r
    exact ⟨_, m', _, by simp [exec, e, bind, Except.bind, pure, Except.pure], ⟨rfl, rfl⟩, h'⟩
  | remove l r =>
    obtain ⟨m', e, h', _⟩ := remove_refines h l r
    exact ⟨_, m', _, by simp [exec, e, bind, Except.bind, pure, Except.pure], ⟨rfl, rfl⟩, h'⟩
  | removeViaLeft l =>
    obtain ⟨m', e, h', _⟩ := removeViaLeft_refines h l
    exact ⟨_, m', _, by simp [exec, e, bind, Except.bind, pure, Except.pure], ⟨rfl, rfl⟩, h'⟩
  | removeViaRight r =>
    obtain ⟨m', e, h', _⟩ := removeViaRight_refines h r
    exact ⟨_, m', _, by simp [exec, e, bind, Except.bind, pure, Except.pure], ⟨rfl, rfl⟩, h'⟩
  | swapLeft old new =>
    obtain ⟨m', e, h', _⟩ := swapLeft_refines h old new
    exact ⟨_, m', _, by simp [exec, e, bind, Except.bind, pure, Except.pure], ⟨rfl, rfl⟩, h'⟩
  | swapLeftChecked old x new =>
    obtain ⟨m', e, h', _⟩ := swapLeftChecked_refines h old x new
    refine ⟨_, m', _, by simp only [exec, e, bind, Except.bind, pure, Except.pure]; rfl, ?_, h'⟩
    simp only [Step]; split <;> exact ⟨rfl, rfl⟩
  | swapLeftOrInsert old new r =>
    obtain ⟨m', e, h', _⟩ := swapLeftOrInsert_refines h old new r
    refine ⟨_, m', _, by simp only [exec, e, bind, Except.bind, pure, Except.pure]; rfl, ?_, h'⟩
    simp only [Step]; split <;> exact ⟨rfl, rfl⟩
  | swapRight old new =>
    obtain ⟨m', e, h', _⟩ := swapRight_refines h old new
    exact ⟨_, m', _, by simp [exec, e, bind, Except.bind, pure, Except.pure], ⟨rfl, rfl⟩, h'⟩
  | swapRightChecked old x new =>
    obtain ⟨m', e, h', _⟩ := swapRightChecked_refines h old x new
    refine ⟨_, m', _, by simp only [exec, e, bind, Except.bind, pure, Except.pure]; rfl, ?_, h'⟩
    simp only [Step]; split <;> exact ⟨rfl, rfl⟩
  | swapRightOrInsert old new l =>
    obtain ⟨m', e, h', _⟩ := swapRightOrInsert_refines h old new l hs
    refine ⟨_, m', _, by simp only [exec, e, bind, Except.bind, pure, Except.pure]; rfl, ?_, h'⟩
    simp only [Step]
    split
    · exact ⟨rfl, rfl⟩
    · rename_i hf
      exact ⟨hs.resolve_left hf, rfl, rfl⟩
  | getLeft r => exact ⟨_, m, _, rfl, ⟨by rw [getLeft_refines h], rfl⟩, h⟩
  | getRight l => exact ⟨_, m, _, rfl, ⟨by rw [getRight_refines h], rfl⟩, h⟩
  | containsLeft l => exact ⟨_, m, _, rfl, ⟨by rw [containsLeft_refines h], rfl⟩, h⟩
  | containsRight r => exact ⟨_, m, _, rfl, ⟨by rw [containsRight_refines h], rfl⟩, h⟩
  | arePaired l r => exact ⟨_, m, _, rfl, ⟨by rw [arePaired_refines h], rfl⟩, h⟩
  | len => exact ⟨_, m, _, rfl, ⟨by rw [len_refines h], rfl⟩, h⟩
  | isEmpty => exact ⟨_, m, _, rfl, ⟨by rw [isEmpty_refines h], rfl⟩, h⟩
  | clear => exact ⟨_, _, _, rfl, ⟨rfl, rfl⟩, clear_refines m⟩
  | iter =>
    obtain ⟨ps, e, hp⟩ := iterList_refines h
    exact ⟨_, m, _, by simp only [exec, e, bind, Except.bind]; rfl, ⟨ps, hp, rfl, rfl⟩, h⟩
  | iterLeft => exact ⟨_, m, _, rfl, ⟨_, iterLeft_refines h, rfl, rfl⟩, h⟩
  | iterRight => exact ⟨_, m, _, rfl, ⟨_, iterRight_refines h, rfl, rfl⟩, h⟩
  | drain n =>
    obtain ⟨d, m', hp, e, h', _⟩ := drain_refines h hs
    exact ⟨_, m', _, by simp [exec, e, bind, Except.bind, pure, Except.pure], ⟨hs, d, hp, rfl, rfl⟩, h'⟩
  | drainFilter σ f s n =>
    obtain ⟨d, m', hp, e, h', _⟩ := drainFilterTake_refines h f s n
    exact ⟨_, m', _, by simp only [exec, e, bind, Except.bind, pure, Except.pure]; rfl, ⟨d, hp, rfl, rfl⟩, h'⟩
  | drainFilterAll σ f s =>
    obtain ⟨d, m', hp, e, h', _⟩ := drainFilterTake_refines h f s (m.len + 1)
    refine ⟨_, m', _, by simp only [exec, e, bind, Except.bind, pure, Except.pure]; rfl, ⟨d, hp, ?_, rfl⟩, h'⟩
    have h1 := (split_perm (onPair f) d s).length_eq
    rw [List.take_of_length_le]
    · rfl
    · simp at h1; rw [len_refines h, ← hp.length_eq]; omega
  | retain σ f s =>
    obtain ⟨d, m', hp, e, h', _⟩ := retain_refines h f s
    exact ⟨_, m', _, by simp [exec, e, bind, Except.bind, pure, Except.pure], ⟨d, hp, rfl, rfl⟩, h'⟩
  | extend xs =>
    obtain ⟨m', e, h', _⟩ := extend_refines h xs
    exact ⟨_, m', _, by simp [exec, e, bind, Except.bind, pure, Except.pure], ⟨rfl, rfl⟩, h'⟩
  | reserve n => exact ⟨_, _, _, rfl, ⟨rfl, rfl⟩, reserve_refines h n⟩
  | tryReserve n a b => exact ⟨_, _, _, rfl, ⟨by rw [(tryReserve_refines h n a b).1], rfl⟩, (tryReserve_refines h n a b).2⟩
  | shrinkTo n => exact ⟨_, _, _, rfl, ⟨rfl, rfl⟩, shrinkTo_refines h n⟩
  | shrinkToFit => exact ⟨_, _, _, rfl, ⟨rfl, rfl⟩, shrinkToFit_refines h⟩
  | clone cl cr => exact ⟨_, _, _, rfl, ⟨rfl, rfl⟩, clone_refines h hs.1 hs.2⟩

theorem run_simulates (h : Repr m c) {ops : List (Op L R)} (hs : SafeRun c ops) :
    ∃ os m' c', m.run ops = .ok (os, m') ∧ Steps c ops os c' ∧ Repr m' c' := by
  induction ops generalizing m c with
  | nil => exact ⟨[], m, c, rfl, ⟨rfl, rfl⟩, h⟩
  | cons op ops ih =>
    obtain ⟨o, m1, c1, e1, s1, h1⟩ := exec_simulates h hs.1
    obtain ⟨os, m2, c2, e2, s2, h2⟩ := ih h1 (hs.2 o c1 s1)
    exact ⟨o :: os, m2, c2, by simp [run, e1, e2, bind, Except.bind, pure, Except.pure],
      ⟨o, os, c1, rfl, s1, s2⟩, h2⟩

theorem Reachable.repr (h : Reachable m) : ∃ c, Repr m c := by
  induction h with
  | new hb => exact ⟨[], withHasher_repr hb⟩
  | withCapacity n hb => exact ⟨[], withCapacity_repr n hb⟩
  | @step m op o m' _ hd hcl e ih =>
    obtain ⟨c, hc⟩ := ih
    by_cases hs : Safe c op
    · obtain ⟨o', m'', c', e', _, h'⟩ := exec_simulates hc hs
      rw [e] at e'; cases e'
      exact ⟨c', h'⟩
    · exfalso
      cases op <;> simp only [Safe, not_true_eq_false, not_false_eq_true] at hs
      · rw [exec, swapRightOrInsert_panics hc _ _ _ hs] at e; cases e
      · rw [← len_refines hc] at hs; exact hs (hd _ rfl)
      · exact hs (hcl _ _ rfl)

/-- the contents of a reachable map are what it shows -/
theorem Reachable.repr_of_shows (h : Reachable m) (hs : Shows m c) : Repr m c := by
  obtain ⟨d, hd⟩ := h.repr
  obtain ⟨ps, e, hp⟩ := hs.iter
  obtain ⟨qs, e', hq⟩ := iterList_refines hd
  rw [e] at e'; cases e'
  exact hd.perm (hq.symm.trans hp)

end Verif.CycleMap
