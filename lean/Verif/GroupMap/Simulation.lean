import Verif.GroupMap.Bulk
import Verif.GroupMap.Machine
/-! The model simulates the list machine. -/
set_option linter.unusedSectionVars false
set_option linter.unusedSimpArgs false
namespace Verif.GroupMap
open GroupSpec
open CycleSpec (split)

variable [RawImpl] [LawfulRaw] {L R : Type} [BEq L] [BEq R] [EquivBEq L] [EquivBEq R]
variable {m : GroupMap L R} {c : Contents L R}

/-- one call -/
theorem exec_simulates (h : Repr m c) {op : Op L R} (hs : Safe c op) :
    ∃ o m' c', m.exec op = .ok (o, m') ∧ Step c op o c' ∧ Repr m' c' ∧ m'.hb = m.hb := by
  cases op with
  | insert l r =>
    obtain ⟨m', e, h', n⟩ := insert_refines h l r hs
    exact ⟨_, m', _, by simp only [exec, e, bind, Except.bind, pure, Except.pure], ⟨rfl, rfl⟩, h', n.hb⟩
  | insertRemove l r =>
    obtain ⟨o, m', e, ho, h', n⟩ := insertRemove_refines h l r
    exact ⟨_, m', _, by simp only [exec, e, bind, Except.bind, pure, Except.pure], ⟨o, ho, rfl, rfl⟩, h', n.hb⟩
  | insertLeft l r =>
    obtain ⟨m', e, h', n⟩ := insertLeft_refines h l r
    exact ⟨_, m', _, by simp only [exec, e, bind, Except.bind, pure, Except.pure], ⟨rfl, rfl⟩, h', n.hb⟩
  | insertRight r =>
    obtain ⟨o, m', e, ho, h', n⟩ := insertRight_refines h r
    exact ⟨_, m', _, by simp only [exec, e, bind, Except.bind, pure, Except.pure], ⟨o, ho, rfl, rfl⟩, h', n.hb⟩
  | swapRight old new =>
    obtain ⟨m', e, h', n⟩ := swapRight_refines h old new hs
    exact ⟨_, m', _, by simp only [exec, e, bind, Except.bind, pure, Except.pure], ⟨rfl, rfl⟩, h', n.hb⟩
  | swapRightRemove old new =>
    obtain ⟨m', e, h', n⟩ := swapRightRemove_refines h old new hs
    exact ⟨_, m', _, by simp only [exec, e, bind, Except.bind, pure, Except.pure], ⟨rfl, rfl⟩, h', n.hb⟩
  | pair l r =>
    obtain ⟨m', e, h', hb, _⟩ := pair_refines h l r
    exact ⟨_, m', _, by simp only [exec, e, bind, Except.bind, pure, Except.pure], ⟨rfl, rfl⟩, h', hb⟩
  | remove l r =>
    obtain ⟨o, m', e, ho, h', hb, _⟩ := remove_refines h l r
    exact ⟨_, m', _, by simp only [exec, e, bind, Except.bind, pure, Except.pure], ⟨o, ho, rfl, rfl⟩, h', hb⟩
  | removeLeft l =>
    obtain ⟨m', e, h', hb, _⟩ := removeLeft_refines h l
    exact ⟨_, m', _, by simp only [exec, e, bind, Except.bind, pure, Except.pure], ⟨rfl, rfl⟩, h', hb⟩
  | removeRight r =>
    obtain ⟨o, m', e, ho, h', hb, _⟩ := removeRight_refines h r
    exact ⟨_, m', _, by simp only [exec, e, bind, Except.bind, pure, Except.pure], ⟨o, ho, rfl, rfl⟩, h', hb⟩
  | getRight l => exact ⟨_, m, _, rfl, ⟨by rw [getRight_refines h], rfl⟩, h, rfl⟩
  | getLeftIter r =>
    obtain ⟨ks, e, hp⟩ := getLeftList_refines h r
    exact ⟨_, m, _, by simp only [exec, e, bind, Except.bind, pure, Except.pure], ⟨ks, hp, rfl, rfl⟩, h, rfl⟩
  | containsLeft l => exact ⟨_, m, _, rfl, ⟨by rw [containsLeft_refines h], rfl⟩, h, rfl⟩
  | containsRight r => exact ⟨_, m, _, rfl, ⟨by rw [containsRight_refines h], rfl⟩, h, rfl⟩
  | isRightPaired r => exact ⟨_, m, _, rfl, ⟨by rw [isRightPaired_refines h], rfl⟩, h, rfl⟩
  | arePaired l r => exact ⟨_, m, _, rfl, ⟨by rw [arePaired_refines h], rfl⟩, h, rfl⟩
  | lenLeft => exact ⟨_, m, _, rfl, ⟨by rw [lenLeft_refines h], rfl⟩, h, rfl⟩
  | lenRight => exact ⟨_, m, _, rfl, ⟨by rw [lenRight_refines h], rfl⟩, h, rfl⟩
  | isEmpty => exact ⟨_, m, _, rfl, ⟨by rw [isEmpty_refines h], rfl⟩, h, rfl⟩
  | clear => exact ⟨_, _, _, rfl, ⟨rfl, rfl⟩, clear_refines m, rfl⟩
  | iter =>
    obtain ⟨d, e, hp⟩ := iterList_refines h
    exact ⟨_, m, _, by simp only [exec, e, bind, Except.bind, pure, Except.pure], ⟨d, hp, rfl, rfl⟩, h, rfl⟩
  | iterPaired =>
    obtain ⟨d, e, hp⟩ := iterPairedList_refines h
    exact ⟨_, m, _, by simp only [exec, e, bind, Except.bind, pure, Except.pure], ⟨d, hp, rfl, rfl⟩, h, rfl⟩
  | iterUnpaired => exact ⟨_, m, _, rfl, ⟨_, iterUnpairedList_refines h, rfl, rfl⟩, h, rfl⟩
  | iterLeft => exact ⟨_, m, _, rfl, ⟨_, iterLeft_refines h, rfl, rfl⟩, h, rfl⟩
  | iterRight => exact ⟨_, m, _, rfl, ⟨_, iterRight_refines h, rfl, rfl⟩, h, rfl⟩
  | retainPaired σ f s =>
    obtain ⟨d, m', hd, e, h', hb, _⟩ := retainPaired_refines h f s hs
    refine ⟨_, m', _, by simp only [exec, e, bind, Except.bind, pure, Except.pure], ⟨d, hd, rfl, rfl⟩, ?_, hb⟩
    rw [(split_none (f := fun s (p : L × R) => f s p.1 p.2) (fun p hp => hs p (hd.mem_iff.1 hp)) s).2]
    exact h'.same ⟨.refl _, hd.symm⟩
  | retainUnpaired σ f s =>
    obtain ⟨d, m', hd, e, h', hb, _⟩ := retainUnpaired_refines h f s
    exact ⟨_, m', _, by simp only [exec, e, bind, Except.bind, pure, Except.pure], ⟨d, hd, rfl, rfl⟩, h', hb⟩
  | extend xs =>
    obtain ⟨m', e, h', n⟩ := extendOpt_refines h _ hs
    exact ⟨_, m', _, by simp only [exec, extend_eq_extendOpt, e, bind, Except.bind, pure, Except.pure], ⟨rfl, rfl⟩, h', n.hb⟩
  | extendOpt xs =>
    obtain ⟨m', e, h', n⟩ := extendOpt_refines h _ hs
    exact ⟨_, m', _, by simp only [exec, e, bind, Except.bind, pure, Except.pure], ⟨rfl, rfl⟩, h', n.hb⟩
  | clone cl cr => exact ⟨_, _, _, rfl, ⟨rfl, rfl⟩, clone_refines h hs.1 hs.2, rfl⟩

theorem run_simulates (h : Repr m c) {ops : List (Op L R)} (hs : SafeRun c ops) :
    ∃ os m' c', m.run ops = .ok (os, m') ∧ Steps c ops os c' ∧ Repr m' c' ∧ m'.hb = m.hb := by
  induction ops generalizing m c with
  | nil => exact ⟨[], m, c, rfl, ⟨rfl, rfl⟩, h, rfl⟩
  | cons op ops ih =>
    obtain ⟨o, m1, c1, e1, s1, h1, hb1⟩ := exec_simulates h hs.1
    obtain ⟨os, m2, c2, e2, s2, h2, hb2⟩ := ih h1 (hs.2 o c1 s1)
    exact ⟨o :: os, m2, c2, by simp only [run, e1, e2, bind, Except.bind, pure, Except.pure],
      ⟨o, os, c1, rfl, s1, s2⟩, h2, hb2.trans hb1⟩

theorem findR_isNone (h : Repr m c) {r : R} (hr : m.containsRight r = false) : findR c r = none := by
  rw [containsRight_refines h, List.any_eq_false] at hr
  rw [findR, List.find?_eq_none]
  exact hr

theorem Allowed.safe (h : Repr m c) {op : Op L R} (ha : Allowed m op) : Safe c op := by
  cases op <;> simp only [Safe]
  case insert l r => rw [← arePaired_refines h]; exact ha
  case swapRight old new =>
    rcases ha with ha | ⟨h1, h2⟩
    · exact .inl (findR_isNone h ha)
    · rw [isRightPaired_refines h] at h1
      exact .inr ⟨h1, findR_isNone h h2⟩
  case swapRightRemove old new =>
    rcases ha with ha | ⟨h1, h2⟩
    · exact .inl (findR_isNone h ha)
    · rw [isRightPaired_refines h] at h1
      exact .inr ⟨h1, h2.imp_left (findR_isNone h)⟩
  case retainPaired σ f s =>
    intro p hp
    obtain ⟨d, e, hd⟩ := iterPairedList_refines h
    exact ha d e p (hd.mem_iff.2 hp)
  case extend xs => exact ha.elim
  case extendOpt xs => exact ha.elim
  case clone => exact ha

theorem Reachable.repr (h : Reachable m) : ∃ c, Repr m c := by
  induction h with
  | new hb => exact ⟨_, withHasher_repr hb⟩
  | withCapacity n hb => exact ⟨_, withCapacity_repr n hb⟩
  | step _ ha e ih =>
    obtain ⟨c, hc⟩ := ih
    obtain ⟨o', m'', c', e', _, h', _⟩ := exec_simulates hc (ha.safe hc)
    rw [e] at e'; cases e'
    exact ⟨c', h'⟩

/-- the contents of a reachable map are what it shows -/
theorem Reachable.repr_of_shows (h : Reachable m) (hs : Shows m c) : Repr m c := by
  obtain ⟨d, hd⟩ := h.repr
  obtain ⟨ps, e, hp⟩ := hs.iterPaired
  obtain ⟨qs, e', hq⟩ := iterPairedList_refines hd
  rw [e] at e'; cases e'
  exact hd.same ⟨(iterRight_refines hd).symm.trans hs.iterRight, hq.symm.trans hp⟩

/-- `extend` with new pairs only reaches reachable maps -/
theorem Reachable.extendOpt (h : Reachable m) (hc : Repr m c) (xs : List (Option L × R)) (hs : NewPairs c xs) {m'}
    (e : m.extendOpt xs = .ok m') : Reachable m' := by
  induction xs generalizing m c with
  | nil => cases e; exact h
  | cons x xs ih =>
    obtain ⟨_ | l, r⟩ := x
    · obtain ⟨o, m1, e1, -, h1, n⟩ := insertRight_refines hc r
      simp only [GroupMap.extendOpt, e1, bind, Except.bind] at e
      exact ih (.step (op := .insertRight r) h trivial (by simp only [exec, e1, bind, Except.bind, pure, Except.pure]; rfl))
        h1 hs e
    · obtain ⟨m1, e1, h1, n⟩ := insert_refines hc l r hs.1
      simp only [GroupMap.extendOpt, e1, bind, Except.bind] at e
      refine ih (.step (op := .insert l r) h ?_ (by simp only [exec, e1, bind, Except.bind, pure, Except.pure]; rfl))
        h1 hs.2 e
      simp only [Allowed]
      rw [arePaired_refines hc]; exact hs.1

end Verif.GroupMap
