import Verif.GroupMap.WeakIter
/-! Histories of calls on a `GroupMap` with a `==` that is any relation. -/
set_option linter.unusedSectionVars false
set_option linter.unusedSimpArgs false
namespace Verif.GroupMap
open GroupWeak

variable [RawImpl] [LawfulRaw] {L R : Type} [BEq L] [BEq R]
variable {m : GroupMap L R} {ls : List (LRec L R)} {rs : List (RRec R)}

theorem Linked.links (h : Linked m ls rs) : Links m (groups ls rs) where
  sound := by
    refine ⟨?_, fun p hp => ?_⟩
    · show (rs.map fun y => (y.id, y.r)).Pairwise _
      rw [List.pairwise_map]; exact h.tied.idsR
    · obtain ⟨x, hx, rfl⟩ := List.mem_map.1 hp
      obtain ⟨y, hy, e, -⟩ := h.tied.owner x hx
      exact ⟨_, List.mem_map.2 ⟨y, hy, rfl⟩, e⟩
  iter := iterList_weak h
  iterPaired := iterPairedList_weak h
  iterUnpaired := iterUnpairedList_weak h
  iterLeft := iterLeft_weak h
  iterRight := iterRight_weak h
  lenLeft := lenLeft_weak h
  lenRight := lenRight_weak h
  isEmpty := isEmpty_weak h

theorem exec_weak (h : Linked m ls rs) (op : Op L R) (hs : Sane (groups ls rs) op) :
    (∃ o m' ls' rs', m.exec op = .ok (o, m') ∧ GroupWeak.Step (groups ls rs) op o (groups ls' rs') ∧ Linked m' ls' rs' ∧
      m'.hb = m.hb) ∨
    ((∃ e, m.exec op = .error e) ∧ ¬ Calm (groups ls rs) op) := by
  have same : Same (groups ls rs) (groups ls rs) := same_groups (.refl _) (.refl _)
  cases op with
  | insert l r =>
    obtain ⟨m', ls', rs', e, s, h', hb⟩ := insert_weak h l r hs
    exact .inl ⟨_, m', ls', rs', by simp only [exec, e, bind, Except.bind]; rfl, ⟨rfl, s⟩, h', hb⟩
  | insertRemove l r =>
    obtain ⟨o₁, o₂, m', ls', rs', e, s, h', hb⟩ := insertRemove_weak h l r
    exact .inl ⟨_, m', ls', rs', by simp only [exec, e, bind, Except.bind]; rfl, ⟨o₁, o₂, rfl, s⟩, h', hb⟩
  | insertLeft l r =>
    obtain ⟨o, m', ls', rs', e, s, h', hb⟩ := insertLeft_weak h l r
    exact .inl ⟨_, m', ls', rs', by simp only [exec, e, bind, Except.bind]; rfl, ⟨o, rfl, s⟩, h', hb⟩
  | insertRight r =>
    obtain ⟨o, m', ls', rs', e, s, h', hb⟩ := insertRight_weak h r
    exact .inl ⟨_, m', ls', rs', by simp only [exec, e, bind, Except.bind]; rfl, ⟨o, rfl, s⟩, h', hb⟩
  | swapRight old new =>
    obtain ⟨m', ls', rs', e, s, h', hb⟩ := swapRight_weak h old new hs
    exact .inl ⟨_, m', ls', rs', by simp only [exec, e, bind, Except.bind]; rfl, s, h', hb⟩
  | swapRightRemove old new =>
    obtain ⟨o, m', ls', rs', e, s, h', hb⟩ := swapRightRemove_weak h old new hs
    exact .inl ⟨_, m', ls', rs', by simp only [exec, e, bind, Except.bind]; rfl, s, h', hb⟩
  | pair l r =>
    obtain ⟨b, m', ls', rs', e, s, h', hb⟩ := pair_weak h l r hs
    exact .inl ⟨_, m', ls', rs', by simp only [exec, e, bind, Except.bind]; rfl, s, h', hb⟩
  | remove l r =>
    rcases arePaired_weak h l r with ⟨e, y, rs', hq, hp, eR⟩ | ⟨e, hu⟩
    · obtain ⟨o, m', ls', e1, hd, h', hb⟩ := removeRight_hit h hq eR
      exact .inl ⟨_, m', ls', rs', by simp only [exec, remove, e, if_true, e1, bind, Except.bind]; rfl,
        .inr ⟨o, _, rfl, hp, hd⟩, h', hb⟩
    · exact .inl ⟨_, m, ls, rs, by simp only [exec, remove, e, Bool.false_eq_true, if_false, bind, Except.bind]; rfl,
        .inl ⟨rfl, hu, same⟩, h, rfl⟩
  | removeLeft l =>
    obtain ⟨t, m', ls', rs', e, s, h', hb⟩ := removeLeft_weak h l
    exact .inl ⟨_, m', ls', rs', by simp only [exec, e, bind, Except.bind]; rfl, ⟨t, rfl, s⟩, h', hb⟩
  | removeRight r =>
    obtain ⟨o, m', ls', rs', e, s, h', hb⟩ := removeRight_weak h r
    exact .inl ⟨_, m', ls', rs', by simp only [exec, e, bind, Except.bind]; rfl, ⟨o, rfl, s⟩, h', hb⟩
  | getRight l => exact .inl ⟨_, m, ls, rs, rfl, getRight_weak h l, h, rfl⟩
  | getLeftIter r =>
    obtain ⟨o, e, s⟩ := getLeftList_weak h r
    exact .inl ⟨_, m, ls, rs, by simp only [exec, e, bind, Except.bind]; rfl, s, h, rfl⟩
  | containsLeft l => exact .inl ⟨_, m, ls, rs, rfl, ⟨congrArg _ (containsLeft_weak h l), same⟩, h, rfl⟩
  | containsRight r => exact .inl ⟨_, m, ls, rs, rfl, ⟨congrArg _ (containsRight_weak h r), same⟩, h, rfl⟩
  | isRightPaired r => exact .inl ⟨_, m, ls, rs, rfl, isRightPaired_weak h r, h, rfl⟩
  | arePaired l r =>
    rcases arePaired_weak h l r with ⟨e, y, rs', hq, hp, eR⟩ | ⟨e, hu⟩
    · exact .inl ⟨_, m, ls, rs, rfl, ⟨same, .inl ⟨congrArg _ e, _, hp⟩⟩, h, rfl⟩
    · exact .inl ⟨_, m, ls, rs, rfl, ⟨same, .inr ⟨congrArg _ e, hu⟩⟩, h, rfl⟩
  | lenLeft => exact .inl ⟨_, m, ls, rs, rfl, ⟨congrArg _ (lenLeft_weak h), same⟩, h, rfl⟩
  | lenRight => exact .inl ⟨_, m, ls, rs, rfl, ⟨congrArg _ (lenRight_weak h), same⟩, h, rfl⟩
  | isEmpty => exact .inl ⟨_, m, ls, rs, rfl, ⟨congrArg _ (isEmpty_weak h), same⟩, h, rfl⟩
  | clear => exact .inl ⟨_, m.clear, [], [], rfl, ⟨rfl, rfl, rfl⟩, clear_weak, rfl⟩
  | iter =>
    obtain ⟨d, e, hp⟩ := iterList_weak h
    exact .inl ⟨_, m, ls, rs, by simp only [exec, e, bind, Except.bind]; rfl, ⟨same, d, rfl, hp⟩, h, rfl⟩
  | iterPaired =>
    obtain ⟨d, e, hp⟩ := iterPairedList_weak h
    exact .inl ⟨_, m, ls, rs, by simp only [exec, e, bind, Except.bind]; rfl, ⟨same, d, rfl, hp⟩, h, rfl⟩
  | iterUnpaired => exact .inl ⟨_, m, ls, rs, rfl, ⟨same, _, rfl, iterUnpairedList_weak h⟩, h, rfl⟩
  | iterLeft => exact .inl ⟨_, m, ls, rs, rfl, ⟨same, _, rfl, iterLeft_weak h⟩, h, rfl⟩
  | iterRight => exact .inl ⟨_, m, ls, rs, rfl, ⟨same, _, rfl, iterRight_weak h⟩, h, rfl⟩
  | retainPaired σ f s =>
    obtain ⟨s', e⟩ := retainPaired_weak h f s hs
    exact .inl ⟨_, m, ls, rs, by simp only [exec, e, bind, Except.bind]; rfl, ⟨rfl, same⟩, h, rfl⟩
  | retainUnpaired σ f s =>
    rcases retainUnpaired_weak h f s with ⟨s', m', ls', rs', e, st, h', hb⟩ | ⟨⟨x, e⟩, hc⟩
    · exact .inl ⟨_, m', ls', rs', by simp only [exec, e, bind, Except.bind]; rfl, st, h', hb⟩
    · exact .inr ⟨⟨x, by simp only [exec, e, bind, Except.bind]⟩, hc⟩
  | extend xs =>
    obtain ⟨m', ls', rs', e, s, h', hb⟩ := extendOpt_weak h _ hs
    exact .inl ⟨_, m', ls', rs', by simp only [exec, extend_eq_extendOpt, e, bind, Except.bind]; rfl, ⟨rfl, s⟩, h', hb⟩
  | extendOpt xs =>
    obtain ⟨m', ls', rs', e, s, h', hb⟩ := extendOpt_weak h _ hs
    exact .inl ⟨_, m', ls', rs', by simp only [exec, e, bind, Except.bind]; rfl, ⟨rfl, s⟩, h', hb⟩
  | clone cl cr =>
    refine .inl ⟨_, _, _, _, rfl, ⟨rfl, .of_eq ?_, .of_eq ?_⟩, clone_weak h hs.1 hs.2, rfl⟩
    · simp only [groups]; rw [List.map_map, List.map_map]; rfl
    · simp only [groups]; rw [List.map_map, List.map_map]; rfl

/-- a history of calls that cannot panic -/
theorem run_weak (h : Linked m ls rs) {ops : List (Op L R)} (hs : CalmRun (groups ls rs) ops) :
    ∃ os m' ls' rs', m.run ops = .ok (os, m') ∧ GroupWeak.Steps (groups ls rs) ops os (groups ls' rs') ∧ Linked m' ls' rs' := by
  induction ops generalizing m ls rs with
  | nil => exact ⟨[], m, ls, rs, rfl, ⟨rfl, same_groups (.refl _) (.refl _)⟩, h⟩
  | cons op ops ih =>
    obtain ⟨⟨h1, h2⟩, h3⟩ := hs
    rcases exec_weak h op h1 with ⟨o, m1, l1, r1, e1, s1, k1, hb1⟩ | ⟨-, hc⟩
    · obtain ⟨os, m2, l2, r2, e2, s2, k2⟩ := ih k1 (h3 _ _ s1)
      exact ⟨o :: os, m2, l2, r2, by simp only [run, e1, e2, bind, Except.bind]; rfl, ⟨o, os, _, rfl, s1, s2⟩, k2⟩
    · exact absurd h2 hc

/-- a history that returned -/
theorem run_weak_ok (h : Linked m ls rs) {ops : List (Op L R)} (hs : SaneRun (groups ls rs) ops) {os m'}
    (e : m.run ops = .ok (os, m')) :
    ∃ ls' rs', GroupWeak.Steps (groups ls rs) ops os (groups ls' rs') ∧ Linked m' ls' rs' := by
  induction ops generalizing m ls rs os with
  | nil => cases e; exact ⟨ls, rs, ⟨rfl, same_groups (.refl _) (.refl _)⟩, h⟩
  | cons op ops ih =>
    obtain ⟨h1, h3⟩ := hs
    rcases exec_weak h op h1 with ⟨o, m1, l1, r1, e1, s1, k1, hb1⟩ | ⟨⟨x, hx⟩, -⟩
    · simp only [run, e1, bind, Except.bind] at e
      cases e2 : m1.run ops with
      | error x => rw [e2] at e; cases e
      | ok y =>
        rw [e2] at e; cases e
        obtain ⟨l2, r2, s2, k2⟩ := ih k1 (h3 _ _ s1) e2
        exact ⟨l2, r2, ⟨o, _, _, rfl, s1, s2⟩, k2⟩
    · simp only [run, hx, bind, Except.bind] at e; cases e

end Verif.GroupMap
