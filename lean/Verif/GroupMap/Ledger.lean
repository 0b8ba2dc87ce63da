import Verif.Ledger
import Verif.GroupMap.Drops
import Verif.GroupMap.Simulation
/-
Where the items go: what each call takes, hands out and drops.
-/
set_option linter.unusedSectionVars false
set_option linter.unusedSimpArgs false
namespace Verif.GroupMap
open GroupSpec
open CycleSpec (split)
open CycleMap (split_perm)

variable {L R : Type} [BEq L] [BEq R]

/-- the items that a call takes by value, from the signatures in group_map.rs (`insert` 231, `insert_remove` 341, `insert_left` 385, `insert_right` 434,
`swap_right` 472, `swap_right_remove` 515, `extend` 1257, 1275) -/
def takes : Op L R → List (L ⊕ R)
  | .insert l r => [.inl l, .inr r]
  | .insertRemove l r => [.inl l, .inr r]
  | .insertLeft l _ => [.inl l]
  | .insertRight r => [.inr r]
  | .swapRight _ new => [.inr new]
  | .swapRightRemove _ new => [.inr new]
  | .extend xs => itemsOf (xs.map fun p => (some p.1, p.2))
  | .extendOpt xs => itemsOf xs
  | _ => []

/-- the items of a right item with its left items -/
def groupItems (o : Option (List L × R)) : List (L ⊕ R) := o.toList.flatMap fun x => x.1.map .inl ++ [.inr x.2]

/-- the items that a call hands out by value (the other results are references) -/
def hands : Op L R → Out L R → List (L ⊕ R)
  | .insertRemove .., .leftAndGroup l o => l.toList.map .inl ++ groupItems o
  | .insertLeft .., .left o => o.toList.map .inl
  | .insertRight _, .group o => groupItems o
  | .swapRightRemove .., .right o => o.toList.map .inr
  | .remove .., .group o => groupItems o
  | .removeLeft _, .left o => o.toList.map .inl
  | .removeRight _, .group o => groupItems o
  | _, _ => []

/-- the items that a call drops, with contents `c`.  `clear` drops everything; `retain_unpaired` and the `extend`s may drop any items; `insert`
drops those of its arguments that are stored already, `insert_left` drops its argument if the right item is not there; the swaps with an `old` that
is not there drop the entry of `new`. -/
def Drops (c : Contents L R) : Op L R → List (L ⊕ R) → Prop
  | .insert l r, g => g = (if (findR c r).isSome then [.inr r] else []) ++ if (findL c l).isSome then [.inl l] else []
  | .insertLeft l r, g => g = if (findR c r).isSome then [] else [.inl l]
  | .swapRight old new, g => g = if (findR c old).isSome then [] else groupItems (entryR c new)
  | .swapRightRemove old new, g => g = if (findR c old).isSome then [] else groupItems (entryR c new)
  | .clear, g => g = items c
  | .retainUnpaired .., _ => True
  | .extend _, _ => True
  | .extendOpt _, _ => True
  | _, g => g = []

/-- the items dropped in a history -/
def DropsAll (c : Contents L R) : List (Op L R) → List (Out L R) → Contents L R → List (L ⊕ R) → Prop
  | [], os, c', g => os = [] ∧ c' = c ∧ g = []
  | op :: ops, os, c', g => ∃ o os' c₁ g₁ g₂, os = o :: os' ∧ Step c op o c₁ ∧ Drops c op g₁ ∧ DropsAll c₁ ops os' c' g₂ ∧ g = g₁ ++ g₂

variable [RawImpl] [LawfulRaw] [EquivBEq L] [EquivBEq R] {c c' : Contents L R} {m : GroupMap L R}

theorem sameEntry_refl (o : Option (List L × R)) : SameEntry o o := by
  cases o with
  | none => trivial
  | some x => exact ⟨.refl _, rfl⟩

theorem entry_eraseR (h : c.Sound) (r : R) {o : Option (List L × R)} (ho : SameEntry o (entryR c r)) :
    (groupItems o ++ items (eraseR c r)).Perm (items c) := by
  have := insertRight_conserves h r (o := o) ho
  have e : items (GroupSpec.insertRight c r).2 = .inr r :: items (eraseR c r) := rfl
  rw [e] at this
  exact (List.perm_middle.symm.trans this).cons_inv

theorem left_eraseL (h : c.Sound) (l : L) :
    (((findL c l).map fun p : L × R => p.1).toList.map Sum.inl ++ items (eraseL c l)).Perm (items c) := by
  have h1 := (find_eraseL_perm h l).map fun p => (Sum.inl p.1 : L ⊕ R)
  refine perm_of_measure fun k k1 k0 kc ka kp => ?_
  have := kp _ _ h1
  generalize findL c l = q at *
  cases q <;> simp [items, eraseL, ka, kc, k0] at * <;> omega

theorem eraseL_sound (h : c.Sound) (l : L) : (eraseL c l).Sound :=
  ⟨h.lefts.sublist List.filter_sublist, h.rights, fun p hp => h.owned p (List.mem_filter.1 hp).1⟩

theorem step_ledger (h : Repr m c) {op : Op L R} {o : Out L R} (hs : Safe c op) (hstep : Step c op o c')
    (hc : ∀ cl cr, op ≠ .clone cl cr) : ∃ g, Drops c op g ∧ (takes op ++ items c).Perm (items c' ++ hands op o ++ g) := by
  have hw := h.sound
  have same : (items c).Perm (items c ++ [] ++ []) := by rw [List.append_nil, List.append_nil]
  cases op with
  | insert l r =>
    obtain ⟨rfl, rfl⟩ := hstep
    refine ⟨_, rfl, ?_⟩
    refine (insert_conserves hw l r).symm.trans ?_
    simp only [hands, List.append_nil]
    exact List.perm_append_comm
  | insertRemove l r =>
    obtain ⟨g, hg, rfl, rfl⟩ := hstep
    refine ⟨[], rfl, ?_⟩
    have h1 := left_eraseL hw l
    have h2 := entry_eraseR (eraseL_sound hw l) r hg
    refine perm_of_measure fun k k1 k0 kc ka kp => ?_
    have := kp _ _ h1
    have := kp _ _ h2
    simp only [GroupSpec.insertRemove, takes, hands, items, List.map_cons, ka, kc, k0] at *
    omega
  | insertLeft l r =>
    obtain ⟨rfl, rfl⟩ := hstep
    refine ⟨_, rfl, ?_⟩
    rw [GroupSpec.insertLeft]
    split
    · rename_i hr
      rw [hr]
      simp only [takes, hands, Option.toList, List.map_nil, List.append_nil]
      exact List.perm_append_comm
    · rename_i b hr
      rw [hr]
      have h1 := left_eraseL hw l
      refine perm_of_measure fun k k1 k0 kc ka kp => ?_
      have := kp _ _ h1
      simp [takes, hands, items, eraseL, ka, kc, k0] at *
      omega
  | insertRight r =>
    obtain ⟨g, hg, rfl, rfl⟩ := hstep
    refine ⟨[], rfl, ?_⟩
    rw [List.append_nil]
    exact (insertRight_conserves hw r hg).symm.trans List.perm_append_comm
  | swapRight old new =>
    obtain ⟨rfl, rfl⟩ := hstep
    refine ⟨_, rfl, ?_⟩
    rw [GroupSpec.swapRight]
    split
    · rename_i hr
      rw [hr]
      simp only [hands, List.append_nil]
      exact (insertRight_conserves hw new (sameEntry_refl _)).symm.trans List.perm_append_comm
    · rename_i b hr
      rw [hr]
      have e : (moveAll c old new).map (fun p => (Sum.inl p.1 : L ⊕ R)) = c.pairs.map fun p => .inl p.1 := by
        rw [moveAll, List.map_map]
        refine List.map_congr_left fun p _ => ?_
        simp only [Function.comp]; split <;> rfl
      simp only [hands, takes, items, List.append_nil, e, Option.isSome_some, if_true]
      exact .refl _
  | swapRightRemove old new =>
    obtain ⟨rfl, rfl⟩ := hstep
    refine ⟨_, rfl, ?_⟩
    rw [GroupSpec.swapRightRemove]
    split
    · rename_i hr
      rw [hr]
      simp only [hands, List.append_nil, Option.toList, List.map_nil]
      exact (insertRight_conserves hw new (sameEntry_refl _)).symm.trans List.perm_append_comm
    · rename_i b hr
      rw [hr]
      have e : (moveAll c old new).map (fun p => (Sum.inl p.1 : L ⊕ R)) = c.pairs.map fun p => .inl p.1 := by
        rw [moveAll, List.map_map]
        refine List.map_congr_left fun p _ => ?_
        simp only [Function.comp]; split <;> rfl
      have h1 := (find_eraseR_perm hw old).map (Sum.inr : R → L ⊕ R)
      rw [hr] at h1
      refine perm_of_measure fun k k1 k0 kc ka kp => ?_
      have := kp _ _ h1
      simp only [hands, takes, items, List.append_nil, e, Option.isSome_some, if_true, Option.toList, List.map_cons, List.map_nil, List.singleton_append, List.map_append, ka, kc, k0] at *
      omega
  | pair l r =>
    obtain ⟨rfl, rfl⟩ := hstep
    refine ⟨[], rfl, ?_⟩
    rw [GroupSpec.pair]
    split
    · rename_i p b hl hr
      have h1 := left_eraseL hw l
      rw [hl] at h1
      refine perm_of_measure fun k k1 k0 kc ka kp => ?_
      have := kp _ _ h1
      simp [takes, hands, items, eraseL, ka, kc, k0] at *
      omega
    · exact same
  | remove l r =>
    obtain ⟨g, hg, rfl, rfl⟩ := hstep
    refine ⟨[], rfl, ?_⟩
    rw [GroupSpec.remove] at hg ⊢
    split
    · rename_i hp
      rw [if_pos hp] at hg
      rw [List.append_nil]
      exact (entry_eraseR hw r hg).symm.trans List.perm_append_comm
    · rename_i hp
      rw [if_neg hp] at hg
      cases g with
      | none => exact same
      | some => cases hg
  | removeLeft l =>
    obtain ⟨rfl, rfl⟩ := hstep
    refine ⟨[], rfl, ?_⟩
    rw [List.append_nil]
    exact (left_eraseL hw l).symm.trans List.perm_append_comm
  | removeRight r =>
    obtain ⟨g, hg, rfl, rfl⟩ := hstep
    refine ⟨[], rfl, ?_⟩
    rw [List.append_nil]
    exact (entry_eraseR hw r hg).symm.trans List.perm_append_comm
  | getRight | containsLeft | containsRight | isRightPaired | arePaired | lenLeft | lenRight | isEmpty =>
    obtain ⟨rfl, rfl⟩ := hstep
    exact ⟨[], rfl, same⟩
  | clear =>
    obtain ⟨rfl, rfl⟩ := hstep
    exact ⟨_, rfl, .refl _⟩
  | getLeftIter | iter | iterPaired | iterUnpaired | iterLeft | iterRight =>
    obtain ⟨d, -, rfl, rfl⟩ := hstep
    exact ⟨[], rfl, same⟩
  | retainPaired σ f s =>
    obtain ⟨d, hd, rfl, rfl⟩ := hstep
    refine ⟨[], rfl, ?_⟩
    have hk : ∀ (d : List (L × R)) (s : σ), (∀ p ∈ d, p ∈ c.pairs) → (split (fun s p => f s p.1 p.2) d s).2.1 = d := by
      intro d
      induction d with
      | nil => intro _ _; rfl
      | cons p d ih =>
        intro s hm
        have h1 : (f s p.1 p.2).1 = false := hs p (hm p List.mem_cons_self) s
        have h2 := ih (f s p.1 p.2).2 fun q hq => hm q (List.mem_cons_of_mem _ hq)
        rw [CycleSpec.split]
        split
        · rename_i hh; rw [hh] at h1; cases h1
        · rename_i hh
          rw [hh] at h2
          simp only [h2]
    simp only [hk d s fun p hp => hd.mem_iff.1 hp, hands, List.append_nil, takes, List.nil_append, items]
    exact (hd.symm.map _).append_left _
  | retainUnpaired σ f s =>
    obtain ⟨d, hd, rfl, rfl⟩ := hstep
    refine ⟨(split f d s).1.map .inr, trivial, ?_⟩
    have p1 := (split_perm f d s).map (Sum.inr : R → L ⊕ R)
    have p2 := hd.map (Sum.inr : R → L ⊕ R)
    have p3 := (List.filter_append_perm (hasGroup c) c.rights).map (Sum.inr : R → L ⊕ R)
    refine perm_of_measure fun k k1 k0 kc ka kp => ?_
    have := kp _ _ p1
    have := kp _ _ p2
    have := kp _ _ p3
    simp only [lone, takes, hands, items, List.map_append, ka, kc, k0] at *
    omega
  | extend xs =>
    obtain ⟨rfl, rfl⟩ := hstep
    obtain ⟨e, t', m', ys, zs, gone, h1, -, -, -, h5, -, h7, h8, -⟩ := extendOptD_refines h (fun (t : Unit) _ => (false, t))
      (xs.map fun p : L × R => (some p.1, p.2)) hs ()
    have hz : zs = [] := h8 (by
      rw [h7]
      have : ∀ l : List (L ⊕ R), dropAll (fun (t : Unit) _ => (false, t)) l () = (0, ()) := by
        intro l; induction l with
        | nil => rfl
        | cons a l ih => simp [dropAll, ih]
      rw [this]; rfl)
    rw [hz, List.append_nil] at h1
    subst h1
    refine ⟨gone, trivial, ?_⟩
    simp only [hands, List.append_nil]
    exact h5.symm.trans List.perm_append_comm
  | extendOpt xs =>
    obtain ⟨rfl, rfl⟩ := hstep
    obtain ⟨e, t', m', ys, zs, gone, h1, -, -, -, h5, -, h7, h8, -⟩ := extendOptD_refines h (fun (t : Unit) _ => (false, t)) xs hs ()
    have hz : zs = [] := h8 (by
      rw [h7]
      have : ∀ l : List (L ⊕ R), dropAll (fun (t : Unit) _ => (false, t)) l () = (0, ()) := by
        intro l; induction l with
        | nil => rfl
        | cons a l ih => simp [dropAll, ih]
      rw [this]; rfl)
    rw [hz, List.append_nil] at h1
    subst h1
    refine ⟨gone, trivial, ?_⟩
    simp only [hands, List.append_nil]
    exact h5.symm.trans List.perm_append_comm
  | clone cl cr => exact absurd rfl (hc cl cr)

/-- nothing gets lost in a history -/
theorem run_ledger (h : Repr m c) {ops : List (Op L R)} (hs : SafeRun c ops) (hc : ∀ op ∈ ops, ∀ cl cr, op ≠ .clone cl cr) :
    ∃ os m' c' g, m.run ops = .ok (os, m') ∧ DropsAll c ops os c' g ∧ Repr m' c' ∧
      (ops.flatMap takes ++ items c).Perm (items c' ++ (ops.zip os).flatMap (fun x => hands x.1 x.2) ++ g) := by
  induction ops generalizing m c with
  | nil => exact ⟨[], m, c, [], rfl, ⟨rfl, rfl, rfl⟩, h, by simp⟩
  | cons op ops ih =>
    obtain ⟨o, m1, c1, e1, s1, h1, -⟩ := exec_simulates h hs.1
    obtain ⟨g1, d1, p1⟩ := step_ledger h hs.1 s1 (hc op List.mem_cons_self)
    obtain ⟨os, m', c', g, e2, d2, h2, p2⟩ := ih h1 (hs.2 o c1 s1) fun x hx => hc x (List.mem_cons_of_mem _ hx)
    refine ⟨o :: os, m', c', g1 ++ g, ?_, ⟨o, os, c1, g1, g, rfl, s1, d1, d2, rfl⟩, h2, ?_⟩
    · simp only [run, e1, e2, bind, Except.bind]; rfl
    · rw [List.flatMap_cons, List.zip_cons_cons, List.flatMap_cons]
      exact ledger_append p1 p2

end Verif.GroupMap
