import Verif.Props.GroupDemo
import Verif.GroupMap.SpecLemmas
/-!
Property C145 (`GroupMap`): calls neither see nor touch items they have nothing to do with; see `Props/Frame.lean`.
-/
set_option linter.unusedSectionVars false
set_option linter.unusedSimpArgs false

namespace Verif.GroupMap
open GroupSpec

variable {L R : Type}

/-- the left items given to a call -/
def Op.lefts : Op L R → List L
  | .insert l _ | .insertRemove l _ | .insertLeft l _ | .pair l _ | .remove l _ | .removeLeft l | .getRight l
  | .containsLeft l | .arePaired l _ => [l]
  | .extend xs => xs.map (·.1)
  | .extendOpt xs => xs.filterMap (·.1)
  | _ => []

/-- the right items given to a call -/
def Op.rights : Op L R → List R
  | .insert _ r | .insertRemove _ r | .insertLeft _ r | .insertRight r | .pair _ r | .remove _ r | .removeRight r
  | .getLeftIter r | .containsRight r | .isRightPaired r | .arePaired _ r => [r]
  | .swapRight old new | .swapRightRemove old new => [old, new]
  | .extend xs => xs.map (·.2)
  | .extendOpt xs => xs.map (·.2)
  | _ => []

/-- the calls that are about single items -/
def Op.Local : Op L R → Prop
  | .lenLeft | .lenRight | .isEmpty | .clear | .iter | .iterPaired | .iterUnpaired | .iterLeft | .iterRight
  | .retainPaired .. | .retainUnpaired .. | .clone .. => False
  | _ => True

/-- the contents `a` and `b` together -/
def join (a b : Contents L R) : Contents L R := ⟨a.rights ++ b.rights, a.pairs ++ b.pairs⟩

theorem join_comm (a b : Contents L R) : (join a b).Same (join b a) := ⟨List.perm_append_comm, List.perm_append_comm⟩

variable [BEq L] [BEq R]

/-- none of the items `b` is given to the call -/
structure Op.Apart (op : Op L R) (b : Contents L R) : Prop where
  lefts : ∀ x ∈ op.lefts, ∀ p ∈ b.pairs, (x == p.1) = false
  rights : ∀ y ∈ op.rights, ∀ r ∈ b.rights, (y == r) = false
  groups : ∀ y ∈ op.rights, ∀ p ∈ b.pairs, (y == p.2) = false

/-- the same results, the items of groups in any order -/
def Alike : List (Out L R) → List (Out L R) → Prop
  | [], [] => True
  | o :: os, o' :: os' => SameOut o o' ∧ Alike os os'
  | _, _ => False

section Lists
variable [EquivBEq L] [EquivBEq R] {a b : Contents L R}

theorem findL_frame {x : L} (h : ∀ p ∈ b.pairs, (x == p.1) = false) : findL (join a b) x = findL a x := by
  have : b.pairs.find? (x == ·.1) = none := List.find?_eq_none.2 fun p hp => by simp [h p hp]
  simp [findL, join, List.find?_append, this]

theorem findR_frame {y : R} (h : ∀ r ∈ b.rights, (y == r) = false) : findR (join a b) y = findR a y := by
  have : b.rights.find? (y == ·) = none := List.find?_eq_none.2 fun p hp => by simp [h p hp]
  simp [findR, join, List.find?_append, this]

theorem any_frame {α : Type} {u v : List α} {P : α → Bool} (h : ∀ p ∈ v, P p = false) : (u ++ v).any P = u.any P := by
  have : v.any P = false := List.any_eq_false.2 fun p hp => by simp [h p hp]
  rw [List.any_append, this, Bool.or_false]

theorem filter_frame {α : Type} {u v : List α} {P : α → Bool} (h : ∀ p ∈ v, P p = true) : (u ++ v).filter P = u.filter P ++ v := by
  rw [List.filter_append, List.filter_eq_self.2 h]

theorem hasPair_frame {x : L} {y : R} (h : ∀ p ∈ b.pairs, (x == p.1) = false) : hasPair (join a b) x y = hasPair a x y :=
  any_frame fun p hp => by simp [h p hp]

theorem hasGroup_frame {y : R} (h : ∀ p ∈ b.pairs, (y == p.2) = false) : hasGroup (join a b) y = hasGroup a y :=
  any_frame h

theorem group_frame {y : R} (h : ∀ p ∈ b.pairs, (y == p.2) = false) : GroupSpec.group (join a b) y = GroupSpec.group a y := by
  have : b.pairs.filter (y == ·.2) = [] := List.filter_eq_nil_iff.2 fun p hp => by simp [h p hp]
  simp [GroupSpec.group, join, List.filter_append, this]

theorem entryR_frame {y : R} (h : ∀ r ∈ b.rights, (y == r) = false) (h' : ∀ p ∈ b.pairs, (y == p.2) = false) :
    entryR (join a b) y = entryR a y := by
  simp only [entryR, findR_frame h, group_frame h']

theorem eraseL_frame {x : L} (h : ∀ p ∈ b.pairs, (x == p.1) = false) : eraseL (join a b) x = join (eraseL a x) b := by
  simp only [eraseL, join]
  rw [filter_frame fun p hp => by simp [h p hp]]

theorem eraseR_frame {y : R} (h : ∀ r ∈ b.rights, (y == r) = false) (h' : ∀ p ∈ b.pairs, (y == p.2) = false) :
    eraseR (join a b) y = join (eraseR a y) b := by
  simp only [eraseR, join]
  rw [filter_frame fun p hp => by simp [h p hp], filter_frame fun p hp => by simp [h' p hp]]

theorem insert_frame {x : L} {y : R} (hx : ∀ p ∈ b.pairs, (x == p.1) = false) (hy : ∀ r ∈ b.rights, (y == r) = false) :
    GroupSpec.insert (join a b) x y = join (GroupSpec.insert a x y) b := by
  simp only [GroupSpec.insert, findL_frame hx, findR_frame hy, eraseL_frame hx]
  cases findR a y <;> simp [join]

theorem insertLeft_frame {x : L} {y : R} (hx : ∀ p ∈ b.pairs, (x == p.1) = false) (hy : ∀ r ∈ b.rights, (y == r) = false) :
    GroupSpec.insertLeft (join a b) x y = ((GroupSpec.insertLeft a x y).1, join (GroupSpec.insertLeft a x y).2 b) := by
  simp only [GroupSpec.insertLeft, findL_frame hx, findR_frame hy, eraseL_frame hx]
  cases findR a y <;> simp [join]

theorem insertRight_frame {y : R} (h : ∀ r ∈ b.rights, (y == r) = false) (h' : ∀ p ∈ b.pairs, (y == p.2) = false) :
    GroupSpec.insertRight (join a b) y = ((GroupSpec.insertRight a y).1, join (GroupSpec.insertRight a y).2 b) := by
  simp only [GroupSpec.insertRight, entryR_frame h h', eraseR_frame h h']
  simp [join]

theorem insertRemove_frame {x : L} {y : R} (hx : ∀ p ∈ b.pairs, (x == p.1) = false) (h : ∀ r ∈ b.rights, (y == r) = false)
    (h' : ∀ p ∈ b.pairs, (y == p.2) = false) :
    GroupSpec.insertRemove (join a b) x y = ((GroupSpec.insertRemove a x y).1, join (GroupSpec.insertRemove a x y).2 b) := by
  simp only [GroupSpec.insertRemove, findL_frame hx, eraseL_frame hx, entryR_frame h h', eraseR_frame h h']
  simp [join]

theorem pair_frame {x : L} {y : R} (hx : ∀ p ∈ b.pairs, (x == p.1) = false) (hy : ∀ r ∈ b.rights, (y == r) = false) :
    GroupSpec.pair (join a b) x y = ((GroupSpec.pair a x y).1, join (GroupSpec.pair a x y).2 b) := by
  simp only [GroupSpec.pair, findL_frame hx, findR_frame hy, eraseL_frame hx]
  split <;> simp [join]

theorem remove_frame {x : L} {y : R} (hx : ∀ p ∈ b.pairs, (x == p.1) = false) (h : ∀ r ∈ b.rights, (y == r) = false)
    (h' : ∀ p ∈ b.pairs, (y == p.2) = false) :
    GroupSpec.remove (join a b) x y = ((GroupSpec.remove a x y).1, join (GroupSpec.remove a x y).2 b) := by
  simp only [GroupSpec.remove, hasPair_frame hx, entryR_frame h h', eraseR_frame h h']
  split <;> rfl

theorem moveAll_frame {x y : R} (h' : ∀ p ∈ b.pairs, (x == p.2) = false) :
    moveAll (join a b) x y = moveAll a x y ++ b.pairs := by
  simp only [moveAll, join, List.map_append]
  congr 1
  exact (List.map_congr_left fun p hp => by simp [h' p hp]).trans (List.map_id _)

theorem swapRight_frame {x y : R} (h : ∀ r ∈ b.rights, (x == r) = false) (h' : ∀ p ∈ b.pairs, (x == p.2) = false)
    (k : ∀ r ∈ b.rights, (y == r) = false) (k' : ∀ p ∈ b.pairs, (y == p.2) = false) :
    GroupSpec.swapRight (join a b) x y = join (GroupSpec.swapRight a x y) b := by
  simp only [GroupSpec.swapRight, findR_frame h, insertRight_frame k k', moveAll_frame h']
  cases findR a x <;> simp [join]

theorem swapRightRemove_frame {x y : R} (h : ∀ r ∈ b.rights, (x == r) = false) (h' : ∀ p ∈ b.pairs, (x == p.2) = false)
    (k : ∀ r ∈ b.rights, (y == r) = false) (k' : ∀ p ∈ b.pairs, (y == p.2) = false) :
    GroupSpec.swapRightRemove (join a b) x y =
      ((GroupSpec.swapRightRemove a x y).1, join (GroupSpec.swapRightRemove a x y).2 b) := by
  simp only [GroupSpec.swapRightRemove, findR_frame h, insertRight_frame k k', moveAll_frame h', eraseR_frame h h']
  cases findR a x <;> simp [join]

theorem insertAll_frame {xs : List (Option L × R)} (hx : ∀ x ∈ xs.filterMap (·.1), ∀ p ∈ b.pairs, (x == p.1) = false)
    (h : ∀ y ∈ xs.map (·.2), ∀ r ∈ b.rights, (y == r) = false) (h' : ∀ y ∈ xs.map (·.2), ∀ p ∈ b.pairs, (y == p.2) = false) :
    insertAll (join a b) xs = join (insertAll a xs) b ∧ (NewPairs (join a b) xs ↔ NewPairs a xs) := by
  induction xs generalizing a with
  | nil => exact ⟨rfl, .rfl⟩
  | cons q xs ih =>
    obtain ⟨o, r⟩ := q
    simp only [List.map_cons, List.mem_cons, forall_eq_or_imp] at h h'
    have hx' : ∀ x ∈ xs.filterMap (·.1), ∀ p ∈ b.pairs, (x == p.1) = false := by
      intro x hx1
      refine hx x ?_
      obtain ⟨p, hp, e⟩ := List.mem_filterMap.1 hx1; exact List.mem_filterMap.2 ⟨p, List.mem_cons_of_mem _ hp, e⟩
    cases o with
    | none =>
      simp only [insertAll, NewPairs, insertRight_frame h.1 h'.1]
      exact ih hx' h.2 h'.2
    | some l =>
      have hl := hx l (by simp)
      simp only [insertAll, NewPairs, insert_frame hl h.1, hasPair_frame hl]
      exact ⟨(ih hx' h.2 h'.2).1, by rw [(ih hx' h.2 h'.2).2]⟩

theorem filterMap_some (xs : List (L × R)) : (xs.map fun p => (some p.1, p.2)).filterMap (·.1) = xs.map (·.1) := by
  simp [List.filterMap_map, Function.comp_def]

theorem map_snd_some (xs : List (L × R)) : (xs.map fun p => (some p.1, p.2)).map (·.2) = xs.map (·.2) := by
  simp [Function.comp_def]

theorem safe_frame {op : Op L R} (hl : op.Local) (h : op.Apart b) : Safe (join a b) op ↔ Safe a op := by
  obtain ⟨h1, h2, h3⟩ := h
  cases op <;> simp only [Safe, Op.Local] at * <;>
    simp only [Op.lefts, Op.rights, List.mem_cons, List.not_mem_nil, or_false, forall_eq_or_imp, forall_eq] at h1 h2 h3
  case insert l r => rw [hasPair_frame h1]
  case swapRight x y => rw [findR_frame h2.1, findR_frame h2.2, hasGroup_frame h3.1]
  case swapRightRemove x y => rw [findR_frame h2.1, findR_frame h2.2, hasGroup_frame h3.1]
  case extend xs =>
    exact (insertAll_frame (by rw [filterMap_some]; exact h1) (by rw [map_snd_some]; exact h2) (by rw [map_snd_some]; exact h3)).2
  case extendOpt xs => exact (insertAll_frame h1 h2 h3).2

theorem join_iff {A : Prop} {d Y : Contents L R} : (A ∧ d = join Y b) ↔ ∃ a', (A ∧ a' = Y) ∧ d = join a' b :=
  ⟨fun ⟨h, e⟩ => ⟨Y, ⟨h, rfl⟩, e⟩, fun ⟨_, ⟨h, e⟩, e'⟩ => ⟨h, by rw [e', e]⟩⟩

theorem join_iff' {α : Type} {A B : α → Prop} {d Y : Contents L R} :
    (∃ g, A g ∧ B g ∧ d = join Y b) ↔ ∃ a', (∃ g, A g ∧ B g ∧ a' = Y) ∧ d = join a' b :=
  ⟨fun ⟨g, h, h', e⟩ => ⟨Y, ⟨g, h, h', rfl⟩, e⟩, fun ⟨_, ⟨g, h, h', e⟩, e'⟩ => ⟨g, h, h', by rw [e', e]⟩⟩

/-- with the items `b` added, a call does the same and leaves `b` -/
theorem step_frame {op : Op L R} {o d} (hl : op.Local) (h : op.Apart b) :
    Step (join a b) op o d ↔ ∃ a', Step a op o a' ∧ d = join a' b := by
  obtain ⟨h1, h2, h3⟩ := h
  cases op <;> simp only [Op.Local] at hl <;> simp only [Step] <;>
    simp only [Op.lefts, Op.rights, List.mem_cons, List.not_mem_nil, or_false, forall_eq_or_imp, forall_eq, false_implies,
      implies_true] at h1 h2 h3
  case insert l r => rw [insert_frame h1 h2]; exact join_iff
  case insertRemove l r => rw [insertRemove_frame h1 h2 h3]; exact join_iff'
  case insertLeft l r => rw [insertLeft_frame h1 h2]; exact join_iff
  case insertRight r => rw [insertRight_frame h2 h3]; exact join_iff'
  case swapRight x y => rw [swapRight_frame h2.1 h3.1 h2.2 h3.2]; exact join_iff
  case swapRightRemove x y => rw [swapRightRemove_frame h2.1 h3.1 h2.2 h3.2]; exact join_iff
  case pair l r => rw [pair_frame h1 h2]; exact join_iff
  case remove l r => rw [remove_frame h1 h2 h3]; exact join_iff'
  case removeLeft l => rw [findL_frame h1, eraseL_frame h1]; exact join_iff
  case removeRight r => rw [entryR_frame h2 h3, eraseR_frame h2 h3]; exact join_iff'
  case getRight l => rw [findL_frame h1]; exact join_iff
  case getLeftIter r => rw [group_frame h3, findR_frame h2]; exact join_iff'
  case containsLeft l => rw [show (join a b).pairs.any (l == ·.1) = a.pairs.any (l == ·.1) from any_frame h1]; exact join_iff
  case containsRight r => rw [show (join a b).rights.any (r == ·) = a.rights.any (r == ·) from any_frame h2]; exact join_iff
  case isRightPaired r => rw [hasGroup_frame h3]; exact join_iff
  case arePaired l r => rw [hasPair_frame h1]; exact join_iff
  case extend xs =>
    rw [(insertAll_frame (by rw [filterMap_some]; exact h1) (by rw [map_snd_some]; exact h2) (by rw [map_snd_some]; exact h3)).1]
    exact join_iff
  case extendOpt xs => rw [(insertAll_frame h1 h2 h3).1]; exact join_iff

theorem sameOut_refl (o : Out L R) : SameOut o o := by
  cases o with
  | leftsOf x => cases x <;> simp [SameOut]
  | group x => exact SameEntry.refl _
  | leftAndGroup x y => exact ⟨rfl, SameEntry.refl _⟩
  | _ => simp [SameOut]

/-- calls that are about single items have one outcome, up to the order in a group -/
theorem local_det {op : Op L R} {o o₂ : Out L R} {c c' c₂} (hl : op.Local) (h : Step c op o c') (h2 : Step c op o₂ c₂) :
    SameOut o o₂ ∧ c₂ = c' := by
  cases op <;> simp only [Op.Local] at hl <;> simp only [Step] at h h2
  case insertRemove =>
    obtain ⟨g, s, rfl, rfl⟩ := h; obtain ⟨g', s', rfl, rfl⟩ := h2
    exact ⟨⟨rfl, s.trans s'.symm⟩, rfl⟩
  case insertRight | remove | removeRight =>
    obtain ⟨g, s, rfl, rfl⟩ := h; obtain ⟨g', s', rfl, rfl⟩ := h2
    exact ⟨s.trans s'.symm, rfl⟩
  case getLeftIter r =>
    obtain ⟨g, s, rfl, rfl⟩ := h; obtain ⟨g', s', rfl, rfl⟩ := h2
    refine ⟨?_, rfl⟩
    cases findR c₂ r
    · exact sameOut_refl _
    · exact s.trans s'.symm
  all_goals
    obtain ⟨rfl, rfl⟩ := h; obtain ⟨rfl, rfl⟩ := h2
    exact ⟨sameOut_refl _, rfl⟩

theorem steps_frame {ops : List (Op L R)} {os d} (hl : ∀ op ∈ ops, op.Local) (h : ∀ op ∈ ops, op.Apart b) :
    Steps (join a b) ops os d ↔ ∃ a', Steps a ops os a' ∧ d = join a' b := by
  induction ops generalizing a os with
  | nil => simp only [Steps]; exact join_iff
  | cons op ops ih =>
    rw [List.forall_mem_cons] at hl h
    constructor
    · rintro ⟨o, os', c1, e, s1, s2⟩
      obtain ⟨a1, s1', rfl⟩ := (step_frame hl.1 h.1).1 s1
      obtain ⟨a2, s2', rfl⟩ := (ih hl.2 h.2).1 s2
      exact ⟨a2, ⟨o, os', a1, e, s1', s2'⟩, rfl⟩
    · rintro ⟨a2, ⟨o, os', a1, e, s1, s2⟩, rfl⟩
      exact ⟨o, os', join a1 b, e, (step_frame hl.1 h.1).2 ⟨a1, s1, rfl⟩, (ih hl.2 h.2).2 ⟨a2, s2, rfl⟩⟩

theorem safeRun_frame {ops : List (Op L R)} (hl : ∀ op ∈ ops, op.Local) (h : ∀ op ∈ ops, op.Apart b) (hs : SafeRun a ops) :
    SafeRun (join a b) ops := by
  induction ops generalizing a with
  | nil => trivial
  | cons op ops ih =>
    rw [List.forall_mem_cons] at hl h
    refine ⟨(safe_frame hl.1 h.1).2 hs.1, fun o c' s => ?_⟩
    obtain ⟨a', s', rfl⟩ := (step_frame hl.1 h.1).1 s
    exact ih hl.2 h.2 (hs.2 o a' s')

theorem steps_det {ops : List (Op L R)} {os os₂ c c' c₂} (hl : ∀ op ∈ ops, op.Local) (h : Steps c ops os c')
    (h2 : Steps c ops os₂ c₂) : Alike os os₂ ∧ c₂ = c' := by
  induction ops generalizing c os os₂ with
  | nil => obtain ⟨rfl, rfl⟩ := h; obtain ⟨rfl, rfl⟩ := h2; exact ⟨trivial, rfl⟩
  | cons op ops ih =>
    obtain ⟨o, os', c1, rfl, s1, s2⟩ := h
    obtain ⟨o', os'', c1', rfl, s1', s2'⟩ := h2
    rw [List.forall_mem_cons] at hl
    obtain ⟨so, rfl⟩ := local_det hl.1 s1 s1'
    obtain ⟨sos, rfl⟩ := ih hl.2 s2 s2'
    exact ⟨⟨so, sos⟩, rfl⟩

/-- the items of `d` are items of `c`, or among `ls` and `rs` -/
structure From (c : Contents L R) (ls : List L) (rs : List R) (d : Contents L R) : Prop where
  lefts : ∀ p ∈ d.pairs, p.1 ∈ c.pairs.map (·.1) ∨ p.1 ∈ ls
  rights : ∀ r ∈ d.rights, r ∈ c.rights ∨ r ∈ rs
  groups : ∀ p ∈ d.pairs, p.2 ∈ c.pairs.map (·.2) ∨ p.2 ∈ c.rights ∨ p.2 ∈ rs

section From
variable {c d : Contents L R} {ls : List L} {rs : List R}

theorem From.refl : From c ls rs c :=
  ⟨fun _ h => .inl (List.mem_map_of_mem h), fun _ h => .inl h, fun _ h => .inl (List.mem_map_of_mem h)⟩

theorem From.trans {e : Contents L R} (h : From c ls rs d) (k : From d ls rs e) : From c ls rs e := by
  refine ⟨fun p hp => ?_, fun r hr => ?_, fun p hp => ?_⟩
  · rcases k.lefts p hp with h' | h'
    · obtain ⟨q, hq, e⟩ := List.mem_map.1 h'; rw [← e]; exact h.lefts q hq
    · exact .inr h'
  · exact (k.rights r hr).elim (h.rights r) .inr
  · rcases k.groups p hp with h' | h' | h'
    · obtain ⟨q, hq, e⟩ := List.mem_map.1 h'; rw [← e]; exact h.groups q hq
    · exact (h.rights _ h').elim (fun h => .inr (.inl h)) (fun h => .inr (.inr h))
    · exact .inr (.inr h')

/-- fewer items -/
theorem From.sub (hr : ∀ r ∈ d.rights, r ∈ c.rights) (hp : ∀ p ∈ d.pairs, p ∈ c.pairs) : From c ls rs d :=
  ⟨fun _ h => .inl (List.mem_map_of_mem (hp _ h)), fun _ h => .inl (hr _ h), fun _ h => .inl (List.mem_map_of_mem (hp _ h))⟩

theorem From.eraseL {l : L} : From c ls rs (GroupSpec.eraseL c l) := .sub (fun _ h => h) fun _ h => (List.mem_filter.1 h).1

theorem From.eraseR {r : R} : From c ls rs (GroupSpec.eraseR c r) :=
  .sub (fun _ h => (List.mem_filter.1 h).1) fun _ h => (List.mem_filter.1 h).1

/-- one more pair -/
theorem From.cons {x : L} {y : R} (hx : x ∈ c.pairs.map (·.1) ∨ x ∈ ls) (hy : y ∈ c.rights ∨ y ∈ rs) (h : From c ls rs d) :
    From c ls rs { d with pairs := (x, y) :: d.pairs } := by
  refine ⟨fun p hp => ?_, h.rights, fun p hp => ?_⟩
  · rcases List.mem_cons.1 hp with rfl | hp
    · exact hx
    · exact h.lefts p hp
  · rcases List.mem_cons.1 hp with rfl | hp
    · exact .inr hy
    · exact h.groups p hp

/-- one more right item -/
theorem From.consR {y : R} (hy : y ∈ rs) (h : From c ls rs d) : From c ls rs { d with rights := y :: d.rights } := by
  refine ⟨h.lefts, fun r hr => ?_, h.groups⟩
  rcases List.mem_cons.1 hr with rfl | hr
  · exact .inr hy
  · exact h.rights r hr

theorem From.insertRight {r : R} (hr : r ∈ rs) : From c ls rs (GroupSpec.insertRight c r).2 :=
  .consR hr .eraseR

theorem found {r b : R} (h : findR c r = some b) : b ∈ c.rights := List.mem_of_find?_eq_some h

theorem From.insert {l : L} {r : R} (hl : l ∈ ls) (hr : r ∈ rs) : From c ls rs (GroupSpec.insert c l r) := by
  have hx : ((findL c l).map (·.1)).getD l ∈ c.pairs.map (·.1) ∨ ((findL c l).map (·.1)).getD l ∈ ls := by
    cases hf : findL c l with
    | none => exact .inr hl
    | some p => exact .inl (List.mem_map_of_mem (List.mem_of_find?_eq_some hf))
  have hy : (findR c r).getD r ∈ c.rights ∨ (findR c r).getD r ∈ rs := by
    cases hf : findR c r with
    | none => exact .inr hr
    | some p => exact .inl (found hf)
  have := From.cons hx hy (From.eraseL (c := c) (ls := ls) (rs := rs) (l := l))
  unfold GroupSpec.insert
  cases hf : findR c r with
  | none => rw [hf] at this; exact .consR hr this
  | some p => rw [hf] at this; exact this

theorem From.insertAll {xs : List (Option L × R)} (hl : ∀ x ∈ xs.filterMap (·.1), x ∈ ls) (hr : ∀ y ∈ xs.map (·.2), y ∈ rs) :
    From c ls rs (GroupSpec.insertAll c xs) := by
  induction xs generalizing c with
  | nil => exact .refl
  | cons q xs ih =>
    obtain ⟨o, r⟩ := q
    simp only [List.map_cons, List.mem_cons, forall_eq_or_imp] at hr
    have hl' : ∀ x ∈ xs.filterMap (·.1), x ∈ ls := by
      intro x hx1
      refine hl x ?_
      obtain ⟨p, hp, e⟩ := List.mem_filterMap.1 hx1; exact List.mem_filterMap.2 ⟨p, List.mem_cons_of_mem _ hp, e⟩
    cases o with
    | none => exact (From.insertRight hr.1).trans (ih hl' hr.2)
    | some l => exact (From.insert (hl l (by simp)) hr.1).trans (ih hl' hr.2)

theorem From.moveAll {x y : R} (hy : y ∈ rs) (hr : ∀ r ∈ d.rights, r ∈ c.rights) :
    From c ls rs ⟨y :: d.rights, GroupSpec.moveAll c x y⟩ := by
  refine ⟨fun p hp => ?_, fun r h => ?_, fun p hp => ?_⟩
  · obtain ⟨q, hq, rfl⟩ := List.mem_map.1 hp
    refine .inl (List.mem_map.2 ⟨q, hq, ?_⟩)
    split <;> rfl
  · rcases List.mem_cons.1 h with rfl | h
    · exact .inr hy
    · exact .inl (hr r h)
  · obtain ⟨q, hq, rfl⟩ := List.mem_map.1 hp
    split
    · exact .inr (.inr hy)
    · exact .inl (List.mem_map_of_mem hq)

end From

/-- every item a call leaves was there before or is given to the call -/
theorem step_items {op : Op L R} {o c c'} (hl : op.Local) (hs : Step c op o c') : From c op.lefts op.rights c' := by
  cases op <;> simp only [Op.Local] at hl <;> simp only [Step] at hs <;> simp only [Op.lefts, Op.rights]
  case insert l r => rw [hs.2]; exact .insert (by simp) (by simp)
  case insertRemove l r =>
    obtain ⟨g, -, -, rfl⟩ := hs
    exact .consR (by simp) (.cons (.inr (by simp)) (.inr (by simp)) (From.eraseL.trans .eraseR))
  case insertLeft l r =>
    rw [hs.2]
    unfold GroupSpec.insertLeft
    split
    · exact .refl
    · rename_i b hf; exact .cons (.inr (by simp)) (.inl (found hf)) .eraseL
  case insertRight r => obtain ⟨g, -, -, rfl⟩ := hs; exact .insertRight (by simp)
  case swapRight x y =>
    rw [hs.2]
    unfold GroupSpec.swapRight
    split
    · exact .insertRight (by simp)
    · exact .moveAll (by simp) fun _ h => h
  case swapRightRemove x y =>
    rw [hs.2]
    unfold GroupSpec.swapRightRemove
    split
    · exact .insertRight (by simp)
    · exact .moveAll (d := GroupSpec.eraseR c x) (by simp) fun _ h => (List.mem_filter.1 h).1
  case pair l r =>
    rw [hs.2]
    unfold GroupSpec.pair
    split
    · rename_i p b hp hb
      exact .cons (.inl (List.mem_map_of_mem (List.mem_of_find?_eq_some hp))) (.inl (found hb)) .eraseL
    · exact .refl
  case remove l r =>
    obtain ⟨g, -, -, rfl⟩ := hs
    unfold GroupSpec.remove
    split
    · exact .eraseR
    · exact .refl
  case removeLeft l => rw [hs.2]; exact .eraseL
  case removeRight r => obtain ⟨g, -, -, rfl⟩ := hs; exact .eraseR
  case getLeftIter r => obtain ⟨g, -, -, rfl⟩ := hs; exact .refl
  case extend xs => rw [hs.2]; exact .insertAll (by rw [filterMap_some]; simp) (by rw [map_snd_some]; simp)
  case extendOpt xs => rw [hs.2]; exact .insertAll (fun _ h => h) (fun _ h => h)
  all_goals rw [hs.2]; exact .refl

end Lists

section Maps
variable [RawImpl] [LawfulRaw] [EquivBEq L] [EquivBEq R] {m n : GroupMap L R} {a b c : Contents L R}

theorem run_then {ops ops₂ : List (Op L R)} {os os₂ : List (Out L R)} {m₁ m₂ : GroupMap L R} (e : m.run ops = .ok (os, m₁))
    (e₂ : m₁.run ops₂ = .ok (os₂, m₂)) : m.run (ops ++ ops₂) = .ok (os ++ os₂, m₂) := by
  induction ops generalizing m os with
  | nil => simp only [run] at e; cases e; exact e₂
  | cons op ops ih =>
    cases e1 : m.exec op with
    | error x => simp [run, e1, bind, Except.bind] at e
    | ok x =>
      cases e2 : x.2.run ops with
      | error y => simp [run, e1, e2, bind, Except.bind] at e
      | ok y =>
        simp [run, e1, e2, bind, Except.bind, pure, Except.pure] at e
        obtain ⟨rfl, rfl⟩ := e
        simp [run, e1, ih e2, bind, Except.bind, pure, Except.pure]

/-- what is done to `a` is done to `a` and `b` together -/
theorem run_of_steps (h : Repr m (join a b)) {ops : List (Op L R)} {os a'} (hl : ∀ op ∈ ops, op.Local)
    (hs : SafeRun a ops) (hb : ∀ op ∈ ops, op.Apart b) (s : Steps a ops os a') :
    ∃ os' m', m.run ops = .ok (os', m') ∧ Alike os os' ∧ Repr m' (join a' b) := by
  obtain ⟨os', m', c', e, s', r, -⟩ := run_simulates h (safeRun_frame hl hb hs)
  obtain ⟨k, rfl⟩ := steps_det hl ((steps_frame hl hb).2 ⟨a', s, rfl⟩) s'
  exact ⟨os', m', e, k, r⟩

theorem steps_apart {ops : List (Op L R)} {os c c'} (hl : ∀ op ∈ ops, op.Local) (h : Steps c ops os c') {op₂ : Op L R}
    (h₂ : op₂.Apart c)
    (hx : ∀ op ∈ ops, (∀ x ∈ op.lefts, ∀ y ∈ op₂.lefts, (x == y) = false) ∧ ∀ x ∈ op.rights, ∀ y ∈ op₂.rights, (x == y) = false) :
    op₂.Apart c' := by
  induction ops generalizing c os with
  | nil => rw [h.2]; exact h₂
  | cons op ops ih =>
    obtain ⟨o, os', c1, rfl, s1, s2⟩ := h
    rw [List.forall_mem_cons] at hl hx
    have i := step_items hl.1 s1
    refine ih hl.2 s2 ⟨fun x hx' p hp => ?_, fun y hy' r hr => ?_, fun y hy' p hp => ?_⟩ hx.2
    · rcases i.lefts p hp with hi | hi
      · obtain ⟨q, hq, e⟩ := List.mem_map.1 hi; rw [← e]; exact h₂.lefts x hx' q hq
      · rw [BEq.comm]; exact hx.1.1 _ hi x hx'
    · rcases i.rights r hr with hi | hi
      · exact h₂.rights y hy' r hi
      · rw [BEq.comm]; exact hx.1.2 _ hi y hy'
    · rcases i.groups p hp with hi | hi | hi
      · obtain ⟨q, hq, e⟩ := List.mem_map.1 hi; rw [← e]; exact h₂.groups y hy' q hq
      · exact h₂.rights y hy' _ hi
      · rw [BEq.comm]; exact hx.1.2 _ hi y hy'

/-- C145: `m` holds the items of `n` and further items, of which the calls are given none.  Then the calls return the same for
both maps, one by one, the items of groups in any order; what is left of `m` is what is left of `n` and the further items.  The hash
functions of the two maps may be different.  (`SafeRun`: without the calls that break a map, C62, C66, C67.) -/
theorem C145_group_frame (hm : Reachable m) (hab : Shows m (join a b)) (hn : Reachable n) (ha : Shows n a)
    {ops : List (Op L R)} (hl : ∀ op ∈ ops, op.Local) (hs : SafeRun a ops) (h : ∀ op ∈ ops, op.Apart b) :
    ∃ os os' m' n' a', m.run ops = .ok (os', m') ∧ n.run ops = .ok (os, n') ∧ Alike os os' ∧ Shows m' (join a' b) ∧
      Shows n' a' := by
  obtain ⟨os, n', a', e, s, r, -⟩ := run_simulates (hn.repr_of_shows ha) hs
  obtain ⟨os', m', e', k, r'⟩ := run_of_steps (hm.repr_of_shows hab) hl hs h s
  exact ⟨os, os', m', n', a', e', e, k, r'.shows, r.shows⟩

/-- C145: two histories of which each is given no item of the other one and no item of the groups the other one is about return
the same, call by call, whichever comes first, and leave the same groups: `os` and `os₂` are what they return alone. -/
theorem C145_group_commute (hm : Reachable m) (hab : Shows m (join a b)) {ops ops₂ : List (Op L R)}
    (hl : ∀ op ∈ ops, op.Local) (hl₂ : ∀ op ∈ ops₂, op.Local) (hs : SafeRun a ops) (hs₂ : SafeRun b ops₂)
    (h : ∀ op ∈ ops, op.Apart b) (h₂ : ∀ op ∈ ops₂, op.Apart a)
    (hx : ∀ op ∈ ops, ∀ op₂ ∈ ops₂, (∀ x ∈ op.lefts, ∀ y ∈ op₂.lefts, (x == y) = false) ∧
      ∀ x ∈ op.rights, ∀ y ∈ op₂.rights, (x == y) = false) :
    ∃ os os₂ m₁ m₂ xs ys xs' ys' m₁₂ m₂₁ c, m.run ops = .ok (os, m₁) ∧ m.run ops₂ = .ok (os₂, m₂) ∧
      m.run (ops ++ ops₂) = .ok (xs ++ ys, m₁₂) ∧ m.run (ops₂ ++ ops) = .ok (ys' ++ xs', m₂₁) ∧
      Alike os xs ∧ Alike os xs' ∧ Alike os₂ ys ∧ Alike os₂ ys' ∧ Shows m₁₂ c ∧ Shows m₂₁ c := by
  have rm := hm.repr_of_shows hab
  have rm' : Repr m (join b a) := rm.same (join_comm a b)
  obtain ⟨os, m₁, c₁, e1, s1, r1, -⟩ := run_simulates rm (safeRun_frame hl h hs)
  obtain ⟨a', s, rfl⟩ := (steps_frame hl h).1 s1
  obtain ⟨os₂, m₂, c₂, e2, s2, r2, -⟩ := run_simulates rm' (safeRun_frame hl₂ h₂ hs₂)
  obtain ⟨b', s₂, rfl⟩ := (steps_frame hl₂ h₂).1 s2
  have h₂' : ∀ op ∈ ops₂, op.Apart a' := fun op ho => steps_apart hl s (h₂ op ho) fun op' ho' => hx op' ho' op ho
  have h' : ∀ op ∈ ops, op.Apart b' := fun op ho => steps_apart hl₂ s₂ (h op ho) fun op' ho' =>
    ⟨fun x hx' y hy' => by rw [BEq.comm]; exact (hx op ho op' ho').1 y hy' x hx',
     fun x hx' y hy' => by rw [BEq.comm]; exact (hx op ho op' ho').2 y hy' x hx'⟩
  obtain ⟨ys, m₁₂, e12, k12, r12⟩ := run_of_steps (r1.same (join_comm _ _)) hl₂ hs₂ h₂' s₂
  obtain ⟨xs, m₂₁, e21, k21, r21⟩ := run_of_steps (r2.same (join_comm _ _)) hl hs h' s
  exact ⟨os, os₂, m₁, m₂, os, ys, xs, os₂, m₁₂, m₂₁, join a' b', e1, e2, run_then e1 e12, run_then e2 e21,
    (steps_det hl s s).1, k21, k12, (steps_det hl₂ s₂ s₂).1, (r12.same (join_comm _ _)).shows, r21.shows⟩

end Maps

section Examples
open Demo
variable [RawImpl] [LawfulRaw]

/-- calls about 3, 7 and 20 do the same in a map that holds the group of 20 only, with another hash function -/
example : ∃ n : GroupMap Nat Nat, n.hb = spreadHash ∧ ∃ os os' m' n' a',
    demo.run [.insertLeft 7 20, .getLeftIter 20, .removeRight 20] = .ok (os', m') ∧
    n.run [.insertLeft 7 20, .getLeftIter 20, .removeRight 20] = .ok (os, n') ∧ Alike os os' ∧
    Shows m' (join a' ⟨[30, 10], [(2, 10), (1, 10)]⟩) ∧ Shows n' a' := by
  have hnp : NewPairs (GroupSpec.empty : Contents Nat Nat) [(some 3, 20)] := by simp [NewPairs, hasPair, GroupSpec.empty]
  obtain ⟨n, e, h, k⟩ := extendOpt_refines (withHasher_repr (L := Nat) (R := Nat) spreadHash) [(some 3, 20)] hnp
  have hn : Reachable n := (Reachable.new spreadHash).extendOpt (withHasher_repr spreadHash) _ hnp e
  refine ⟨n, k.hb, C145_group_frame demo_reachable (a := ⟨[20], [(3, 20)]⟩) ?_ hn h.shows (by simp [Op.Local])
    (by simp [SafeRun, Safe]) ?_⟩
  · refine (demo_repr.same (d := join ⟨[20], [(3, 20)]⟩ ⟨[30, 10], [(2, 10), (1, 10)]⟩) ⟨?_, .refl _⟩).shows
    exact List.Perm.swap 20 30 [10]
  · intro op ho
    simp only [List.mem_cons, List.not_mem_nil, or_false] at ho
    rcases ho with rfl | rfl | rfl <;> constructor <;> simp [Op.lefts, Op.rights]

/-- removing 1 and taking the group of 20 can be done in either order -/
example : ∃ os os₂ m₁ m₂ xs ys xs' ys' m₁₂ m₂₁ c, demo.run [.removeLeft 1] = .ok (os, m₁) ∧
    demo.run [.removeRight 20] = .ok (os₂, m₂) ∧
    demo.run ([.removeLeft 1] ++ [.removeRight 20]) = .ok (xs ++ ys, m₁₂) ∧
    demo.run ([.removeRight 20] ++ [.removeLeft 1]) = .ok (ys' ++ xs', m₂₁) ∧
    Alike os xs ∧ Alike os xs' ∧ Alike os₂ ys ∧ Alike os₂ ys' ∧ Shows m₁₂ c ∧ Shows m₂₁ c := by
  refine C145_group_commute demo_reachable (a := ⟨[30, 10], [(2, 10), (1, 10)]⟩) (b := ⟨[20], [(3, 20)]⟩) ?_ (by simp [Op.Local])
    (by simp [Op.Local]) (by simp [SafeRun, Safe]) (by simp [SafeRun, Safe]) ?_ ?_ (by simp [Op.lefts, Op.rights])
  · refine (demo_repr.same (d := join ⟨[30, 10], [(2, 10), (1, 10)]⟩ ⟨[20], [(3, 20)]⟩) ⟨?_, ?_⟩).shows
    · exact .cons 30 (List.Perm.swap 10 20 [])
    · exact List.perm_append_comm (l₁ := [(3, 20)]) (l₂ := [(2, 10), (1, 10)])
  · intro op ho
    simp only [List.mem_cons, List.not_mem_nil, or_false] at ho
    subst ho; constructor <;> simp [Op.lefts, Op.rights]
  · intro op ho
    simp only [List.mem_cons, List.not_mem_nil, or_false] at ho
    subst ho; constructor <;> simp [Op.lefts, Op.rights]

end Examples
end Verif.GroupMap
