import Verif.GroupMap.RepairMachine
import Verif.Props.RepairGroup
/-! Property C148 for `GroupMap`: with the repairs of C135 it does what is documented, whatever is called. -/
set_option linter.unusedSectionVars false
set_option linter.unusedSimpArgs false
namespace Verif.GroupMap
open GroupSpec Demo
open CycleSpec (split)

variable [RawImpl] [LawfulRaw] {L R : Type} [BEq L] [BEq R] [EquivBEq L] [EquivBEq R]
variable {m : GroupMap L R} {c : Contents L R}

theorem repair_extendOpt (h : Repr m c) (xs : List (Option L × R)) : ∃ m', Repair.extendOpt m xs = .ok m' ∧ Repr m' (insertAll c xs) := by
  induction xs generalizing m c with
  | nil => exact ⟨m, rfl, h⟩
  | cons x xs ih =>
    obtain ⟨_ | l, r⟩ := x
    · obtain ⟨o, m1, e, -, h1, -⟩ := insertRight_refines h r
      obtain ⟨m2, e2, h2⟩ := ih h1
      exact ⟨m2, by simp only [Repair.extendOpt, e, e2, bind, Except.bind], h2⟩
    · obtain ⟨m1, e, h1⟩ := insert_repair h l r
      obtain ⟨m2, e2, h2⟩ := ih h1
      exact ⟨m2, by simp only [Repair.extendOpt, e, e2, bind, Except.bind], by rw [insertAll, insert_eq_inserted]; exact h2⟩

theorem repair_extend (xs : List (L × R)) : Repair.extend m xs = Repair.extendOpt m (xs.map fun p => (some p.1, p.2)) := by
  induction xs generalizing m with
  | nil => rfl
  | cons x xs ih => simp only [Repair.extend, List.map_cons, Repair.extendOpt, ih]

/-- pairs without those of `old`: nothing to hand over -/
theorem no_handover {ps : List (L × R)} {old new : R} (h : ∀ p ∈ ps, (old == p.2) = false) :
    (ps.map fun p => if old == p.2 then (p.1, new) else p) = ps := by
  rw [List.map_congr_left (g := id) fun p hp => by simp [h p hp], List.map_id]

theorem repair_swapRight (h : Repr m c) (old new : R) : ∃ m', Repair.swapRight m old new = .ok m' ∧ Repr m'
    (if c.rights.any (old == ·) && old == new then c
      else ⟨new :: c.rights.filter fun b => !(new == b),
        (c.pairs.filter fun p => !(new == p.2)).map fun p => if old == p.2 then (p.1, new) else p⟩) := by
  have hc := h.shows
  obtain ⟨o, m1, e1, -, h1, -⟩ := removeRight_refines h new
  rw [Repair.swapRight, ← hc.containsRight]
  cases ho : m.containsRight old with
  | true =>
    cases hon : old == new with
    | true => exact ⟨m, rfl, h⟩
    | false =>
      obtain ⟨b, hb⟩ := (contains hc).1 ho
      obtain ⟨m', e, h'⟩ := swapRightIds_some h1 (old := old) (b := b) (by rw [findR_erased_other c hon, hb]) (findR_erased c new)
      exact ⟨m', by simp [e1, e, bind, Except.bind], h'⟩
  | false =>
    have hb := (not_contains hc).1 ho
    have hb' : findR (eraseR c new) old = none := by
      rw [findR, eraseR, List.find?_eq_none] at *
      exact fun x hx => hb x (List.mem_filter.1 hx).1
    obtain ⟨m', e, h'⟩ := swapRightIds_none h1 hb' new
    rw [erased_twice] at h'
    refine ⟨m', by simp [e1, e, bind, Except.bind], ?_⟩
    rw [Bool.false_and, if_neg (by simp), no_handover]
    · exact h'
    · intro p hp
      rw [findR, List.find?_eq_none] at hb
      simpa using hb _ (hc.sound.owned p (List.mem_filter.1 hp).1)

theorem repair_swapRightRemove (h : Repr m c) (old new : R) :
    ∃ m', Repair.swapRightRemove m old new = .ok (c.rights.find? (old == ·), m') ∧ Repr m'
      ⟨new :: c.rights.filter fun b => !(old == b) && !(new == b),
        (c.pairs.filter fun p => old == p.2 || !(new == p.2)).map fun p => if old == p.2 then (p.1, new) else p⟩ := by
  have hc := h.shows
  obtain ⟨o, m1, e1, -, h1, -⟩ := removeRight_refines h new
  have same : (old == new) = true → ∀ x, (new == x) = (old == x) := fun h x => (BEq.congr_left h).symm
  rw [Repair.swapRightRemove]
  cases hb : c.rights.find? (old == ·) with
  | some b =>
    cases hon : old == new with
    | true =>
      obtain ⟨m', e, h'⟩ := swapRightRemoveIds_some h (old := old) (b := b) hb (new := new) (.inr hon)
      refine ⟨m', e, ?_⟩
      simp only [same hon, Bool.and_self, Bool.or_not_self]
      rw [List.filter_eq_self.2 fun p _ => rfl]
      exact h'
    | false =>
      obtain ⟨m', e, h'⟩ := swapRightRemoveIds_some h1 (old := old) (b := b) (by rw [findR_erased_other c hon]; exact hb)
        (.inl (findR_erased c new))
      refine ⟨m', by simp [e1, e, bind, Except.bind], ?_⟩
      simp only [eraseR, moveAll, List.filter_filter] at h'
      rw [List.filter_congr (l := c.pairs) (q := fun p => !(new == p.2)) fun p _ => ?_]
      · exact h'
      · cases h1 : old == p.2 with
        | false => rfl
        | true => rw [show (new == p.2) = false by rw [← BEq.congr_right h1, BEq.comm]; exact hon]; rfl
  | none =>
    have hn : ∀ b ∈ c.rights, (old == b) = false := by simpa [List.find?_eq_none] using hb
    have hb' : findR (eraseR c new) old = none := by
      rw [findR, eraseR, List.find?_eq_none] at *
      exact fun x hx => hb x (List.mem_filter.1 hx).1
    have hp : ∀ p ∈ c.pairs, (old == p.2) = false := fun p hp => hn _ (hc.sound.owned p hp)
    rw [no_handover fun p h => hp p (List.mem_filter.1 h).1,
      List.filter_congr (l := c.rights) (q := fun b => !(new == b)) fun b hb => by rw [hn b hb]; rfl,
      List.filter_congr (l := c.pairs) (q := fun p => !(new == p.2)) fun p h => by rw [hp p h]; rfl]
    cases hon : old == new with
    | true => exact swapRightRemoveIds_none h hb new
    | false =>
      obtain ⟨m', e, h'⟩ := swapRightRemoveIds_none h1 hb' new
      rw [erased_twice] at h'
      exact ⟨m', by simp [e1, e, bind, Except.bind], h'⟩

theorem Repair.exec_simulates (h : Repr m c) {op : Op L R} (hs : op.LawfulClone) :
    ∃ o m' c', Repair.exec m op = .ok (o, m') ∧ Repair.Step c op o c' ∧ Repr m' c' := by
  have orig : Safe c op → ∃ o m' c', m.exec op = .ok (o, m') ∧ GroupMap.Step c op o c' ∧ Repr m' c' := fun hs => by
    obtain ⟨o, m', c', e, s, h', -⟩ := GroupMap.exec_simulates h hs
    exact ⟨o, m', c', e, s, h'⟩
  cases op
  case insert l r =>
    obtain ⟨m', e, h'⟩ := insert_repair h l r
    exact ⟨_, m', _, by simp only [Repair.exec, e]; rfl, ⟨rfl, (insert_eq_inserted c l r).symm⟩, h'⟩
  case swapRight old new =>
    obtain ⟨m', e, h'⟩ := repair_swapRight h old new
    exact ⟨_, m', _, by simp only [Repair.exec, e]; rfl, ⟨rfl, rfl⟩, h'⟩
  case swapRightRemove old new =>
    obtain ⟨m', e, h'⟩ := repair_swapRightRemove h old new
    exact ⟨_, m', _, by simp only [Repair.exec, e]; rfl, ⟨rfl, rfl⟩, h'⟩
  case retainPaired σ f s =>
    obtain ⟨d, m', hp, e, h'⟩ := retainPaired_repair h f s
    exact ⟨_, m', _, by simp only [Repair.exec, e]; rfl, ⟨d, hp, rfl, rfl⟩, h'⟩
  case retainUnpaired σ f s =>
    obtain ⟨d, m', hp, e, h'⟩ := retainUnpaired_repair h f s
    exact ⟨_, m', _, by simp only [Repair.exec, e]; rfl, ⟨d, hp, rfl, rfl⟩, h'⟩
  case extend xs =>
    obtain ⟨m', e, h'⟩ := repair_extendOpt h (xs.map fun p => (some p.1, p.2))
    exact ⟨_, m', _, by simp only [Repair.exec, repair_extend, e]; rfl, ⟨rfl, rfl⟩, h'⟩
  case extendOpt xs =>
    obtain ⟨m', e, h'⟩ := repair_extendOpt h xs
    exact ⟨_, m', _, by simp only [Repair.exec, e]; rfl, ⟨rfl, rfl⟩, h'⟩
  all_goals exact orig hs

theorem Repair.run_simulates (h : Repr m c) {ops : List (Op L R)} (hs : ∀ op ∈ ops, op.LawfulClone) :
    ∃ os m' c', Repair.run m ops = .ok (os, m') ∧ Repair.Steps c ops os c' ∧ Repr m' c' := by
  induction ops generalizing m c with
  | nil => exact ⟨_, _, _, rfl, ⟨rfl, rfl⟩, h⟩
  | cons op ops ih =>
    obtain ⟨o, m₁, c₁, e, s, h₁⟩ := Repair.exec_simulates h (hs op List.mem_cons_self)
    obtain ⟨os, m', c', e', s', h'⟩ := ih h₁ fun op h => hs op (List.mem_cons_of_mem _ h)
    exact ⟨_, m', c', by simp only [Repair.run, e, e', bind, Except.bind, pure, Except.pure], ⟨o, os, c₁, rfl, s, s'⟩, h'⟩

/-- C148: with the repairs of C135, every history of calls goes through without a panic, whatever the items, the hash values and the table are, and does what is documented, call by
call; the map at the end holds what the documentation says, and its observers answer accordingly.  The only condition left is that `Clone` of an item gives an equal item. -/
theorem C148_documented (hb : BuildHasher L R) (n : Nat) (ops : List (Op L R)) (hs : ∀ op ∈ ops, op.LawfulClone) :
    ∃ os m' c', Repair.run (withCapacityAndHasher n hb) ops = .ok (os, m') ∧ Repair.Steps GroupSpec.empty ops os c' ∧ Shows m' c' := by
  obtain ⟨os, m', c', e, s, h'⟩ := Repair.run_simulates (withCapacity_repr n hb) hs
  exact ⟨os, m', c', e, s, h'.shows⟩

/-- C148: the calls of the crate go on working on the maps that the repaired calls produce. -/
theorem C148_usable (hb : BuildHasher L R) (n : Nat) (ops : List (Op L R)) (hs : ∀ op ∈ ops, op.LawfulClone) {os m'}
    (e : Repair.run (withCapacityAndHasher n hb) ops = .ok (os, m')) : ∃ c', Repair.Steps GroupSpec.empty ops os c' ∧ UsableAs m' c' := by
  obtain ⟨os', m'', c', e', s, h'⟩ := Repair.run_simulates (withCapacity_repr n hb) hs
  rw [e] at e'; cases e'
  exact ⟨c', s, h'.usable⟩

/-- a history with much of what goes wrong in the crate, all hashes equal: a pair inserted twice (C62), swaps of right items with a group, onto a new item and onto one that is
there (C66, C67), a retain that should keep everything (C74) -/
example : ∃ os m' c', Repair.run (withCapacityAndHasher 0 constHash) [.insert 1 10, .insert 1 10, .insert 2 20, .swapRight 10 30, .getRight 1, .swapRightRemove 30 20,
      .arePaired 1 20, .containsLeft 2, .retainPaired Unit (fun _ _ _ => (true, ())) (), .getRight 1] = .ok (os, m') ∧
    os = [.unit, .unit, .unit, .unit, .right (some 30), .right (some 30), .bool true, .bool false, .unit, .right (some 20)] ∧ Shows m' c' := by
  obtain ⟨os, m', c', e, s, h⟩ := C148_documented constHash 0
    ([.insert 1 10, .insert 1 10, .insert 2 20, .swapRight 10 30, .getRight 1, .swapRightRemove 30 20,
      .arePaired 1 20, .containsLeft 2, .retainPaired Unit (fun _ _ _ => (true, ())) (), .getRight 1] : List (Op Nat Nat)) (by simp [Op.LawfulClone])
  refine ⟨os, m', c', e, ?_, h⟩
  obtain ⟨_, _, _, rfl, ⟨rfl, rfl⟩, _, _, _, rfl, ⟨rfl, rfl⟩, _, _, _, rfl, ⟨rfl, rfl⟩, _, _, _, rfl, ⟨rfl, rfl⟩, _, _, _, rfl, ⟨rfl, rfl⟩,
    _, _, _, rfl, ⟨rfl, rfl⟩, _, _, _, rfl, ⟨rfl, rfl⟩, _, _, _, rfl, ⟨rfl, rfl⟩, _, _, _, rfl, ⟨d, hd, rfl, rfl⟩, _, _, _, rfl, ⟨rfl, rfl⟩, rfl, rfl⟩ := s
  have : d = [(1, 20)] := List.perm_singleton.1 hd
  subst this
  rfl

/-! ### the results do not depend on hashes -/

theorem Repair.step_det {op : Op L R} (hd : OrderFree op) {o o' : Out L R} {c₁ c₂ : Contents L R}
    (h : Repair.Step c op o c₁) (h' : Repair.Step c op o' c₂) : SameOut o o' ∧ c₁.Same c₂ := by
  have key : OrderFree op → GroupMap.Step c op o c₁ → GroupMap.Step c op o' c₂ → _ := fun hd => GroupSpec.step_det hd
  cases op
  case swapRight | swapRightRemove =>
    obtain ⟨rfl, rfl⟩ := h; obtain ⟨rfl, rfl⟩ := h'
    exact ⟨SameOut.refl _, .refl _⟩
  case retainPaired σ f s =>
    obtain ⟨g, hg⟩ := hd
    obtain ⟨d, hd, rfl, rfl⟩ := h; obtain ⟨d', hd', rfl, rfl⟩ := h'
    refine ⟨SameOut.refl _, .refl _, ?_⟩
    rw [(CycleSpec.split_pure hg d s).1, (CycleSpec.split_pure hg d' s).1]
    exact (hd.trans hd'.symm).filter _
  case retainUnpaired σ f s =>
    obtain ⟨g, hg⟩ := hd
    obtain ⟨d, hd, rfl, rfl⟩ := h; obtain ⟨d', hd', rfl, rfl⟩ := h'
    refine ⟨SameOut.refl _, ?_, .refl _⟩
    simp only
    rw [(CycleSpec.split_pure hg d s).1, (CycleSpec.split_pure hg d' s).1]
    exact ((hd.trans hd'.symm).filter _).append_right _
  all_goals exact key hd h h'

omit [RawImpl] [LawfulRaw] in
/-- C148: and the results do not depend on the hash values or the table (visited items up to order), as C79 has it in full: no condition on the history is left here either,
except that closures answer by their argument alone. -/
theorem C148_hash_independent (I₁ I₂ : RawImpl) (hI₁ : @LawfulRaw I₁) (hI₂ : @LawfulRaw I₂) (hb₁ hb₂ : BuildHasher L R)
    (ops : List (Op L R)) (hs : ∀ op ∈ ops, op.LawfulClone) (ho : ∀ op ∈ ops, OrderFree op) :
    ∃ os₁ m₁ os₂ m₂, @Repair.run I₁ L R _ _ (@withHasher I₁ L R _ _ hb₁) ops = .ok (os₁, m₁) ∧
      @Repair.run I₂ L R _ _ (@withHasher I₂ L R _ _ hb₂) ops = .ok (os₂, m₂) ∧ os₁.length = os₂.length ∧
      (∀ p ∈ os₁.zip os₂, SameOut p.1 p.2) ∧ ∃ c, @Shows I₁ L R _ _ m₁ c ∧ @Shows I₂ L R _ _ m₂ c := by
  suffices key : ∀ (ops : List (Op L R)) (m₁ m₂ : GroupMap L R) (c : Contents L R), Repr m₁ c → Repr m₂ c →
      (∀ op ∈ ops, op.LawfulClone) → (∀ op ∈ ops, OrderFree op) →
      ∃ os₁ m₁' os₂ m₂', @Repair.run I₁ L R _ _ m₁ ops = .ok (os₁, m₁') ∧ @Repair.run I₂ L R _ _ m₂ ops = .ok (os₂, m₂') ∧
        os₁.length = os₂.length ∧ (∀ p ∈ os₁.zip os₂, SameOut p.1 p.2) ∧ ∃ c, Repr m₁' c ∧ Repr m₂' c by
    obtain ⟨os₁, m₁, os₂, m₂, e₁, e₂, hl, hz, c, r₁, r₂⟩ := key ops (@withHasher I₁ L R _ _ hb₁) (@withHasher I₂ L R _ _ hb₂) _
      (@withHasher_repr I₁ hI₁ L R _ _ _ _ _ hb₁) (@withHasher_repr I₂ hI₂ L R _ _ _ _ _ hb₂) hs ho
    exact ⟨os₁, m₁, os₂, m₂, e₁, e₂, hl, hz, c, @ReprG.shows I₁ hI₁ _ _ _ _ _ _ _ _ r₁, @ReprG.shows I₂ hI₂ _ _ _ _ _ _ _ _ r₂⟩
  intro ops
  induction ops with
  | nil => intro m₁ m₂ c r₁ r₂ _ _; exact ⟨[], m₁, [], m₂, rfl, rfl, rfl, by simp, c, r₁, r₂⟩
  | cons op ops ih =>
    intro m₁ m₂ c r₁ r₂ hs ho
    obtain ⟨o₁, m₁', c₁, e₁, s₁, r₁'⟩ := @Repair.exec_simulates I₁ hI₁ _ _ _ _ _ _ _ _ r₁ op (hs op (by simp))
    obtain ⟨o₂, m₂', c₂, e₂, s₂, r₂'⟩ := @Repair.exec_simulates I₂ hI₂ _ _ _ _ _ _ _ _ r₂ op (hs op (by simp))
    obtain ⟨hso, hperm⟩ := Repair.step_det (ho op (by simp)) s₁ s₂
    obtain ⟨os₁, m₁'', os₂, m₂'', f₁, f₂, hl, hz, c', q₁, q₂⟩ :=
      ih m₁' m₂' c₁ r₁' (r₂'.same ⟨hperm.rights.symm, hperm.pairs.symm⟩) (fun op h => hs op (by simp [h])) (fun op h => ho op (by simp [h]))
    refine ⟨o₁ :: os₁, m₁'', o₂ :: os₂, m₂'', ?_, ?_, by simp [hl], ?_, c', q₁, q₂⟩
    · simp only [Repair.run, e₁, f₁, bind, Except.bind, pure, Except.pure]
    · simp only [Repair.run, e₂, f₂, bind, Except.bind, pure, Except.pure]
    · intro p hp
      rw [List.zip_cons_cons, List.mem_cons] at hp
      rcases hp with rfl | hp
      · exact hso
      · exact hz p hp

/-- the history of `C79_false`, under two very different hash functions and tables -/
example : let ops : List (Op Nat Nat) := [.insert 1 10, .swapRight 10 20, .getRight 1]
    ∃ os₁ m₁ os₂ m₂, @Repair.run tidyRaw Nat Nat _ _ (@withHasher tidyRaw Nat Nat _ _ spreadHash) ops = .ok (os₁, m₁) ∧
    @Repair.run messyRaw Nat Nat _ _ (@withHasher messyRaw Nat Nat _ _ constHash) ops = .ok (os₂, m₂) ∧
    os₁.length = os₂.length ∧ (∀ p ∈ os₁.zip os₂, SameOut p.1 p.2) ∧
    ∃ c, @Shows tidyRaw Nat Nat _ _ m₁ c ∧ @Shows messyRaw Nat Nat _ _ m₂ c :=
  C148_hash_independent tidyRaw messyRaw tidyRaw_lawful messyRaw_lawful spreadHash constHash
    [.insert 1 10, .swapRight 10 20, .getRight 1] (by simp [Op.LawfulClone]) (by simp [OrderFree])

end Verif.GroupMap
