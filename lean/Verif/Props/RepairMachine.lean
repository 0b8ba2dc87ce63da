import Verif.CycleMap.RepairMachine
import Verif.Props.Repair
/-! Property C148 (with RepairMachinePartial and RepairMachineGroup): the repaired maps do what is documented, whatever is called. -/
set_option linter.unusedSectionVars false
set_option linter.unusedSimpArgs false
namespace Verif.CycleMap
open CycleSpec OptionalPair Demo

variable [RawImpl] [LawfulRaw] {L R : Type} [BEq L] [BEq R] [EquivBEq L] [EquivBEq R]
variable {m : CycleMap L R} {c : List (L × R)}

/-- what `insert` hands back -/
theorem insert_fst (h : OneToOne c) (l : L) (r : R) :
    (CycleSpec.insert c l r).1 = ofPair (c.find? fun p => l == p.1, c.find? fun p => r == p.2 && !(l == p.1)) := by
  rw [CycleSpec.insert, ← findR_eraseL h, findR, eraseL, List.find?_filter]
  refine congrArg (fun x => ofPair (_, List.find? x c)) (funext fun p => ?_)
  cases l == p.1 <;> cases r == p.2 <;> rfl

theorem Repair.exec_simulates (h : Repr m c) {op : Op L R} (hs : op.LawfulClone) :
    ∃ o m' c', Repair.exec m op = .ok (o, m') ∧ Repair.Step c op o c' ∧ Repr m' c' := by
  have hL : ∀ l, m.containsLeft l = c.any fun p => l == p.1 := h.shows.containsLeft
  have hR : ∀ r, m.containsRight r = c.any fun p => r == p.2 := h.shows.containsRight
  have hL' : ∀ l, (m.left.get (m.hb.hl l) (equivalentKey l)).isSome = c.any fun p => l == p.1 := fun l => by
    rw [findL_isSome h, findL_isSome_eq]
  have hR' : ∀ r, (m.right.get (m.hb.hr r) (equivalentKey r)).isSome = c.any fun p => r == p.2 := fun r => by
    rw [findR_isSome h, findR_isSome_eq]
  have key : Safe c op → _ := fun hs => CycleMap.exec_simulates h hs
  cases op
  case swapLeft old new =>
    simp only [Repair.exec, Repair.swapLeft, Repair.Step, hL]
    cases c.any fun p => old == p.1
    · exact ⟨_, _, _, rfl, ⟨rfl, rfl⟩, h⟩
    · exact CycleMap.exec_simulates h (op := .swapLeft old new) trivial
  case swapRight old new =>
    simp only [Repair.exec, Repair.swapRight, Repair.Step, hR]
    cases c.any fun p => old == p.2
    · exact ⟨_, _, _, rfl, ⟨rfl, rfl⟩, h⟩
    · exact CycleMap.exec_simulates h (op := .swapRight old new) trivial
  case swapLeftOrInsert old new r =>
    simp only [Repair.exec, Repair.swapLeftOrInsert, Repair.Step, hL']
    cases c.any fun p => old == p.1
    · obtain ⟨m', e, h', -⟩ := insert_refines h new r
      rw [insert_fst h.oneToOne] at e
      refine ⟨_, m', _, ?_, ⟨rfl, rfl⟩, h'⟩
      simp only [e, bind, Except.bind, Bool.false_eq_true, if_false]
      cases c.find? (fun p => new == p.1) <;> cases c.find? (fun p => r == p.2 && !(new == p.1)) <;> rfl
    · exact CycleMap.exec_simulates h (op := .swapLeft old new) trivial
  case swapRightOrInsert old new l =>
    simp only [Repair.exec, Repair.swapRightOrInsert, Repair.Step, hR']
    cases c.any fun p => old == p.2
    · obtain ⟨m', e, h', -⟩ := insert_refines h l new
      rw [insert_fst h.oneToOne] at e
      refine ⟨_, m', _, ?_, ⟨rfl, rfl⟩, h'⟩
      simp only [e, bind, Except.bind, Bool.false_eq_true, if_false]
      cases c.find? (fun p => l == p.1) <;> cases c.find? (fun p => new == p.2 && !(l == p.1)) <;> rfl
    · exact CycleMap.exec_simulates h (op := .swapRight old new) trivial
  case drain n =>
    obtain ⟨d, m', hp, e, -, -, hl, -⟩ := drainTake_refines h n
    refine ⟨_, { m' with right := m'.right.clear }, _, by simp only [Repair.exec, Repair.drainTake, e]; rfl, ⟨d, hp, rfl, rfl⟩,
      [], ⟨by simp [hl], by simp [RawTable.clear_entries], by simp, by simp⟩, by simp⟩
  all_goals exact key hs

theorem Repair.run_simulates (h : Repr m c) {ops : List (Op L R)} (hs : ∀ op ∈ ops, op.LawfulClone) :
    ∃ os m' c', Repair.run m ops = .ok (os, m') ∧ Repair.Steps c ops os c' ∧ Repr m' c' := by
  induction ops generalizing m c with
  | nil => exact ⟨_, _, _, rfl, ⟨rfl, rfl⟩, h⟩
  | cons op ops ih =>
    obtain ⟨o, m₁, c₁, e, s, h₁⟩ := Repair.exec_simulates h (hs op List.mem_cons_self)
    obtain ⟨os, m', c', e', s', h'⟩ := ih h₁ fun op h => hs op (List.mem_cons_of_mem _ h)
    exact ⟨_, m', c', by simp only [Repair.run, e, e', bind, Except.bind, pure, Except.pure], ⟨o, os, c₁, rfl, s, s'⟩, h'⟩

/-- C148: with the repairs of C133, every history of calls goes through without a panic, whatever the items, the hash values and the table are, and does what is documented, call by
call; the map at the end holds what the documentation says, and all its calls answer accordingly.  The only condition left is that `Clone` of an item gives an equal item. -/
theorem C148_documented (hb : BuildHasher L R) (n : Nat) (ops : List (Op L R)) (hs : ∀ op ∈ ops, op.LawfulClone) :
    ∃ os m' c', Repair.run (withCapacityAndHasher n hb) ops = .ok (os, m') ∧ Repair.Steps [] ops os c' ∧ Shows m' c' := by
  obtain ⟨os, m', c', e, s, h'⟩ := Repair.run_simulates (withCapacity_repr n hb) hs
  exact ⟨os, m', c', e, s, h'.shows⟩

/-- C148: the maps that the repaired calls produce are as good as those the calls of C133 start from: the calls of the crate go on working on them. -/
theorem C148_usable (hb : BuildHasher L R) (n : Nat) (ops : List (Op L R)) (hs : ∀ op ∈ ops, op.LawfulClone) {os m'}
    (e : Repair.run (withCapacityAndHasher n hb) ops = .ok (os, m')) : ∃ c', Repair.Steps [] ops os c' ∧ UsableAs m' c' := by
  obtain ⟨os', m'', c', e', s, h'⟩ := Repair.run_simulates (withCapacity_repr n hb) hs
  rw [e] at e'; cases e'
  exact ⟨c', s, h'.usable⟩

/-- a history with all of what goes wrong in the crate: a swap of an absent item (C13), `swap_right_or_insert` that panics (C18), an early-dropped drain (C21) -/
example : ∃ os m' c', Repair.run (withCapacityAndHasher 0 constHash) [.insert 1 10, .insert 2 20, .swapLeft 7 2, .swapRightOrInsert 70 20 1, .len, .drain 0, .insert 5 20] =
      .ok (os, m') ∧
    os = [.inserted neither, .inserted neither, .swappedLeft neither, .swappedRight (someBoth 20 (1, 10)), .nat 1, .pairs [], .inserted neither] ∧ c' = [(5, 20)] ∧
    Shows m' c' := by
  obtain ⟨os, m', c', e, s, h⟩ := C148_documented constHash 0
    ([.insert 1 10, .insert 2 20, .swapLeft 7 2, .swapRightOrInsert 70 20 1, .len, .drain 0, .insert 5 20] : List (Op Nat Nat)) (by simp [Op.LawfulClone])
  refine ⟨os, m', c', e, ?_, ?_, h⟩ <;>
  · obtain ⟨_, _, _, rfl, ⟨rfl, rfl⟩, _, _, _, rfl, ⟨rfl, rfl⟩, _, _, _, rfl, ⟨rfl, rfl⟩, _, _, _, rfl, ⟨rfl, rfl⟩, _, _, _, rfl, ⟨rfl, rfl⟩,
      _, _, _, rfl, ⟨_, _, rfl, rfl⟩, _, _, _, rfl, ⟨rfl, rfl⟩, rfl, rfl⟩ := s
    rfl

/-- calls whose documented result does not depend on the order in which pairs are visited -/
def Repair.OrderFree : Op L R → Prop
  | .drain n => n = 0
  | op => CycleSpec.OrderFree op

theorem Repair.step_det {op : Op L R} (hd : Repair.OrderFree op) {o o' : Out L R} {c₁ c₂ : List (L × R)}
    (h : Repair.Step c op o c₁) (h' : Repair.Step c op o' c₂) : SameOut o o' ∧ c₁.Perm c₂ := by
  have key : CycleSpec.OrderFree op → CycleMap.Step c op o c₁ → CycleMap.Step c op o' c₂ → _ := fun hd => CycleSpec.step_det hd
  cases op
  case swapLeft | swapRight =>
    simp only [Repair.Step] at h h'
    split at h
    · rename_i hc; rw [if_pos hc] at h'; exact CycleSpec.step_det (by trivial) h h'
    · rename_i hc; rw [if_neg hc] at h'
      obtain ⟨rfl, rfl⟩ := h; obtain ⟨rfl, rfl⟩ := h'
      exact ⟨.refl _, .refl _⟩
  case swapLeftOrInsert old new r =>
    simp only [Repair.Step] at h h'
    split at h
    · rename_i hc; rw [if_pos hc] at h'; exact CycleSpec.step_det (op := .swapLeft old new) trivial h h'
    · rename_i hc; rw [if_neg hc] at h'
      obtain ⟨rfl, rfl⟩ := h; obtain ⟨rfl, rfl⟩ := h'
      exact ⟨.refl _, .refl _⟩
  case swapRightOrInsert old new l =>
    simp only [Repair.Step] at h h'
    split at h
    · rename_i hc; rw [if_pos hc] at h'; exact CycleSpec.step_det (op := .swapRight old new) trivial h h'
    · rename_i hc; rw [if_neg hc] at h'
      obtain ⟨rfl, rfl⟩ := h; obtain ⟨rfl, rfl⟩ := h'
      exact ⟨.refl _, .refl _⟩
  case drain n =>
    obtain rfl : n = 0 := hd
    obtain ⟨d, -, rfl, rfl⟩ := h; obtain ⟨d', -, rfl, rfl⟩ := h'
    exact ⟨.refl _, .refl _⟩
  all_goals exact key hd h h'

omit [RawImpl] [LawfulRaw] in
/-- C148: and the results do not depend on the hash values or the table (visited items up to order): no condition on the history is left here either, except that closures answer
by their argument alone. -/
theorem C148_hash_independent (I₁ I₂ : RawImpl) (hI₁ : @LawfulRaw I₁) (hI₂ : @LawfulRaw I₂) (hb₁ hb₂ : BuildHasher L R)
    (ops : List (Op L R)) (hs : ∀ op ∈ ops, op.LawfulClone) (ho : ∀ op ∈ ops, Repair.OrderFree op) :
    ∃ os₁ m₁ os₂ m₂, @Repair.run I₁ L R _ _ (@withHasher I₁ L R _ _ hb₁) ops = .ok (os₁, m₁) ∧
      @Repair.run I₂ L R _ _ (@withHasher I₂ L R _ _ hb₂) ops = .ok (os₂, m₂) ∧ os₁.length = os₂.length ∧
      (∀ p ∈ os₁.zip os₂, SameOut p.1 p.2) ∧ ∃ c, @Shows I₁ L R _ _ m₁ c ∧ @Shows I₂ L R _ _ m₂ c := by
  suffices key : ∀ (ops : List (Op L R)) (m₁ m₂ : CycleMap L R) (c : List (L × R)), Repr m₁ c → Repr m₂ c →
      (∀ op ∈ ops, op.LawfulClone) → (∀ op ∈ ops, Repair.OrderFree op) →
      ∃ os₁ m₁' os₂ m₂', @Repair.run I₁ L R _ _ m₁ ops = .ok (os₁, m₁') ∧ @Repair.run I₂ L R _ _ m₂ ops = .ok (os₂, m₂') ∧
        os₁.length = os₂.length ∧ (∀ p ∈ os₁.zip os₂, SameOut p.1 p.2) ∧ ∃ c, Repr m₁' c ∧ Repr m₂' c by
    obtain ⟨os₁, m₁, os₂, m₂, e₁, e₂, hl, hz, c, r₁, r₂⟩ := key ops _ _ []
      (@withHasher_repr I₁ hI₁ L R _ _ _ _ hb₁) (@withHasher_repr I₂ hI₂ L R _ _ _ _ hb₂) hs ho
    exact ⟨os₁, m₁, os₂, m₂, e₁, e₂, hl, hz, c, @Repr.shows I₁ hI₁ _ _ _ _ _ _ _ _ r₁, @Repr.shows I₂ hI₂ _ _ _ _ _ _ _ _ r₂⟩
  intro ops
  induction ops with
  | nil => intro m₁ m₂ c r₁ r₂ _ _; exact ⟨[], m₁, [], m₂, rfl, rfl, rfl, by simp, c, r₁, r₂⟩
  | cons op ops ih =>
    intro m₁ m₂ c r₁ r₂ hs ho
    obtain ⟨o₁, m₁', c₁, e₁, s₁, r₁'⟩ := @Repair.exec_simulates I₁ hI₁ _ _ _ _ _ _ _ _ r₁ op (hs op (by simp))
    obtain ⟨o₂, m₂', c₂, e₂, s₂, r₂'⟩ := @Repair.exec_simulates I₂ hI₂ _ _ _ _ _ _ _ _ r₂ op (hs op (by simp))
    obtain ⟨hso, hperm⟩ := Repair.step_det (ho op (by simp)) s₁ s₂
    obtain ⟨os₁, m₁'', os₂, m₂'', f₁, f₂, hl, hz, c', q₁, q₂⟩ :=
      ih m₁' m₂' c₁ r₁' (@Repr.perm I₂ hI₂ _ _ _ _ _ _ _ _ _ r₂' hperm.symm) (fun op h => hs op (by simp [h])) (fun op h => ho op (by simp [h]))
    refine ⟨o₁ :: os₁, m₁'', o₂ :: os₂, m₂'', ?_, ?_, by simp [hl], ?_, c', q₁, q₂⟩
    · simp only [Repair.run, e₁, f₁, bind, Except.bind, pure, Except.pure]
    · simp only [Repair.run, e₂, f₂, bind, Except.bind, pure, Except.pure]
    · intro p hp
      rw [List.zip_cons_cons, List.mem_cons] at hp
      rcases hp with rfl | hp
      · exact hso
      · exact hz p hp

/-- a history that is not safe in the crate (C18, C21), under two very different hash functions and tables -/
example : let ops : List (Op Nat Nat) := [.insert 1 10, .insert 2 20, .swapRightOrInsert 70 20 1, .drain 0, .insert 2 10, .iter]
    ∃ os₁ m₁ os₂ m₂, @Repair.run tidyRaw Nat Nat _ _ (@withHasher tidyRaw Nat Nat _ _ spreadHash) ops = .ok (os₁, m₁) ∧
    @Repair.run messyRaw Nat Nat _ _ (@withHasher messyRaw Nat Nat _ _ constHash) ops = .ok (os₂, m₂) ∧
    os₁.length = os₂.length ∧ (∀ p ∈ os₁.zip os₂, SameOut p.1 p.2) ∧
    ∃ c, @Shows tidyRaw Nat Nat _ _ m₁ c ∧ @Shows messyRaw Nat Nat _ _ m₂ c :=
  C148_hash_independent tidyRaw messyRaw tidyRaw_lawful messyRaw_lawful spreadHash constHash
    [.insert 1 10, .insert 2 20, .swapRightOrInsert 70 20 1, .drain 0, .insert 2 10, .iter] (by simp [Op.LawfulClone])
    (by simp [Repair.OrderFree, OrderFree])

end Verif.CycleMap
