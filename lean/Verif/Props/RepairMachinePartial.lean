import Verif.PartialMap.RepairMachine
import Verif.Props.RepairPartial
/-! Property C148 for `PartialCycleMap`: with the repairs of C134 it does what is documented, whatever is called. -/
set_option linter.unusedSectionVars false
set_option linter.unusedSimpArgs false
namespace Verif.PartialMap
open PartialSpec OptionalPair Demo
open CycleSpec (split)

variable [RawImpl] [LawfulRaw] {L R : Type} [BEq L] [BEq R] [EquivBEq L] [EquivBEq R]
variable {m : PartialMap L R} {c : List (OptionalPair L R)}

/-- the second entry that `insert` hands back -/
theorem insert_second (ho : OneToOne c) (l : L) (r : R) : (if hasPair c l r then neither else (findR c r).getD neither) =
    (c.find? fun e => hasR r e && !hasL l e).getD neither := by
  cases hp : hasPair c l r with
  | true =>
    obtain ⟨e, he, hb⟩ := List.any_eq_true.1 hp
    obtain ⟨h1, h2⟩ := Bool.and_eq_true_iff.1 hb
    rw [List.find?_eq_none.2 fun x hx hb => ?_]
    · rfl
    obtain ⟨b1, b2⟩ := Bool.and_eq_true_iff.1 hb
    have h3 := mem_findR ho he (r := r) h2
    rw [mem_findR ho hx (r := r) b1] at h3
    cases h3
    simp [h1] at b2
  | false =>
    rw [if_neg (by simp), findR]
    congr 1
    replace hp := List.any_eq_false.1 hp
    clear ho
    induction c with
    | nil => rfl
    | cons e c ih =>
      have := hp e (by simp)
      rw [List.find?_cons, List.find?_cons, ih fun x hx => hp x (List.mem_cons_of_mem _ hx)]
      cases h1 : hasL l e <;> cases h2 : hasR r e <;> simp_all

theorem Repair.exec_simulates (h : Repr m c) {op : Op L R} (hs : op.LawfulClone) :
    ∃ o m' c', Repair.exec m op = .ok (o, m') ∧ Repair.Step c op o c' ∧ Repr m' c' := by
  have hL : ∀ l, m.containsLeft l = c.any (hasL l) := h.shows.containsLeft
  have hR : ∀ r, m.containsRight r = c.any (hasR r) := h.shows.containsRight
  have hL' : ∀ l, (m.left.get (m.hb.hl l) (equivalentKey l)).isSome = c.any (hasL l) := hL
  have hR' : ∀ r, (m.right.get (m.hb.hr r) (equivalentKey r)).isSome = c.any (hasR r) := hR
  have nn : ∀ p : OptionalPair L R → Bool, c.find? p ≠ some neither := fun p hp => h.oneToOne.2 (List.mem_of_find?_eq_some hp)
  have orig : Safe m.hb c op → ∃ o m' c', m.exec op = .ok (o, m') ∧ PartialMap.Step c op o c' ∧ Repr m' c' := fun hs => by
    obtain ⟨o, m', c', e, s, h', -⟩ := PartialMap.exec_simulates h hs
    exact ⟨o, m', c', e, s, h'⟩
  cases op
  case unpair l r =>
    cases hp : hasPair c l r with
    | true =>
      obtain ⟨o, m', c', e, s, h'⟩ := orig fun _ _ _ _ _ _ _ _ _ _ => hp
      refine ⟨o, m', c', ?_, s, h'⟩
      simp only [Repair.exec, Repair.unpair, h.shows.arePaired, hp]; exact e
    | false =>
      refine ⟨_, m, _, ?_, ⟨rfl, rfl⟩, ?_⟩
      · simp only [Repair.exec, Repair.unpair, h.shows.arePaired, hp, PartialSpec.unpair]; rfl
      · simp only [PartialSpec.unpair, hp]; exact h
  case swapLeft old new =>
    simp only [Repair.exec, Repair.swapLeft, Repair.Step, hL]
    cases c.any (hasL old)
    · exact ⟨_, _, _, rfl, ⟨rfl, rfl⟩, h⟩
    · exact orig trivial
  case swapRight old new =>
    simp only [Repair.exec, Repair.swapRight, Repair.Step, hR]
    cases c.any (hasR old)
    · exact ⟨_, _, _, rfl, ⟨rfl, rfl⟩, h⟩
    · exact orig trivial
  case swapLeftOrInsert old new r =>
    simp only [Repair.exec, Repair.swapLeftOrInsert, Repair.Step, hL']
    cases c.any (hasL old)
    · obtain ⟨m', e, h', -⟩ := insert_refines h new r
      simp only [PartialSpec.insert, insert_second h.oneToOne] at e
      refine ⟨_, m', _, ?_, ⟨rfl, rfl⟩, h'⟩
      have n1 := nn (hasL new)
      have n2 := nn fun e => hasR r e && !hasL new e
      simp only [e, bind, Except.bind, Bool.false_eq_true, if_false, findL]
      generalize c.find? (hasL new) = x at n1 ⊢
      generalize (c.find? fun e => hasR r e && !hasL new e) = y at n2 ⊢
      rcases x with _ | _ | _ | _ | _ <;> rcases y with _ | _ | _ | _ | _ <;> first | rfl | exact absurd rfl n1 | exact absurd rfl n2
    · obtain ⟨o, m', c', e, s, h', -⟩ := PartialMap.exec_simulates h (op := .swapLeft old new) trivial
      exact ⟨o, m', c', e, s, h'⟩
  case swapRightOrInsert old new l =>
    simp only [Repair.exec, Repair.swapRightOrInsert, Repair.Step, hR']
    cases c.any (hasR old)
    · obtain ⟨m', e, h', -⟩ := insert_refines h l new
      simp only [PartialSpec.insert, insert_second h.oneToOne] at e
      refine ⟨_, m', _, ?_, ⟨rfl, rfl⟩, h'⟩
      have n1 := nn (hasL l)
      have n2 := nn fun e => hasR new e && !hasL l e
      simp only [e, bind, Except.bind, Bool.false_eq_true, if_false, findL]
      generalize c.find? (hasL l) = x at n1 ⊢
      generalize (c.find? fun e => hasR new e && !hasL l e) = y at n2 ⊢
      rcases x with _ | _ | _ | _ | _ <;> rcases y with _ | _ | _ | _ | _ <;> first | rfl | exact absurd rfl n1 | exact absurd rfl n2
    · obtain ⟨o, m', c', e, s, h', -⟩ := PartialMap.exec_simulates h (op := .swapRight old new) trivial
      exact ⟨o, m', c', e, s, h'⟩
  case iter => exact ⟨_, m, c, rfl, ⟨_, repair_iterList h, rfl, rfl⟩, h⟩
  case drain n =>
    obtain ⟨d, m', hp, e, h'⟩ := drain_repair h n
    exact ⟨_, m', _, by simp only [Repair.exec, e]; rfl, ⟨d, hp, rfl, rfl⟩, h'⟩
  case drainFilter σ f s n =>
    obtain ⟨d, m', hp, e, h'⟩ := drainFilter_repair h f s n
    exact ⟨_, m', _, by simp only [Repair.exec, e]; rfl, ⟨d, hp, rfl, rfl⟩, h'⟩
  case retain σ f s =>
    obtain ⟨d, m', hp, e, h'⟩ := retain_repair h f s
    exact ⟨_, m', _, by simp only [Repair.exec, e]; rfl, ⟨d, hp, rfl, rfl⟩, h'⟩
  case retainPaired σ f s =>
    obtain ⟨d, m', hp, e, h'⟩ := retainPaired_repair h f s
    exact ⟨_, m', _, by simp only [Repair.exec, e]; rfl, ⟨d, hp, rfl, rfl⟩, h'⟩
  case retainUnpaired σ f s =>
    obtain ⟨d, m', hp, e, h'⟩ := retainUnpaired_repair h f s
    exact ⟨_, m', _, by simp only [Repair.exec, e]; rfl, ⟨d, hp, rfl, rfl⟩, h'⟩
  all_goals exact orig hs

theorem Repair.run_simulates (h : Repr m c) {ops : List (Op L R)} (hs : ∀ op ∈ ops, op.LawfulClone) :
    ∃ os m' c', Repair.run m ops = .ok (os, m') ∧ Repair.Steps c ops os c' ∧ Repr m' c' := by
  induction ops generalizing m c with
  | nil => exact ⟨_, _, _, rfl, ⟨rfl, rfl⟩, h⟩
  | cons op ops ih =>
    obtain ⟨o, m₁, c₁, e, s, h₁⟩ := Repair.exec_simulates h (hs op List.mem_cons_self)
    obtain ⟨os, m', c', e', s', h'⟩ := ih h₁ fun op h => hs op (List.mem_cons_of_mem _ h)
    exact ⟨_, m', c', by simp only [Repair.run, e, e', bind, Except.bind, pure, Except.pure], ⟨o, os, c₁, rfl, s, s'⟩, h'⟩

/-- C148: with the repairs of C134, every history of calls goes through without a panic, whatever the items, the hash values and the table are, and does what is documented, call by
call; the map at the end holds what the documentation says, and its observers answer accordingly.  The only condition left is that `Clone` of an item gives an equal item. -/
theorem C148_documented (hb : BuildHasher L R) (n : Nat) (ops : List (Op L R)) (hs : ∀ op ∈ ops, op.LawfulClone) :
    ∃ os m' c', Repair.run (withCapacityAndHasher n hb) ops = .ok (os, m') ∧ Repair.Steps [] ops os c' ∧ Shows m' c' ∧ (Repair.iterList m').Perm c' := by
  obtain ⟨os, m', c', e, s, h'⟩ := Repair.run_simulates (withCapacity_repr n hb) hs
  exact ⟨os, m', c', e, s, h'.shows, repair_iterList h'⟩

/-- C148: the calls of the crate go on working on the maps that the repaired calls produce. -/
theorem C148_usable (hb : BuildHasher L R) (n : Nat) (ops : List (Op L R)) (hs : ∀ op ∈ ops, op.LawfulClone) {os m'}
    (e : Repair.run (withCapacityAndHasher n hb) ops = .ok (os, m')) : ∃ c', Repair.Steps [] ops os c' ∧ UsableAs m' c' := by
  obtain ⟨os', m'', c', e', s, h'⟩ := Repair.run_simulates (withCapacity_repr n hb) hs
  rw [e] at e'; cases e'
  exact ⟨c', s, h'.usable⟩

/-- a history with much of what goes wrong in the crate, all hashes equal: `unpair` of items that are not partners (C41), a swap of an absent item (C47),
`swap_left_or_insert` that panics (C49), the retains that drop what they should keep (C55) -/
example : ∃ os m' c', Repair.run (withCapacityAndHasher 0 constHash) [.insert 1 10, .insert 2 20, .unpair 1 20, .swapLeft 7 2, .swapLeftOrInsert 7 2 99, .insertRight 30,
      .retainUnpaired Unit (fun _ _ => (true, ())) (), .containsRight 30, .arePaired 1 10] = .ok (os, m') ∧
    os = [.twoEntries (neither, neither), .twoEntries (neither, neither), .bool false, .swappedLeft neither, .swappedLeft (someRight (someBoth 2 20)), .entry neither,
      .unit, .bool true, .bool true] ∧ Shows m' c' := by
  obtain ⟨os, m', c', e, s, h, -⟩ := C148_documented constHash 0
    ([.insert 1 10, .insert 2 20, .unpair 1 20, .swapLeft 7 2, .swapLeftOrInsert 7 2 99, .insertRight 30,
      .retainUnpaired Unit (fun _ _ => (true, ())) (), .containsRight 30, .arePaired 1 10] : List (Op Nat Nat)) (by simp [Op.LawfulClone])
  refine ⟨os, m', c', e, ?_, h⟩
  obtain ⟨_, _, _, rfl, ⟨rfl, rfl⟩, _, _, _, rfl, ⟨rfl, rfl⟩, _, _, _, rfl, ⟨rfl, rfl⟩, _, _, _, rfl, ⟨rfl, rfl⟩, _, _, _, rfl, ⟨rfl, rfl⟩,
    _, _, _, rfl, ⟨rfl, rfl⟩, _, _, _, rfl, ⟨d, hd, rfl, rfl⟩, _, _, _, rfl, ⟨rfl, rfl⟩, _, _, _, rfl, ⟨rfl, rfl⟩, rfl, rfl⟩ := s
  have : d = [someRight 30] := List.perm_singleton.1 hd
  subst this
  rfl

/-! ### the results do not depend on hashes -/

/-- calls whose documented result does not depend on the order in which entries are visited -/
def Repair.OrderFree : Op L R → Prop
  | .drainFilter _ f _ n => Pure f ∧ n = 0
  | op => PartialSpec.OrderFree op

theorem Repair.step_det {op : Op L R} (hd : Repair.OrderFree op) {o o' : Out L R} {c₁ c₂ : List (OptionalPair L R)}
    (h : Repair.Step c op o c₁) (h' : Repair.Step c op o' c₂) : SameOut o o' ∧ c₁.Perm c₂ := by
  have key : PartialSpec.OrderFree op → PartialMap.Step c op o c₁ → PartialMap.Step c op o' c₂ → _ := fun hd => PartialSpec.step_det hd
  cases op
  case swapLeft | swapRight =>
    simp only [Repair.Step] at h h'
    split at h
    · rename_i hc; rw [if_pos hc] at h'; exact key trivial h h'
    · rename_i hc; rw [if_neg hc] at h'
      obtain ⟨rfl, rfl⟩ := h; obtain ⟨rfl, rfl⟩ := h'
      exact ⟨.refl _, .refl _⟩
  case swapLeftOrInsert old new r =>
    simp only [Repair.Step] at h h'
    split at h
    · rename_i hc; rw [if_pos hc] at h'; exact PartialSpec.step_det (op := .swapLeft old new) trivial h h'
    · rename_i hc; rw [if_neg hc] at h'
      obtain ⟨rfl, rfl⟩ := h; obtain ⟨rfl, rfl⟩ := h'
      exact ⟨.refl _, .refl _⟩
  case swapRightOrInsert old new l =>
    simp only [Repair.Step] at h h'
    split at h
    · rename_i hc; rw [if_pos hc] at h'; exact PartialSpec.step_det (op := .swapRight old new) trivial h h'
    · rename_i hc; rw [if_neg hc] at h'
      obtain ⟨rfl, rfl⟩ := h; obtain ⟨rfl, rfl⟩ := h'
      exact ⟨.refl _, .refl _⟩
  case iter =>
    obtain ⟨d, hp, rfl, rfl⟩ := h; obtain ⟨d', hp', rfl, rfl⟩ := h'
    exact ⟨hp.trans hp'.symm, .refl _⟩
  case drain n =>
    obtain rfl : n = 0 := hd
    obtain ⟨d, -, rfl, rfl⟩ := h; obtain ⟨d', -, rfl, rfl⟩ := h'
    exact ⟨.refl _, .refl _⟩
  case drainFilter σ f s n =>
    obtain ⟨⟨g, hg⟩, rfl⟩ := hd
    obtain ⟨d, hp, rfl, rfl⟩ := h; obtain ⟨d', hp', rfl, rfl⟩ := h'
    rw [(CycleSpec.split_pure hg d s).2, (CycleSpec.split_pure hg d' s).2]
    exact ⟨.refl _, (hp.trans hp'.symm).filter _⟩
  case retain σ f s =>
    obtain ⟨g, hg⟩ := hd
    obtain ⟨d, hp, rfl, rfl⟩ := h; obtain ⟨d', hp', rfl, rfl⟩ := h'
    rw [(CycleSpec.split_pure hg d s).1, (CycleSpec.split_pure hg d' s).1]
    exact ⟨.refl _, (hp.trans hp'.symm).filter _⟩
  case retainPaired σ f s =>
    obtain ⟨g, hg⟩ := hd
    obtain ⟨d, hp, rfl, rfl⟩ := h; obtain ⟨d', hp', rfl, rfl⟩ := h'
    rw [(CycleSpec.split_pure (f := fun s (p : L × R) => f s p.1 p.2) hg d s).1, (CycleSpec.split_pure (f := fun s (p : L × R) => f s p.1 p.2) hg d' s).1]
    exact ⟨.refl _, (((hp.trans hp'.symm).filter _).map _).append_right _⟩
  case retainUnpaired σ f s =>
    obtain ⟨g, hg⟩ := hd
    obtain ⟨d, hp, rfl, rfl⟩ := h; obtain ⟨d', hp', rfl, rfl⟩ := h'
    rw [(CycleSpec.split_pure hg d s).1, (CycleSpec.split_pure hg d' s).1]
    exact ⟨.refl _, ((hp.trans hp'.symm).filter _).append_right _⟩
  all_goals exact key hd h h'

omit [RawImpl] [LawfulRaw] in
/-- C148: and the results do not depend on the hash values or the table (visited items up to order), as C59 has it in full: no condition on the history is left here either,
except that closures answer by their argument alone. -/
theorem C148_hash_independent (I₁ I₂ : RawImpl) (hI₁ : @LawfulRaw I₁) (hI₂ : @LawfulRaw I₂) (hb₁ hb₂ : BuildHasher L R)
    (ops : List (Op L R)) (hs : ∀ op ∈ ops, op.LawfulClone) (ho : ∀ op ∈ ops, Repair.OrderFree op) :
    ∃ os₁ m₁ os₂ m₂, @Repair.run I₁ L R _ _ (@withHasher I₁ L R _ _ hb₁) ops = .ok (os₁, m₁) ∧
      @Repair.run I₂ L R _ _ (@withHasher I₂ L R _ _ hb₂) ops = .ok (os₂, m₂) ∧ os₁.length = os₂.length ∧
      (∀ p ∈ os₁.zip os₂, SameOut p.1 p.2) ∧ ∃ c, @Shows I₁ L R _ _ m₁ c ∧ @Shows I₂ L R _ _ m₂ c := by
  suffices key : ∀ (ops : List (Op L R)) (m₁ m₂ : PartialMap L R) (c : List (OptionalPair L R)), Repr m₁ c → Repr m₂ c →
      (∀ op ∈ ops, op.LawfulClone) → (∀ op ∈ ops, Repair.OrderFree op) →
      ∃ os₁ m₁' os₂ m₂', @Repair.run I₁ L R _ _ m₁ ops = .ok (os₁, m₁') ∧ @Repair.run I₂ L R _ _ m₂ ops = .ok (os₂, m₂') ∧
        os₁.length = os₂.length ∧ (∀ p ∈ os₁.zip os₂, SameOut p.1 p.2) ∧ ∃ c, Repr m₁' c ∧ Repr m₂' c by
    obtain ⟨os₁, m₁, os₂, m₂, e₁, e₂, hl, hz, c, r₁, r₂⟩ := key ops _ _ []
      (@withHasher_repr I₁ hI₁ L R _ _ _ _ hb₁) (@withHasher_repr I₂ hI₂ L R _ _ _ _ hb₂) hs ho
    exact ⟨os₁, m₁, os₂, m₂, e₁, e₂, hl, hz, c, @Repr.shows I₁ hI₁ _ _ _ _ _ _ _ _ r₁, @Repr.shows I₂ hI₂ _ _ _ _ _ _ _ _ r₂⟩
  intro ops
  induction ops with
  | nil => intro m₁ m₂ c r₁ r₂ _ _; exact ⟨[], m₁, [], m₂, rfl, rfl, rfl, by simp, c, r₁, r₂⟩
  | cons op ops ih =>
    intro m₁ m₂ c r₁ r₂ hs ho
    obtain ⟨o₁, m₁', c₁, e₁, s₁, r₁'⟩ := @Repair.exec_simulates I₁ hI₁ _ _ _ _ _ _ _ _ r₁ op (hs op (by simp))
    obtain ⟨o₂, m₂', c₂, e₂, s₂, r₂'⟩ := @Repair.exec_simulates I₂ hI₂ _ _ _ _ _ _ _ _ r₂ op (hs op (by simp))
    obtain ⟨hso, hperm⟩ := Repair.step_det (ho op (by simp)) s₁ s₂
    obtain ⟨os₁, m₁'', os₂, m₂'', f₁, f₂, hl, hz, c', q₁, q₂⟩ :=
      ih m₁' m₂' c₁ r₁' (@Repr.perm I₂ hI₂ _ _ _ _ _ _ _ _ _ r₂' hperm.symm) (fun op h => hs op (by simp [h])) (fun op h => ho op (by simp [h]))
    refine ⟨o₁ :: os₁, m₁'', o₂ :: os₂, m₂'', ?_, ?_, by simp [hl], ?_, c', q₁, q₂⟩
    · simp only [Repair.run, e₁, f₁, bind, Except.bind, pure, Except.pure]
    · simp only [Repair.run, e₂, f₂, bind, Except.bind, pure, Except.pure]
    · intro p hp
      rw [List.zip_cons_cons, List.mem_cons] at hp
      rcases hp with rfl | hp
      · exact hso
      · exact hz p hp

/-- the history of `C59_false`, under two very different hash functions and tables -/
example : let ops : List (Op Nat Nat) := [.insert 1 10, .insert 2 20, .unpair 1 20, .iter]
    ∃ os₁ m₁ os₂ m₂, @Repair.run tidyRaw Nat Nat _ _ (@withHasher tidyRaw Nat Nat _ _ spreadHash) ops = .ok (os₁, m₁) ∧
    @Repair.run messyRaw Nat Nat _ _ (@withHasher messyRaw Nat Nat _ _ constHash) ops = .ok (os₂, m₂) ∧
    os₁.length = os₂.length ∧ (∀ p ∈ os₁.zip os₂, SameOut p.1 p.2) ∧
    ∃ c, @Shows tidyRaw Nat Nat _ _ m₁ c ∧ @Shows messyRaw Nat Nat _ _ m₂ c :=
  C148_hash_independent tidyRaw messyRaw tidyRaw_lawful messyRaw_lawful spreadHash constHash
    [.insert 1 10, .insert 2 20, .unpair 1 20, .iter] (by simp [Op.LawfulClone])
    (by simp [Repair.OrderFree, OrderFree])

end Verif.PartialMap
