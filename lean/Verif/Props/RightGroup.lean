import Verif.Props.RepairMachineGroup
import Verif.Props.RightPartial
import Verif.GroupMap.Mend
/-! Property C150 for `GroupMap`: where the crate is right, and nowhere else. -/
set_option linter.unusedSectionVars false
set_option linter.unusedSimpArgs false
namespace Verif.GroupMap
open GroupSpec Demo
open PartialSpec (Pure)
open CycleSpec (split split_pure)

variable [RawImpl] [LawfulRaw] {L R : Type} [BEq L] [BEq R] [EquivBEq L] [EquivBEq R]
variable {m : GroupMap L R} {c : Contents L R}

/-- The situations in which the crate does what is documented.  Off the list are: `insert` of a pair that is there (C62), also as part of `extend` unless a later pair of the same call mends it (`Mends`), a swap of a right item that has
left items, or to another one that is there (C66, C67), `retain_paired` if there are pairs (C74), `retain_unpaired` if there are lone right items (C75), and a `Clone` that does not
clone. -/
def Right (c : Contents L R) : Op L R → Prop
  | .insert l r => ∀ p ∈ c.pairs, (l == p.1) = true → (r == p.2) = false
  | .swapRight old new => (∀ b ∈ c.rights, (old == b) = false) ∨ (∀ p ∈ c.pairs, (old == p.2) = false) ∧ ∀ b ∈ c.rights, (new == b) = false
  | .swapRightRemove old new => (∀ b ∈ c.rights, (old == b) = false) ∨
      (∀ p ∈ c.pairs, (old == p.2) = false) ∧ ((∀ b ∈ c.rights, (new == b) = false) ∨ (old == new) = true)
  | .retainPaired _ _ _ => c.pairs = []
  | .retainUnpaired _ _ _ => ∀ r ∈ c.rights, ∃ p ∈ c.pairs, (r == p.2) = true
  | .extend xs => Mends c [] (xs.map fun p => (some p.1, p.2))
  | .extendOpt xs => Mends c [] xs
  | .clone cl cr => (∀ x, (cl x == x) = true) ∧ (∀ x, (cr x == x) = true)
  | _ => True

omit [RawImpl] [LawfulRaw] [BEq L] [EquivBEq L] [EquivBEq R] in
theorem findR_none_iff {old : R} : findR c old = none ↔ ∀ b ∈ c.rights, (old == b) = false := by
  rw [findR, List.find?_eq_none]; simp

omit [RawImpl] [LawfulRaw] [BEq L] [EquivBEq L] [EquivBEq R] in
theorem noGroup_iff {old : R} : hasGroup c old = false ↔ ∀ p ∈ c.pairs, (old == p.2) = false := by
  rw [hasGroup, List.any_eq_false]; simp

/-- Where the crate is right, it does what is documented. -/
theorem right_simulates (h : Repr m c) {op : Op L R} (hr : Right c op) :
    ∃ o m' c', m.exec op = .ok (o, m') ∧ Repair.Step c op o c' ∧ Repr m' c' := by
  have key : Safe c op → (∀ o c', Step c op o c' → Repair.Step c op o c') →
      ∃ o m' c', m.exec op = .ok (o, m') ∧ Repair.Step c op o c' ∧ Repr m' c' := fun hs k => by
    obtain ⟨o, m', c', e, s, h', -⟩ := exec_simulates h hs
    exact ⟨o, m', c', e, k _ _ s, h'⟩
  have own := h.shows.sound.owned
  cases op
  case insert l r =>
    refine key ?_ fun _ _ h => h
    change hasPair c l r = false
    rw [hasPair, List.any_eq_false]
    intro p hp
    cases hl : l == p.1 with
    | false => simp
    | true => simp [hr p hp hl]
  case swapRight old new =>
    refine key ?_ fun o c' hst => ?_
    · exact hr.imp findR_none_iff.2 fun h => ⟨noGroup_iff.2 h.1, findR_none_iff.2 h.2⟩
    obtain ⟨rfl, rfl⟩ := hst
    refine ⟨rfl, ?_⟩
    by_cases ho : ∀ b ∈ c.rights, (old == b) = false
    · have hp : ∀ p ∈ c.pairs, (old == p.2) = false := fun p hp => ho _ (own p hp)
      rw [no_handover fun p h => hp p (List.mem_filter.1 h).1, List.any_eq_false.2 (by simpa using ho), Bool.false_and, if_neg (by simp),
        GroupSpec.swapRight, findR_none_iff.2 ho]
      rfl
    · obtain ⟨hg, hn⟩ := hr.resolve_left ho
      rw [no_handover fun p h => hg p (List.mem_filter.1 h).1, GroupSpec.swapRight, moveAll, no_handover hg]
      have hne : (c.rights.any (old == ·) && old == new) = false := by
        cases ha : c.rights.any (old == ·) with
        | false => rfl
        | true =>
          obtain ⟨b, hb, hob⟩ := List.any_eq_true.1 ha
          rw [Bool.true_and, BEq.congr_left hob, BEq.comm]; exact hn b hb
      rw [hne, if_neg (by simp), List.filter_eq_self.2 fun b hb => by rw [hn b hb]; rfl,
        List.filter_eq_self.2 fun p hp => by rw [hn _ (own p hp)]; rfl]
      cases hf : findR c old with
      | none => exact absurd (findR_none_iff.1 hf) ho
      | some b => rfl
  case swapRightRemove old new =>
    refine key ?_ fun o c' hst => ?_
    · exact hr.imp findR_none_iff.2 fun h => ⟨noGroup_iff.2 h.1, h.2.imp_left findR_none_iff.2⟩
    obtain ⟨rfl, rfl⟩ := hst
    by_cases ho : ∀ b ∈ c.rights, (old == b) = false
    · have hp : ∀ p ∈ c.pairs, (old == p.2) = false := fun p hp => ho _ (own p hp)
      have hf : c.rights.find? (old == ·) = none := findR_none_iff.2 ho
      refine ⟨by rw [hf, GroupSpec.swapRightRemove, findR_none_iff.2 ho], ?_⟩
      rw [no_handover fun p h => hp p (List.mem_filter.1 h).1, GroupSpec.swapRightRemove, findR_none_iff.2 ho,
        List.filter_congr (l := c.rights) (q := fun b => !(new == b)) fun b hb => by rw [ho b hb]; rfl,
        List.filter_congr (l := c.pairs) (q := fun p => !(new == p.2)) fun p h => by rw [hp p h]; rfl]
      rfl
    · obtain ⟨hg, hn⟩ := hr.resolve_left ho
      have h1 : (c.rights.filter fun b => !(old == b) && !(new == b)) = c.rights.filter fun b => !(old == b) :=
        List.filter_congr fun b hb => by
          rcases hn with hn | hn
          · rw [hn b hb]; simp
          · rw [BEq.congr_left hn, Bool.and_self]
      have h2 : (c.pairs.filter fun p => old == p.2 || !(new == p.2)) = c.pairs := List.filter_eq_self.2 fun p hp => by
        rcases hn with hn | hn
        · rw [hn _ (own p hp)]; simp
        · rw [BEq.congr_left hn, Bool.or_not_self]
      rw [GroupSpec.swapRightRemove]
      cases hf : findR c old with
      | none => exact absurd (findR_none_iff.1 hf) ho
      | some b =>
        have hf' : c.rights.find? (old == ·) = some b := hf
        exact ⟨by rw [hf'], by rw [h1, h2]; rfl⟩
  case retainPaired σ f s =>
    have hr : c.pairs = [] := hr
    refine key (by intro p hp; rw [hr] at hp; cases hp) fun o c' hst => ?_
    obtain ⟨d, h1, rfl, rfl⟩ := hst
    obtain rfl : d = [] := by rw [hr] at h1; exact h1.eq_nil
    exact ⟨[], h1, rfl, rfl⟩
  case retainUnpaired σ f s =>
    refine key trivial fun o c' hst => ?_
    obtain ⟨d, h1, rfl, rfl⟩ := hst
    obtain rfl : d = [] := by
      rw [lone, List.filter_eq_nil_iff.2 fun r hm => by
        obtain ⟨p, hp, hrp⟩ := hr r hm
        have : hasGroup c r = true := List.any_eq_true.2 ⟨p, hp, hrp⟩
        simp [this]] at h1
      exact h1.eq_nil
    exact ⟨[], h1, rfl, rfl⟩
  case extend xs =>
    obtain ⟨m', e, h'⟩ := (extendOpt_right h _).1 hr
    rw [← extend_eq] at e
    exact ⟨.unit, m', _, by simp only [exec, e, bind, Except.bind, pure, Except.pure], ⟨rfl, rfl⟩, h'⟩
  case extendOpt xs =>
    obtain ⟨m', e, h'⟩ := (extendOpt_right h _).1 hr
    exact ⟨.unit, m', _, by simp only [exec, e, bind, Except.bind, pure, Except.pure], ⟨rfl, rfl⟩, h'⟩
  case clone => exact key hr fun _ _ h => h
  all_goals exact key trivial fun _ _ h => h

/-- `swap_right_remove` adds `new` even if an equal item is there. -/
theorem swapRightRemove_duplicates (h : Repr m c) {old : R} (ho : ∃ b ∈ c.rights, (old == b) = true) (new : R) :
    ∃ o m', m.swapRightRemove old new = .ok (o, m') ∧ m'.iterRight.Perm (new :: c.rights.filter fun b => !(old == b)) := by
  obtain ⟨ls, rs, h, hf, ha⟩ := h
  rcases h.wf.casesR old with hn | ⟨y, rs', hq, hr, hn⟩
  · obtain ⟨b, hb, hob⟩ := ho
    have := findR_none_iff.1 (ha.findR_none hn) b hb
    rw [hob] at this; cases this
  have h := h.perm (.refl _) hq
  have ha := ha.perm (.refl _) hq
  obtain ⟨qs, t1, t2, s, e, hqs, e1, p1, p2⟩ := swapRightRemove_raw h hr new
  refine ⟨_, _, e, ?_⟩
  rw [iterRight, RawTable.toList, List.map_map]
  refine (p2.map _).trans ?_
  simp only [List.map_map, List.map_cons]
  refine .cons _ (.trans ?_ (ha.rights.filter fun b => !(old == b)).symm)
  rw [List.map_cons, List.filter_cons_of_neg (by simp [hr]), List.filter_eq_self.2]
  · exact .refl _
  · intro b hb
    obtain ⟨a, ha, rfl⟩ := List.mem_map.1 hb
    simp [hn a ha]

/-- what the caller has to see to: `Clone` gives equal items, and closures answer by their argument alone -/
def Op.Plain : Op L R → Prop
  | .retainPaired _ f _ => Pure fun s (p : L × R) => f s p.1 p.2
  | .retainUnpaired _ f _ => Pure f
  | .clone cl cr => (∀ x, (cl x == x) = true) ∧ (∀ x, (cr x == x) = true)
  | _ => True

/-- C150: the list is exact.  Whatever map the API has produced, whatever the call, the arguments, the hash values and the table: the call does what is documented if *and only if*
the situation is on the list. -/
theorem C150_exact (h : Reachable m) (hc : Shows m c) (op : Op L R) (hl : op.Plain) :
    (∃ o m' c', m.exec op = .ok (o, m') ∧ Repair.Step c op o c' ∧ Shows m' c') ↔ Right c op := by
  have hrep := h.repr_of_shows hc
  have own := hc.sound.owned
  constructor
  · rintro ⟨o, m', c', e, s, hs⟩
    cases op
    case insert l r =>
      intro p hp hlp
      cases hrp : r == p.2 with
      | false => rfl
      | true =>
        have hx : m.arePaired l r = false := by
          refine (C144_insert h hc l r).1.1 ?_
          simp only [exec, bind, Except.bind, pure, Except.pure] at e
          cases e' : m.insert l r with
          | error x => rw [e'] at e; cases e
          | ok m'' => rw [e'] at e; cases e; exact ⟨_, _, rfl, hs⟩
        rw [hc.arePaired, hasPair, List.any_eq_false] at hx
        exact absurd (by simp [hlp, hrp]) (hx p hp)
    case swapRight old new =>
      by_cases ho : ∀ b ∈ c.rights, (old == b) = false
      · exact .inl ho
      refine .inr ?_
      have ho' : m.containsRight old = true := by
        rw [hc.containsRight]; simpa using ho
      obtain ⟨m'', e', hperm, -⟩ := C66_duplicates h hc old new ho'
      simp only [exec, e', bind, Except.bind, pure, Except.pure] at e
      cases e
      obtain ⟨-, rfl⟩ := s
      rw [← hc.containsRight, ho', Bool.true_and] at hs
      have hlen := hperm.symm.trans hs.iterRight
      cases hon : old == new with
      | true =>
        rw [hon, if_pos rfl] at hlen
        have := hlen.length_eq; simp at this
      | false =>
        rw [hon, if_neg (by simp)] at hlen hs
        have hn : ∀ b ∈ c.rights, (new == b) = false := by
          have := hlen.length_eq
          simp only [List.length_cons, Nat.add_right_cancel_iff] at this
          have := List.length_filter_eq_length_iff.1 this.symm
          simpa using this
        rw [List.filter_eq_self.2 fun b hb => by rw [hn b hb]; rfl, List.filter_eq_self.2 fun p hp => by rw [hn _ (own p hp)]; rfl] at hs
        have := ((C144_swap_right h hc old new ho').1 ⟨m', e', hs⟩).1
        rw [hc.isRightPaired] at this
        exact ⟨noGroup_iff.1 this, hn⟩
    case swapRightRemove old new =>
      by_cases ho : ∀ b ∈ c.rights, (old == b) = false
      · exact .inl ho
      refine .inr ?_
      have hex : ∃ b ∈ c.rights, (old == b) = true := by simpa using ho
      obtain ⟨o', m'', e', hperm⟩ := swapRightRemove_duplicates hrep hex new
      simp only [exec, e', bind, Except.bind, pure, Except.pure] at e
      obtain rfl : m'' = m' := (Prod.mk.inj (Except.ok.inj e)).2
      have hn : (∀ b ∈ c.rights, (new == b) = false) ∨ (old == new) = true := by
        cases hon : old == new with
        | true => exact .inr rfl
        | false =>
          refine .inl fun b hb => ?_
          cases hob : old == b with
          | true => rw [← BEq.congr_right hob, BEq.comm]; exact hon
          | false =>
            have hd := ((hperm.symm.trans hs.iterRight).pairwise_iff (fun h => by rw [BEq.comm]; exact h)).2 hs.sound.rights
            exact (List.pairwise_cons.1 hd).1 b (List.mem_filter.2 ⟨hb, by rw [hob]; rfl⟩)
      obtain ⟨b, hb⟩ : ∃ b, findR c old = some b := by
        cases hf : findR c old with
        | none => exact absurd (findR_none_iff.1 hf) ho
        | some b => exact ⟨b, rfl⟩
      have := (C144_swap_right_remove h hc old new b hb (hn.imp_left fun hn => (not_contains hc).2 (findR_none_iff.2 hn))).1.1 ⟨_, _, _, e', hs⟩
      rw [hc.isRightPaired] at this
      exact ⟨noGroup_iff.1 this, hn⟩
    case retainPaired σ f t =>
      obtain ⟨g, hg⟩ := hl
      obtain ⟨d, acc, rej, s', m'', hd, hsp, e', ht, w⟩ := C74_actual h hc f t
      simp only [exec, e', bind, Except.bind, pure, Except.pure] at e
      obtain rfl : m'' = m' := (Prod.mk.inj (Except.ok.inj e)).2
      have k := split_pure (f := fun s (p : L × R) => f s p.1 p.2) hg d t
      rw [hsp] at k
      obtain ⟨k1, k2⟩ : acc = _ ∧ rej = _ := k
      have hno : ∀ p ∈ c.pairs, g p = false := fun p hp => by
        cases hgp : g p with
        | false => rfl
        | true =>
          obtain ⟨ls, e1, -⟩ := hs.getLeft p.2
          rw [(w p.2 p (by rw [k1]; exact List.mem_filter.2 ⟨hd.mem_iff.2 hp, hgp⟩) BEq.rfl).1] at e1; cases e1
      obtain ⟨d', hd', -, rfl⟩ := s
      have h1 := hs.lenLeft
      rw [ht.lenLeft, k2, List.filter_eq_self.2 (fun p hp => by rw [hno p (hd.mem_iff.1 hp)]; rfl)] at h1
      simp only at h1
      rw [(split_pure (f := fun s (p : L × R) => f s p.1 p.2) hg d' t).1,
        List.filter_eq_nil_iff.2 (fun p hp => by rw [hno p (hd'.mem_iff.1 hp)]; simp)] at h1
      have := hd.length_eq
      exact List.length_eq_zero_iff.1 (by rw [← this]; exact h1)
    case retainUnpaired σ f t =>
      obtain ⟨g, hg⟩ := hl
      obtain ⟨s', m'', e', ht⟩ := C75_actual_pure h hc f t g hg
      simp only [exec, e', bind, Except.bind, pure, Except.pure] at e
      obtain rfl : m'' = m' := (Prod.mk.inj (Except.ok.inj e)).2
      obtain ⟨d, hd, -, rfl⟩ := s
      intro r hr
      have hp := (hs.iterRight.symm.trans ht.iterRight).mem_iff (a := r)
      simp only [(split_pure hg d t).1, List.mem_append, List.mem_filter, hr, true_and, hd.mem_iff, lone] at hp
      cases hgr : hasGroup c r with
      | true => exact List.any_eq_true.1 hgr
      | false =>
        have hgr' : c.pairs.any (r == ·.2) = false := hgr
        rw [hgr, hgr'] at hp
        cases hx : g r <;> rw [hx] at hp <;> simp at hp
    case extend xs =>
      obtain ⟨m'', e', e⟩ := CycleMap.bind_ok e
      cases e
      obtain ⟨-, rfl⟩ := s
      rw [extend_eq] at e'
      exact (extendOpt_right hrep _).2 _ e' hs
    case extendOpt xs =>
      obtain ⟨m'', e', e⟩ := CycleMap.bind_ok e
      cases e
      obtain ⟨-, rfl⟩ := s
      exact (extendOpt_right hrep _).2 _ e' hs
    case clone => exact hl
    all_goals trivial
  · intro hr
    obtain ⟨o, m', c', e, s, h'⟩ := right_simulates hrep hr
    exact ⟨o, m', c', e, s, h'.shows⟩

/-- C150: a map collected from a sequence is the documented one if and only if nothing in the sequence is left out of touch. -/
theorem C150_from_iter (hb : BuildHasher L R) (xs : List (Option L × R)) :
    (∃ m', fromIterOpt hb xs = .ok m' ∧ Shows m' (insertAll GroupSpec.empty xs)) ↔ Mends GroupSpec.empty [] xs := by
  have h : Repr (withHasher hb) GroupSpec.empty := withHasher_repr hb
  refine ⟨fun ⟨m', e, hs⟩ => (extendOpt_right h xs).2 m' e hs, fun hm => ?_⟩
  obtain ⟨m', e, hr⟩ := (extendOpt_right h xs).1 hm
  exact ⟨m', e, hr.shows⟩

/-- C150: the same for a sequence of pairs. -/
theorem C150_from_pairs (hb : BuildHasher L R) (xs : List (L × R)) :
    (∃ m', fromIter hb xs = .ok m' ∧ Shows m' (insertAll GroupSpec.empty (xs.map fun p => (some p.1, p.2)))) ↔
      Mends GroupSpec.empty [] (xs.map fun p => (some p.1, p.2)) := by
  rw [← C150_from_iter hb, fromIter, extend_eq, fromIterOpt]

/-- (1, 10) twice breaks a map, (1, 20) mends it if 20 is there; if it is not, or the second (1, 10) comes after, or 10 is replaced before, the map is not what is documented -/
example : Mends GroupSpec.empty [] [(some 1, 10), (none, 20), (some 1, 10), (some 2, 10), (some 1, 20)] ∧
    ¬ Mends GroupSpec.empty [] [(some 1, 10), (some 1, 10), (some 1, 20)] ∧
    ¬ Mends GroupSpec.empty [] [(some 1, 10), (none, 20), (some 1, 20), (some 1, 20)] ∧
    ¬ Mends GroupSpec.empty [] [(some 1, 10), (none, 20), (some 1, 10), (none, 10), (some 1, 20)] ∧
    ¬ NewPairs GroupSpec.empty [(some 1, 10), (none, 20), (some 1, 10), (some 2, 10), (some 1, 20)] := by
  simp [Mends, NewPairs, GroupSpec.empty, GroupSpec.insert, GroupSpec.insertRight, findL, findR, eraseL, eraseR, hasPair]

/-- the same without lone right items -/
example : ∃ m' : GroupMap Nat Nat, fromIter constHash [(1, 10), (2, 20), (1, 10), (1, 20)] = .ok m' ∧ Shows m' ⟨[20, 10], [(1, 20), (2, 20)]⟩ :=
  (C150_from_pairs constHash [(1, 10), (2, 20), (1, 10), (1, 20)]).2
    (by simp [Mends, GroupSpec.empty, GroupSpec.insert, findL, findR, eraseL, hasPair])

/-- with all hashes equal -/
example : ∃ m' : GroupMap Nat Nat, fromIterOpt constHash [(some 1, 10), (none, 20), (some 1, 10), (some 2, 10), (some 1, 20)] = .ok m' ∧
    Shows m' ⟨[20, 10], [(1, 20), (2, 10)]⟩ :=
  (C150_from_iter constHash [(some 1, 10), (none, 20), (some 1, 10), (some 2, 10), (some 1, 20)]).2
    (by simp [Mends, GroupSpec.empty, GroupSpec.insert, GroupSpec.insertRight, findL, findR, eraseL, eraseR, hasPair])

/-- a history that stays on the list, in whatever order entries are visited; the contents are the documented ones -/
def RightRun (c : Contents L R) : List (Op L R) → Prop
  | [] => True
  | op :: ops => Right c op ∧ ∀ o c', Repair.Step c op o c' → RightRun c' ops

theorem right_run (h : Repr m c) {ops : List (Op L R)} (hr : RightRun c ops) :
    ∃ os m' c', m.run ops = .ok (os, m') ∧ Repair.Steps c ops os c' ∧ Repr m' c' := by
  induction ops generalizing m c with
  | nil => exact ⟨_, _, _, rfl, ⟨rfl, rfl⟩, h⟩
  | cons op ops ih =>
    obtain ⟨o, m₁, c₁, e, s, h₁⟩ := right_simulates h hr.1
    obtain ⟨os, m', c', e', s', h'⟩ := ih h₁ (hr.2 _ _ s)
    exact ⟨_, m', c', by simp only [run, e, e', bind, Except.bind, pure, Except.pure], ⟨o, os, c₁, rfl, s, s'⟩, h'⟩

/-- C150: a history that stays on the list goes through without a panic and does what is documented, call by call; the map at the end holds what the documentation says. -/
theorem C150_history (hb : BuildHasher L R) (n : Nat) (ops : List (Op L R)) (hr : RightRun GroupSpec.empty ops) :
    ∃ os m' c', (withCapacityAndHasher n hb).run ops = .ok (os, m') ∧ Repair.Steps GroupSpec.empty ops os c' ∧ Shows m' c' := by
  obtain ⟨os, m', c', e, s, h'⟩ := right_run (withCapacity_repr n hb) hr
  exact ⟨os, m', c', e, s, h'.shows⟩

/-- C150: and the repairs change nothing in it (visited items up to order, closures answering by their argument alone): a caller who stays on the list will not notice them. -/
theorem C150_repair (hb : BuildHasher L R) (n : Nat) (ops : List (Op L R)) (hr : RightRun GroupSpec.empty ops) (hl : ∀ op ∈ ops, op.LawfulClone)
    (ho : ∀ op ∈ ops, OrderFree op) :
    ∃ os m' os' m'' c', (withCapacityAndHasher n hb).run ops = .ok (os, m') ∧ Repair.run (withCapacityAndHasher n hb) ops = .ok (os', m'') ∧
      os.length = os'.length ∧ (∀ p ∈ os.zip os', SameOut p.1 p.2) ∧ Shows m' c' ∧ Shows m'' c' := by
  suffices key : ∀ (ops : List (Op L R)) (m₁ m₂ : GroupMap L R) (c : Contents L R), Repr m₁ c → Repr m₂ c → RightRun c ops →
      (∀ op ∈ ops, op.LawfulClone) → (∀ op ∈ ops, OrderFree op) →
      ∃ os m' os' m'' c', m₁.run ops = .ok (os, m') ∧ Repair.run m₂ ops = .ok (os', m'') ∧
        os.length = os'.length ∧ (∀ p ∈ os.zip os', SameOut p.1 p.2) ∧ Repr m' c' ∧ Repr m'' c' by
    obtain ⟨os, m', os', m'', c', e, e', h1, h2, h3, h4⟩ := key ops _ _ _ (withCapacity_repr n hb) (withCapacity_repr n hb) hr hl ho
    exact ⟨os, m', os', m'', c', e, e', h1, h2, h3.shows, h4.shows⟩
  intro ops
  induction ops with
  | nil => intro m₁ m₂ c r₁ r₂ _ _ _; exact ⟨[], m₁, [], m₂, c, rfl, rfl, rfl, by simp, r₁, r₂⟩
  | cons op ops ih =>
    intro m₁ m₂ c r₁ r₂ hr hl ho
    obtain ⟨o₁, m₁', c₁, e₁, s₁, r₁'⟩ := right_simulates r₁ hr.1
    obtain ⟨o₂, m₂', c₂, e₂, s₂, r₂'⟩ := Repair.exec_simulates r₂ (hl op (by simp))
    obtain ⟨hso, hperm⟩ := Repair.step_det (ho op (by simp)) s₁ s₂
    obtain ⟨os₁, m₁'', os₂, m₂'', c', f₁, f₂, hlen, hz, q₁, q₂⟩ :=
      ih m₁' m₂' c₁ r₁' (r₂'.same ⟨hperm.rights.symm, hperm.pairs.symm⟩) (hr.2 _ _ s₁) (fun op h => hl op (by simp [h])) (fun op h => ho op (by simp [h]))
    refine ⟨o₁ :: os₁, m₁'', o₂ :: os₂, m₂'', c', ?_, ?_, by simp [hlen], ?_, q₁, q₂⟩
    · simp only [run, e₁, f₁, bind, Except.bind, pure, Except.pure]
    · simp only [Repair.run, e₂, f₂, bind, Except.bind, pure, Except.pure]
    · intro p hp
      rw [List.zip_cons_cons, List.mem_cons] at hp
      rcases hp with rfl | hp
      · exact hso
      · exact hz p hp

/-- on and off the list, for `demo`, in which all hashes are equal -/
example : (¬ ∃ o m' c', demo.exec (.insert 1 10) = .ok (o, m') ∧ Repair.Step demoC (.insert 1 10) o c' ∧ Shows m' c') ∧
    (∃ o m' c', demo.exec (.insert 1 20) = .ok (o, m') ∧ Repair.Step demoC (.insert 1 20) o c' ∧ Shows m' c') ∧
    (¬ ∃ o m' c', demo.exec (.swapRight 30 30) = .ok (o, m') ∧ Repair.Step demoC (.swapRight 30 30) o c' ∧ Shows m' c') ∧
    (∃ o m' c', demo.exec (.swapRightRemove 30 30) = .ok (o, m') ∧ Repair.Step demoC (.swapRightRemove 30 30) o c' ∧ Shows m' c') ∧
    (¬ ∃ o m' c', demo.exec (.swapRightRemove 30 20) = .ok (o, m') ∧ Repair.Step demoC (.swapRightRemove 30 20) o c' ∧ Shows m' c') ∧
    ¬ ∃ o m' c', demo.exec (.retainPaired Unit (fun _ _ _ => (true, ())) ()) = .ok (o, m') ∧
      Repair.Step demoC (.retainPaired Unit (fun _ _ _ => (true, ())) ()) o c' ∧ Shows m' c' := by
  have k := fun op hl => C150_exact demo_reachable demo_shows (op : Op Nat Nat) hl
  refine ⟨mt (k (.insert 1 10) trivial).1 ?_, (k (.insert 1 20) trivial).2 ?_, mt (k (.swapRight 30 30) trivial).1 ?_,
    (k (.swapRightRemove 30 30) trivial).2 ?_, mt (k (.swapRightRemove 30 20) trivial).1 ?_,
    mt (k (.retainPaired Unit (fun _ _ _ => (true, ())) ()) ⟨fun _ => true, fun _ _ => rfl⟩).1 ?_⟩
  · intro h; exact absurd (h (1, 10) (by simp [demoC]) rfl) (by simp)
  · change ∀ p ∈ [(3, 20), (2, 10), (1, 10)], _; decide
  · rintro (h | ⟨-, h⟩) <;> exact absurd (h 30 (by simp [demoC])) (by simp)
  · refine .inr ⟨?_, .inr rfl⟩
    change ∀ p ∈ [(3, 20), (2, 10), (1, 10)], _; decide
  · rintro (h | ⟨-, h | h⟩)
    · exact absurd (h 30 (by simp [demoC])) (by simp)
    · exact absurd (h 20 (by simp [demoC])) (by simp)
    · cases h
  · exact fun h => nomatch h

/-- a history on the list, all hashes equal -/
example : let ops : List (Op Nat Nat) := [.insert 1 10, .insert 2 10, .insertRight 20, .swapRight 20 30, .swapRightRemove 20 40, .pair 2 30, .arePaired 2 30,
      .removeRight 10, .swapRight 70 80]
    ∃ os m' os' m'' c', (withCapacityAndHasher 0 constHash).run ops = .ok (os, m') ∧
      Repair.run (withCapacityAndHasher 0 constHash) ops = .ok (os', m'') ∧
      os.length = os'.length ∧ (∀ p ∈ os.zip os', SameOut p.1 p.2) ∧ Shows m' c' ∧ Shows m'' c' := by
  intro ops
  refine C150_repair constHash 0 ops ?_ (by simp [ops, Op.LawfulClone]) (by simp [ops, OrderFree])
  refine ⟨fun _ h => absurd h (by simp [GroupSpec.empty]), ?_⟩; rintro _ _ ⟨-, rfl⟩
  refine ⟨?_, ?_⟩
  · change ∀ p ∈ [(1, 10)], _; decide
  rintro _ _ ⟨-, rfl⟩
  refine ⟨trivial, ?_⟩; rintro _ _ ⟨_, -, -, rfl⟩
  refine ⟨.inr (by decide), ?_⟩; rintro _ _ ⟨-, rfl⟩
  refine ⟨.inr (by decide), ?_⟩; rintro _ _ ⟨-, rfl⟩
  refine ⟨trivial, ?_⟩; rintro _ _ ⟨-, rfl⟩
  refine ⟨trivial, ?_⟩; rintro _ _ ⟨-, rfl⟩
  refine ⟨trivial, ?_⟩; rintro _ _ ⟨_, -, -, rfl⟩
  exact ⟨.inl (by decide), fun _ _ _ => trivial⟩

end Verif.GroupMap
