import Verif.Props.RepairMachine
import Verif.Props.Sharp
/-!
Property C150 (with RightPartial and RightGroup): where the crate is right, and nowhere else.

`Right c op` lists, for every call of the API, the situations in which the crate does what is documented.  `C150_exact` says that the list is
complete and contains nothing too much, `C150_history` that a history that stays within the list does what is documented all along, and
`C150_repair` that the repairs of C133 change nothing in such a history.
-/
set_option linter.unusedSectionVars false
set_option linter.unusedSimpArgs false
namespace Verif.CycleMap
open CycleSpec OptionalPair Demo

variable [RawImpl] [LawfulRaw] {L R : Type} [BEq L] [BEq R] [EquivBEq L] [EquivBEq R]
variable {m : CycleMap L R} {c : List (L × R)}

/-- The situations in which the crate does what is documented: all, but for a swap of an item that is not there to one that is (C13, C15), `swap_left_or_insert` that
displaces only the pair of `new` (C17), `swap_right_or_insert` of a left item that is there (C18), an early-dropped `drain` (C21), and a `Clone` that does not clone. -/
def Right (c : List (L × R)) : Op L R → Prop
  | .swapLeft old new => (∃ p ∈ c, (old == p.1) = true) ∨ ∀ p ∈ c, (new == p.1) = false
  | .swapRight old new => (∃ p ∈ c, (old == p.2) = true) ∨ ∀ p ∈ c, (new == p.2) = false
  | .swapLeftOrInsert old new r =>
      (∃ p ∈ c, (old == p.1) = true) ∨ (∀ p ∈ c, (new == p.1) = false) ∨ ∃ p ∈ c, (r == p.2) = true ∧ (new == p.1) = false
  | .swapRightOrInsert old _ l => (∃ p ∈ c, (old == p.2) = true) ∨ ∀ p ∈ c, (l == p.1) = false
  | .drain n => c.length ≤ n
  | .clone cl cr => (∀ x, (cl x == x) = true) ∧ (∀ x, (cr x == x) = true)
  | _ => True

theorem any_iff {α : Type} {c : List α} {f : α → Bool} : (∃ p ∈ c, f p = true) ↔ c.any f = true := by simp

theorem find?_none' {α : Type} {c : List α} {f : α → Bool} (h : ∀ p ∈ c, f p = false) : c.find? f = none :=
  List.find?_eq_none.2 fun p hp => by simp [h p hp]

/-- Where the crate is right, what it does is documented. -/
theorem right_step (ho : OneToOne c) {op : Op L R} (hr : Right c op) :
    Safe c op ∧ ∀ o c', Step c op o c' → Repair.Step c op o c' := by
  cases op
  case swapLeft old new =>
    refine ⟨trivial, fun o c' h => ?_⟩
    simp only [Repair.Step]
    split
    · exact h
    · rename_i hn
      have hn' : ∀ p ∈ c, (old == p.1) = false := by simpa using hn
      have hr := hr.resolve_left (by rw [any_iff]; exact hn)
      simp only [Step, CycleSpec.swapLeft, findL_none hn', eraseL] at h
      rwa [List.filter_eq_self.2 (by simpa using hr)] at h
  case swapRight old new =>
    refine ⟨trivial, fun o c' h => ?_⟩
    simp only [Repair.Step]
    split
    · exact h
    · rename_i hn
      have hn' : ∀ p ∈ c, (old == p.2) = false := by simpa using hn
      have hr := hr.resolve_left (by rw [any_iff]; exact hn)
      simp only [Step, CycleSpec.swapRight, findR_none hn', eraseR] at h
      rwa [List.filter_eq_self.2 (by simpa using hr)] at h
  case swapLeftOrInsert old new r =>
    refine ⟨trivial, fun o c' h => ?_⟩
    simp only [Repair.Step]
    simp only [Step, findL_isSome_eq] at h
    split
    · rename_i hn; rwa [if_pos hn] at h
    · rename_i hn; rw [if_neg hn, insert_fst ho] at h
      obtain ⟨rfl, rfl⟩ := h
      refine ⟨rfl, ?_⟩
      rcases hr.resolve_left (by rw [any_iff]; exact hn) with h1 | ⟨p, hp, h1, h2⟩
      · rw [find?_none' h1]
        cases c.find? (fun p => r == p.2 && !(new == p.1)) <;> rfl
      · have : (c.find? fun p => r == p.2 && !(new == p.1)).isSome = true := by
          rw [List.find?_isSome]; exact ⟨p, hp, by simp [h1, h2]⟩
        obtain ⟨q, hq⟩ := Option.isSome_iff_exists.1 this
        rw [hq]
        cases c.find? (fun p => new == p.1) <;> rfl
  case swapRightOrInsert old new l =>
    have hs : Safe c (.swapRightOrInsert old new l) := hr.imp (fun h => by rw [findR_isSome_eq]; exact any_iff.1 h) findL_none
    refine ⟨hs, fun o c' h => ?_⟩
    simp only [Repair.Step]
    simp only [Step, findR_isSome_eq] at h
    split
    · rename_i hn; rwa [if_pos hn] at h
    · rename_i hn; rw [if_neg hn] at h
      obtain ⟨-, rfl, rfl⟩ := h
      have hl := hr.resolve_left (by rw [any_iff]; exact hn)
      refine ⟨rfl, ?_⟩
      rw [find?_none' hl]
      have : (c.find? fun p => new == p.2 && !(l == p.1)) = findR c new := by
        rw [findR, ← List.head?_filter, ← List.head?_filter]
        rw [List.filter_congr fun p hp => by rw [hl p hp, Bool.not_false, Bool.and_true]]
      rw [this]
      cases findR c new <;> rfl
  case drain n =>
    refine ⟨hr, fun o c' h => ?_⟩
    obtain ⟨hn, d, hp, rfl, rfl⟩ := h
    exact ⟨d, hp, by rw [List.take_of_length_le (by rw [hp.length_eq]; exact hn)], rfl⟩
  case clone => exact ⟨hr, fun _ _ h => h⟩
  all_goals exact ⟨trivial, fun _ _ h => h⟩

theorem right_simulates (h : Repr m c) {op : Op L R} (hr : Right c op) :
    ∃ o m' c', m.exec op = .ok (o, m') ∧ Repair.Step c op o c' ∧ Repr m' c' := by
  obtain ⟨hs, k⟩ := right_step h.oneToOne hr
  obtain ⟨o, m', c', e, s, h'⟩ := exec_simulates h hs
  exact ⟨o, m', c', e, k _ _ s, h'⟩

/-- C150: the list is exact.  Whatever map the API has produced, whatever the call, the arguments, the hash values and the table: the call does what is documented if *and only if*
the situation is on the list.  (For `clone` the list asks that `Clone` gives equal items: that is the caller's part.) -/
theorem C150_exact (h : Reachable m) (hc : Shows m c) (op : Op L R) (hl : op.LawfulClone) :
    (∃ o m' c', m.exec op = .ok (o, m') ∧ Repair.Step c op o c' ∧ Shows m' c') ↔ Right c op := by
  constructor
  · rintro ⟨o, m', c', e, s, hs⟩
    cases op
    case swapLeft old new =>
      by_cases ho : ∃ p ∈ c, (old == p.1) = true
      · exact .inl ho
      · have ho' : ∀ p ∈ c, (old == p.1) = false := by simpa using ho
        simp only [Repair.Step, if_neg (mt any_iff.2 ho)] at s
        obtain ⟨rfl, rfl⟩ := s
        simp only [exec] at e
        cases hx : m.swapLeft old new with
        | error x => rw [hx] at e; cases e
        | ok x =>
          rw [hx] at e
          obtain rfl : x.2 = m' := (Prod.mk.inj (Except.ok.inj e)).2
          exact .inr ((C144_swap_left h hc old new ho').1 ⟨_, _, hx, hs⟩)
    case swapRight old new =>
      by_cases ho : ∃ p ∈ c, (old == p.2) = true
      · exact .inl ho
      · have ho' : ∀ p ∈ c, (old == p.2) = false := by simpa using ho
        simp only [Repair.Step, if_neg (mt any_iff.2 ho)] at s
        obtain ⟨rfl, rfl⟩ := s
        simp only [exec] at e
        cases hx : m.swapRight old new with
        | error x => rw [hx] at e; cases e
        | ok x =>
          rw [hx] at e
          obtain rfl : x.2 = m' := (Prod.mk.inj (Except.ok.inj e)).2
          exact .inr ((C144_swap_right h hc old new ho').1 ⟨_, _, hx, hs⟩)
    case swapLeftOrInsert old new r =>
      by_cases ho : ∃ p ∈ c, (old == p.1) = true
      · exact .inl ho
      · have ho' : ∀ p ∈ c, (old == p.1) = false := by simpa using ho
        refine .inr ?_
        simp only [Repair.Step, if_neg (mt any_iff.2 ho)] at s
        obtain ⟨rfl, rfl⟩ := s
        obtain ⟨o', m'', e', h2, -⟩ := (C17_partial h hc old new r).2 ho'
        simp only [exec, e'] at e
        have e := (Prod.mk.inj (Except.ok.inj e)).1
        have e : o' = _ := Out.swappedLeft.inj e
        cases h3 : c.find? (fun p => r == p.2 && !(new == p.1)) with
        | some q =>
          have := List.find?_some h3
          rw [Bool.and_eq_true, Bool.not_eq_true'] at this
          exact .inr ⟨q, List.mem_of_find?_eq_some h3, this⟩
        | none =>
          rw [h3] at e h2
          cases h4 : c.find? (fun p => new == p.1) with
          | none => exact .inl fun p hp => by simpa using List.find?_eq_none.1 h4 p hp
          | some p => rw [h4] at e h2; rw [e] at h2; cases h2
    case swapRightOrInsert old new l =>
      by_cases ho : ∃ p ∈ c, (old == p.2) = true
      · exact .inl ho
      · have ho' : ∀ p ∈ c, (old == p.2) = false := by simpa using ho
        simp only [Repair.Step, if_neg (mt any_iff.2 ho)] at s
        obtain ⟨rfl, rfl⟩ := s
        simp only [exec] at e
        cases hx : m.swapRightOrInsert old new l with
        | error x => rw [hx] at e; cases e
        | ok x =>
          rw [hx] at e
          obtain rfl : x.2 = m' := (Prod.mk.inj (Except.ok.inj e)).2
          exact .inr ((C144_swap_right_or_insert h hc old new l ho').1 ⟨_, _, hx, hs⟩)
    case drain n =>
      simp only [exec] at e
      cases hx : m.drainTake n with
      | error x => rw [hx] at e; cases e
      | ok x =>
        rw [hx] at e
        obtain rfl : x.2 = m' := (Prod.mk.inj (Except.ok.inj e)).2
        exact (C144_drain h hc n).1 ⟨_, _, _, hx, hs⟩
    case clone => exact hl
    all_goals trivial
  · intro hr
    obtain ⟨o, m', c', e, s, h'⟩ := right_simulates (h.repr_of_shows hc) hr
    exact ⟨o, m', c', e, s, h'.shows⟩

/-- a history that stays on the list, in whatever order pairs are visited; the contents are the documented ones -/
def RightRun (c : List (L × R)) : List (Op L R) → Prop
  | [] => True
  | op :: ops => Right c op ∧ ∀ o c', Repair.Step c op o c' → RightRun c' ops

theorem right_run (h : Repr m c) {ops : List (Op L R)} (hr : RightRun c ops) :
    ∃ os m' c', m.run ops = .ok (os, m') ∧ Repair.Steps c ops os c' ∧ Repr m' c' := by
  induction ops generalizing m c with
  | nil => exact ⟨_, _, _, rfl, ⟨rfl, rfl⟩, h⟩
  | cons op ops ih =>
    obtain ⟨o, m₁, c₁, e, s, h₁⟩ := right_simulates h hr.1
    obtain ⟨os, m', c', e', s', h'⟩ := ih h₁ (hr.2 _ _ s)
    exact ⟨_, m', c', by simp only [run, e, e', bind, Except.bind, pure, Except.pure], ⟨o, os, c₁, rfl, s, s'⟩, h'⟩

/-- C150: a history that stays on the list goes through without a panic and does what is documented, call by call; the map at the end holds what the documentation says. -/
theorem C150_history (hb : BuildHasher L R) (n : Nat) (ops : List (Op L R)) (hr : RightRun [] ops) :
    ∃ os m' c', (withCapacityAndHasher n hb).run ops = .ok (os, m') ∧ Repair.Steps [] ops os c' ∧ Shows m' c' := by
  obtain ⟨os, m', c', e, s, h'⟩ := right_run (withCapacity_repr n hb) hr
  exact ⟨os, m', c', e, s, h'.shows⟩

/-- C150: and the repairs change nothing in it (visited items up to order, closures answering by their argument alone): a caller who stays on the list will not notice them. -/
theorem C150_repair (hb : BuildHasher L R) (n : Nat) (ops : List (Op L R)) (hr : RightRun [] ops) (hl : ∀ op ∈ ops, op.LawfulClone)
    (ho : ∀ op ∈ ops, Repair.OrderFree op) :
    ∃ os m' os' m'' c', (withCapacityAndHasher n hb).run ops = .ok (os, m') ∧ Repair.run (withCapacityAndHasher n hb) ops = .ok (os', m'') ∧
      os.length = os'.length ∧ (∀ p ∈ os.zip os', SameOut p.1 p.2) ∧ Shows m' c' ∧ Shows m'' c' := by
  suffices key : ∀ (ops : List (Op L R)) (m₁ m₂ : CycleMap L R) (c : List (L × R)), Repr m₁ c → Repr m₂ c → RightRun c ops →
      (∀ op ∈ ops, op.LawfulClone) → (∀ op ∈ ops, Repair.OrderFree op) →
      ∃ os m' os' m'' c', m₁.run ops = .ok (os, m') ∧ Repair.run m₂ ops = .ok (os', m'') ∧
        os.length = os'.length ∧ (∀ p ∈ os.zip os', SameOut p.1 p.2) ∧ Repr m' c' ∧ Repr m'' c' by
    obtain ⟨os, m', os', m'', c', e, e', h1, h2, h3, h4⟩ := key ops _ _ [] (withCapacity_repr n hb) (withCapacity_repr n hb) hr hl ho
    exact ⟨os, m', os', m'', c', e, e', h1, h2, h3.shows, h4.shows⟩
  intro ops
  induction ops with
  | nil => intro m₁ m₂ c r₁ r₂ _ _ _; exact ⟨[], m₁, [], m₂, c, rfl, rfl, rfl, by simp, r₁, r₂⟩
  | cons op ops ih =>
    intro m₁ m₂ c r₁ r₂ hr hl ho
    obtain ⟨o₁, m₁', c₁, e₁, s₁, r₁'⟩ := right_simulates r₁ hr.1
    obtain ⟨o₂, m₂', c₂, e₂, s₂, r₂'⟩ := Repair.exec_simulates r₂ (hl op (by simp))
    obtain ⟨hso, hperm⟩ := Repair.step_det (ho op (by simp)) s₁ s₂
    obtain ⟨os₁, m₁'', os₂, m₂'', c', f₁, f₂, hlen, hz, q₁, q₂⟩ :=
      ih m₁' m₂' c₁ r₁' (r₂'.perm hperm.symm) (hr.2 _ _ s₁) (fun op h => hl op (by simp [h])) (fun op h => ho op (by simp [h]))
    refine ⟨o₁ :: os₁, m₁'', o₂ :: os₂, m₂'', c', ?_, ?_, by simp [hlen], ?_, q₁, q₂⟩
    · simp only [run, e₁, f₁, bind, Except.bind, pure, Except.pure]
    · simp only [Repair.run, e₂, f₂, bind, Except.bind, pure, Except.pure]
    · intro p hp
      rw [List.zip_cons_cons, List.mem_cons] at hp
      rcases hp with rfl | hp
      · exact hso
      · exact hz p hp

/-- `swap_left(7, 2)` is off the list for `demo`, `swap_left(7, 8)` and `swap_left(1, 2)` are on it; `swap_left_or_insert(7, 2, 80)` is off, `swap_left_or_insert(7, 2, 30)` is on -/
example : let c := [(3, 30), (2, 20), (1, 10)]
    (¬ ∃ o m' c', demo.exec (.swapLeft 7 2) = .ok (o, m') ∧ Repair.Step c (.swapLeft 7 2) o c' ∧ Shows m' c') ∧
    (∃ o m' c', demo.exec (.swapLeft 7 8) = .ok (o, m') ∧ Repair.Step c (.swapLeft 7 8) o c' ∧ Shows m' c') ∧
    (∃ o m' c', demo.exec (.swapLeft 1 2) = .ok (o, m') ∧ Repair.Step c (.swapLeft 1 2) o c' ∧ Shows m' c') ∧
    (¬ ∃ o m' c', demo.exec (.swapLeftOrInsert 7 2 80) = .ok (o, m') ∧ Repair.Step c (.swapLeftOrInsert 7 2 80) o c' ∧ Shows m' c') ∧
    (∃ o m' c', demo.exec (.swapLeftOrInsert 7 2 30) = .ok (o, m') ∧ Repair.Step c (.swapLeftOrInsert 7 2 30) o c' ∧ Shows m' c') ∧
    (¬ ∃ o m' c', demo.exec (.drain 2) = .ok (o, m') ∧ Repair.Step c (.drain 2) o c' ∧ Shows m' c') := by
  intro c
  have k := fun op hl => C150_exact demo_reachable demo_shows (op : Op Nat Nat) hl
  exact ⟨mt (k (.swapLeft 7 2) trivial).1 (by simp [Right]), (k (.swapLeft 7 8) trivial).2 (by simp [Right]), (k (.swapLeft 1 2) trivial).2 (by simp [Right]),
    mt (k (.swapLeftOrInsert 7 2 80) trivial).1 (by simp [Right]), (k (.swapLeftOrInsert 7 2 30) trivial).2 (by simp [Right]),
    mt (k (.drain 2) trivial).1 (by simp [Right])⟩

/-- a history on the list, in which pairs are displaced, swapped, filtered and drained -/
example : let ops : List (Op Nat Nat) := [.insert 1 10, .insert 2 20, .insert 1 20, .swapLeft 1 5, .swapRightOrInsert 70 80 6, .swapLeft 7 8,
      .retain Unit (fun _ l _ => (l != 6, ())) (), .iter]
    ∃ os m' os' m'' c', (withCapacityAndHasher 0 constHash).run ops = .ok (os, m') ∧ Repair.run (withCapacityAndHasher 0 constHash) ops = .ok (os', m'') ∧
      os.length = os'.length ∧ (∀ p ∈ os.zip os', SameOut p.1 p.2) ∧ Shows m' c' ∧ Shows m'' c' := by
  intro ops
  refine C150_repair constHash 0 ops ?_ (by simp [ops, Op.LawfulClone]) (by simp [ops, Repair.OrderFree, OrderFree]; exact ⟨_, fun _ _ _ => rfl⟩)
  refine ⟨trivial, ?_⟩; rintro _ _ ⟨-, rfl⟩
  refine ⟨trivial, ?_⟩; rintro _ _ ⟨-, rfl⟩
  refine ⟨trivial, ?_⟩; rintro _ _ ⟨-, rfl⟩
  refine ⟨.inl (by decide), ?_⟩; rintro _ _ ⟨-, rfl⟩
  refine ⟨.inr (by decide), ?_⟩; rintro _ _ ⟨rfl, -⟩
  refine ⟨.inr (by decide), ?_⟩; rintro _ _ ⟨-, rfl⟩
  exact ⟨trivial, fun _ _ _ => ⟨trivial, fun _ _ _ => trivial⟩⟩

end Verif.CycleMap
