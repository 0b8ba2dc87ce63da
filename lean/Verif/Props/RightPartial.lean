import Verif.Props.RepairMachinePartial
import Verif.Props.RightCycle
/-! Property C150 for `PartialCycleMap`: where the crate is right, and nowhere else. -/
set_option linter.unusedSectionVars false
set_option linter.unusedSimpArgs false
namespace Verif.PartialMap
open PartialSpec OptionalPair Demo
open CycleSpec (split split_pure)

variable [RawImpl] [LawfulRaw] {L R : Type} [BEq L] [BEq R] [EquivBEq L] [EquivBEq R]
variable {m : PartialMap L R} {c : List (OptionalPair L R)}

/-- The situations in which the crate does what is documented.  Off the list are: `unpair` of items that are not partners but whose hashes agree crosswise (C41), a swap of
an item that is not there to one that is (C47), `swap_*_or_insert` that would have to displace the first item of the new pair (C49), `iter` with lone right items (C50), `drain`
that reaches the second lone right item (C53), `drain_filter` with a closure that has side effects, or that accepts the right item of a pair it rejects as if it were alone (C54),
the `retain` family unless it has nothing to do (C55), and a `Clone` that does not clone. -/
def Right (hb : BuildHasher L R) (c : List (OptionalPair L R)) : Op L R → Prop
  | .unpair l r => (∃ e ∈ c, hasL l e = true ∧ hasR r e = true) ∨ ∀ a b a' b', someBoth a b ∈ c → someBoth a' b' ∈ c →
      (l == a) = true → (r == b') = true → hb.hr r = hb.hr b → hb.hl l ≠ hb.hl a'
  | .swapLeft old new => (∃ e ∈ c, hasL old e = true) ∨ ∀ e ∈ c, hasL new e = false
  | .swapRight old new => (∃ e ∈ c, hasR old e = true) ∨ ∀ e ∈ c, hasR new e = false
  | .swapLeftOrInsert old new _ => (∃ e ∈ c, hasL old e = true) ∨ ∀ e ∈ c, hasL new e = false
  | .swapRightOrInsert old new l => (∃ e ∈ c, hasR old e = true) ∨ ∀ e ∈ c, hasR new e = true → hasL l e = true
  | .iter => ∀ r, someRight r ∉ c
  | .drain n => (c.filter fun e => (leftOf e).isNone).length ≤ 1 ∨ n ≤ (c.filter fun e => (leftOf e).isSome).length + 1
  | .drainFilter _ f _ _ => Pure f ∧ ∀ l r, someBoth l r ∈ c → ∀ s, (f s (someBoth l r)).1 = false → (f s (someRight r)).1 = false
  | .retain _ f _ => ∀ e ∈ c, leftOf e = none ∧ ∀ s, (f s e).1 = true
  | .retainPaired .. => ∀ e ∈ c, isPair e = false
  | .retainUnpaired .. => ∀ e ∈ c, isPair e = true
  | .clone cl cr => (∀ x, (cl x == x) = true) ∧ (∀ x, (cr x == x) = true)
  | _ => True

theorem any_iff {α : Type} {c : List α} {f : α → Bool} : (∃ p ∈ c, f p = true) ↔ c.any f = true := by simp

/-- an accepting closure accepts all -/
theorem split_all {σ α : Type} {f : σ → α → Bool × σ} {d : List α} (h : ∀ e ∈ d, ∀ s, (f s e).1 = true) (s : σ) : (split f d s).1 = d := by
  induction d generalizing s with
  | nil => rfl
  | cons a d ih =>
    have ha := h a (by simp) s
    have := ih (fun e he => h e (by simp [he])) (f s a).2
    simp only [split]
    cases hf : f s a with
    | mk b s' => rw [hf] at ha this; cases ha; simp [this]

/-- `drain_filter` with a closure without side effects that rejects the right items of the pairs it rejects -/
theorem drainFilter_right {σ : Type} (h : Repr m c) {f : σ → OptionalPair L R → Bool × σ} {g : OptionalPair L R → Bool} (hf : ∀ s e, (f s e).1 = g e)
    (s : σ) (n : Nat) (hg : ∀ l r, someBoth l r ∈ c → g (someBoth l r) = false → g (someRight r) = false) :
    ∃ (d : List (OptionalPair L R)) (s' : σ) (m' : PartialMap L R), d.Perm (c.filter g) ∧
      m.drainFilterTake f s n = .ok (d.take n, s', m') ∧ Repr m' (c.filter fun e => !g e) ∧ m'.hb = m.hb := by
  obtain ⟨d1, us, d2, m', h1, h2, h3, h4, h5, h6, hb, _, _, _, _, h7⟩ := drainFilterTake_whole h f s n
  have k1 := split_pure (f := f) (g := g) hf d1 s
  have k2 := fun u => split_pure (f := fun s e => f s (asRight e)) (g := fun e => g (asRight e)) (fun _ _ => hf _ _) d2 u
  rw [k1.2] at h4 h7
  rw [k1.1, (k2 _).1] at h6
  rw [(k2 _).1, (k2 _).2] at h7
  have hmem : ∀ e ∈ d2, e ∈ c ∧ ((leftOf e).isSome = true → g e = false) := by
    intro e he
    have := h4.mem_iff.1 (List.mem_append_left _ he)
    rcases List.mem_append.1 this with hm | hm
    · obtain ⟨hm, hf⟩ := List.mem_filter.1 hm
      exact ⟨h1.mem_iff.1 (List.mem_append_left _ hm), fun _ => by simpa using hf⟩
    · exact ⟨h1.mem_iff.1 (List.mem_append_right _ hm), fun hl => by rw [h3 e hm] at hl; cases hl⟩
  have hcase : ∀ e ∈ d2, (leftOf e = none ∧ asRight e = e) ∨ (g (asRight e) = false ∧ g e = false) := by
    intro e he
    obtain ⟨hm, hf⟩ := hmem e he
    have hr := h5 e he
    cases e with
    | neither => cases hr
    | someLeft _ => cases hr
    | someRight r => exact .inl ⟨rfl, rfl⟩
    | someBoth l r => exact .inr ⟨hg l r hm (hf rfl), hf rfl⟩
  have h7 := h7 fun l r hm => by
    obtain ⟨hm, hg'⟩ := List.mem_filter.1 hm
    rcases hcase _ hm with ⟨h, _⟩ | ⟨h, _⟩
    · cases h
    · rw [h] at hg'; cases hg'
  have heq : ∀ e ∈ d2, g (asRight e) = g e := by
    intro e he; rcases hcase e he with ⟨_, h⟩ | ⟨h, h'⟩
    · rw [h]
    · rw [h, h']
  have hX : ∀ e ∈ (d1.filter fun e => !g e).filter (fun e => (rightOf e).isNone), g e = false := by
    intro e he; simpa using (List.mem_filter.1 (List.mem_filter.1 he).1).2
  rw [List.filter_congr heq] at h6
  rw [List.filter_congr (fun e he => by rw [heq e he] : ∀ e ∈ d2, (!g (asRight e)) = !g e)] at h7
  have hmap : (d2.filter fun e => g e).map asRight = d2.filter fun e => g e := by
    rw [List.map_congr_left (g := id), List.map_id]
    intro e he
    obtain ⟨he, hge⟩ := List.mem_filter.1 he
    rcases hcase e he with ⟨_, h⟩ | ⟨_, h⟩
    · exact h
    · rw [h] at hge; cases hge
  rw [hmap] at h6
  refine ⟨_, _, m', ?_, h6, h7.perm ?_, hb⟩
  · have h8 := h4.filter g
    rw [List.filter_append, List.filter_append,
      List.filter_eq_nil_iff.2 (fun e he => by simp [hX e he] : ∀ e ∈ (d1.filter fun e => !g e).filter (fun e => (rightOf e).isNone), ¬ g e = true),
      List.filter_eq_nil_iff.2 (fun e he => by simpa using (List.mem_filter.1 he).2 : ∀ e ∈ d1.filter fun e => !g e, ¬ g e = true),
      List.append_nil, List.nil_append] at h8
    refine (h8.append_left _).trans ?_
    rw [← List.filter_append]; exact h1.filter _
  · have h8 := h4.filter fun e => !g e
    rw [List.filter_append, List.filter_append,
      List.filter_eq_self.2 (fun e he => by simp [hX e he] : ∀ e ∈ (d1.filter fun e => !g e).filter (fun e => (rightOf e).isNone), (!g e) = true),
      List.filter_eq_self.2 (fun e he => (List.mem_filter.1 he).2 : ∀ e ∈ d1.filter fun e => !g e, (!g e) = true)] at h8
    refine h8.trans ?_
    rw [← List.filter_append]; exact h1.filter _

/-- with another closure without side effects, the map is not intact afterwards -/
theorem drainFilter_wrong {σ : Type} (h : Repr m c) {f : σ → OptionalPair L R → Bool × σ} {g : OptionalPair L R → Bool} (hf : ∀ s e, (f s e).1 = g e)
    (s : σ) (n : Nat) {ps s' m' c'} (e : m.drainFilterTake f s n = .ok (ps, s', m')) (hs : Shows m' c') :
    ∀ l r, someBoth l r ∈ c → g (someBoth l r) = false → g (someRight r) = false := by
  intro l r hm hk
  cases hg : g (someRight r) with
  | false => rfl
  | true =>
    obtain ⟨d1, us, d2, m'', h1, h2, h3, h4, h5, h6, -, -, -, -, h7, -⟩ := drainFilterTake_whole h f s n
    rw [e] at h6
    obtain rfl : m' = m'' := (Prod.mk.inj (Prod.mk.inj (Except.ok.inj h6)).2).2
    have k1 := split_pure (f := f) (g := g) hf d1 s
    have k2 := fun u => split_pure (f := fun s e => f s (asRight e)) (g := fun e => g (asRight e)) (fun _ _ => hf _ _) d2 u
    rw [k1.2] at h4
    rw [(k2 _).1] at h7
    have hd : someBoth l r ∈ d1 := by
      rcases List.mem_append.1 (h1.mem_iff.2 hm) with hm | hm
      · exact hm
      · cases h3 _ hm
    have hd2 : someBoth l r ∈ d2 := by
      have : someBoth l r ∈ d1.filter fun e => !g e := List.mem_filter.2 ⟨hd, by rw [hk]; rfl⟩
      rcases List.mem_append.1 (h4.mem_iff.2 (List.mem_append_left _ this)) with h | h
      · exact h
      · cases (List.mem_filter.1 h).2
    obtain ⟨g1, g2, -⟩ := h7 l r (List.mem_filter.2 ⟨hd2, hg⟩)
    rw [hs.isLeftPaired, List.any_eq_true] at g1
    obtain ⟨x, hx, hx'⟩ := g1
    rw [Bool.and_eq_true] at hx'
    rw [hs.getRight, mem_findL hs.oneToOne hx hx'.2] at g2
    cases x with
    | someBoth _ _ => cases g2
    | _ => cases hx'.1

/-- Where the crate is right, it does what is documented. -/
theorem right_simulates (h : Repr m c) {op : Op L R} (hr : Right m.hb c op) :
    ∃ o m' c', m.exec op = .ok (o, m') ∧ Repair.Step c op o c' ∧ Repr m' c' ∧ m'.hb = m.hb := by
  have key : Safe m.hb c op → (∀ o c', Step c op o c' → Repair.Step c op o c') →
      ∃ o m' c', m.exec op = .ok (o, m') ∧ Repair.Step c op o c' ∧ Repr m' c' ∧ m'.hb = m.hb := fun hs k => by
    obtain ⟨o, m', c', e, s, h', hb⟩ := exec_simulates h hs
    exact ⟨o, m', c', e, k _ _ s, h', hb⟩
  have lone : ∀ e ∈ c, leftOf e = none → ∃ r, e = someRight r := fun e he hl => by
    cases e with
    | neither => exact absurd he h.oneToOne.2
    | someRight r => exact ⟨r, rfl⟩
    | _ => cases hl
  cases op
  case unpair l r =>
    refine key ?_ fun _ _ h => h
    intro a b a' b' h1 h2 h3 h4 h5 h6
    rcases hr with ⟨e, he, hl, hr⟩ | hr
    · exact List.any_eq_true.2 ⟨e, he, by simp [hl, hr]⟩
    · exact absurd h6 (hr a b a' b' h1 h2 h3 h4 h5)
  case swapLeft old new =>
    refine key trivial fun o c' h => ?_
    simp only [Repair.Step]
    split
    · exact h
    · rename_i hn
      have hn' : ∀ e ∈ c, hasL old e = false := by simpa using hn
      have hr := hr.resolve_left (by rw [any_iff]; exact hn)
      simpa only [Step, PartialSpec.swapLeft, findL_none hn', eraseL_none hr] using h
  case swapRight old new =>
    refine key trivial fun o c' h => ?_
    simp only [Repair.Step]
    split
    · exact h
    · rename_i hn
      have hn' : ∀ e ∈ c, hasR old e = false := by simpa using hn
      have hr := hr.resolve_left (by rw [any_iff]; exact hn)
      simpa only [Step, PartialSpec.swapRight, findR_none hn', eraseR_none hr] using h
  case swapLeftOrInsert old new r =>
    have hs : Safe m.hb c (.swapLeftOrInsert old new r) := hr.imp (fun ⟨e, he, hl⟩ => by rw [findL, List.find?_isSome]; exact ⟨e, he, hl⟩) findL_none
    refine key hs fun o c' h => ?_
    simp only [Repair.Step]
    simp only [Step] at h
    have hi : (findL c old).isSome = c.any (hasL old) := by
      rw [Bool.eq_iff_iff, findL, List.find?_isSome]; simp
    rw [hi] at h
    split
    · rename_i hn; rwa [if_pos hn] at h
    · rename_i hn; rw [if_neg hn] at h
      obtain ⟨-, rfl, rfl⟩ := h
      have hl := hr.resolve_left (by rw [any_iff]; exact hn)
      refine ⟨rfl, ?_⟩
      have : (c.find? fun e => hasR r e && !hasL new e) = findR c r := by
        rw [findR, ← List.head?_filter, ← List.head?_filter, List.filter_congr fun p hp => by rw [hl p hp, Bool.not_false, Bool.and_true]]
      rw [this, show c.find? (hasL new) = none from findL_none hl]
      cases findR c r <;> rfl
  case swapRightOrInsert old new l =>
    have hs : Safe m.hb c (.swapRightOrInsert old new l) := by
      rcases hr with ⟨e, he, hl⟩ | hr
      · exact .inl (by rw [findR, List.find?_isSome]; exact ⟨e, he, hl⟩)
      · by_cases hx : ∃ e ∈ c, hasR new e = true
        · obtain ⟨e, he, hx⟩ := hx
          exact .inr (.inl (List.any_eq_true.2 ⟨e, he, by simp [hx, hr e he hx]⟩))
        · exact .inr (.inr (findR_none (by simpa using hx)))
    refine key hs fun o c' h => ?_
    simp only [Repair.Step]
    simp only [Step] at h
    have hi : (findR c old).isSome = c.any (hasR old) := by
      rw [Bool.eq_iff_iff, findR, List.find?_isSome]; simp
    rw [hi] at h
    split
    · rename_i hn; rwa [if_pos hn] at h
    · rename_i hn; rw [if_neg hn] at h
      obtain ⟨-, rfl, rfl⟩ := h
      have hl := hr.resolve_left (by rw [any_iff]; exact hn)
      refine ⟨rfl, ?_⟩
      have : (c.find? fun e => hasR new e && !hasL l e) = none :=
        List.find?_eq_none.2 fun e he hx => by
          rw [Bool.and_eq_true] at hx
          rw [hl e he hx.1] at hx; cases hx.2
      rw [this, findL]
      cases c.find? (hasL l) <;> rfl
  case iter =>
    refine key trivial fun o c' h => ?_
    obtain ⟨d, hd, rfl, rfl⟩ := h
    rw [List.filter_eq_self.2 fun e he => ?_] at hd
    · exact ⟨d, hd, rfl, rfl⟩
    · cases hl : leftOf e with
      | some a => rfl
      | none => obtain ⟨r, rfl⟩ := lone e he hl; exact absurd he (hr r)
  case drain n =>
    refine key trivial fun o c' hst => ?_
    obtain ⟨d₀, x, h1, h2, h3, rfl, rfl⟩ := hst
    have hnot : (fun e : OptionalPair L R => !(leftOf e).isSome) = fun e => (leftOf e).isNone := by
      funext e; cases leftOf e <;> rfl
    have hsum := List.filter_append_perm (fun e : OptionalPair L R => (leftOf e).isSome) c
    rw [hnot] at hsum
    cases x with
    | none =>
      have : (c.filter fun e => (leftOf e).isNone) = [] := by
        rw [List.filter_eq_nil_iff]
        intro e he hl
        have := h2.1 rfl e he
        cases hx : leftOf e <;> rw [hx] at this hl <;> cases this; cases hl
      rw [this, List.append_nil] at hsum
      exact ⟨d₀, h1.trans hsum, by simp, rfl⟩
    | some y =>
      obtain ⟨hy, hyl⟩ := h3 y rfl
      obtain ⟨rest, hrest⟩ := perm_cons_of_mem (List.mem_filter.2 ⟨hy, by rw [hyl]; rfl⟩ : y ∈ c.filter fun e => (leftOf e).isNone)
      refine ⟨(d₀ ++ [y]) ++ rest, by rw [List.append_assoc]; exact (h1.append hrest.symm).trans hsum, ?_, rfl⟩
      rcases hr with hr | hr
      · rw [hrest.length_eq] at hr
        obtain rfl : rest = [] := List.length_eq_zero_iff.1 (by simpa using hr)
        simp
      · have hle : n ≤ (d₀ ++ [y]).length := by rw [List.length_append, h1.length_eq]; exact hr
        rw [List.take_append_of_le_length hle]; rfl
  case drainFilter σ f s n =>
    obtain ⟨⟨g, hf⟩, hg⟩ := hr
    obtain ⟨d, s', m', hd, e, h', hb⟩ := drainFilter_right h hf s n fun l r hm => by simpa only [hf] using hg l r hm s
    have k := split_pure hf (d ++ c.filter fun e => !g e) s
    have hd1 : ∀ e ∈ d, g e = true := fun e he => (List.mem_filter.1 (hd.mem_iff.1 he)).2
    refine ⟨.entries (d.take n), m', _, by simp only [exec, e]; rfl, ⟨d ++ c.filter fun e => !g e, ?_, ?_, rfl⟩, ?_, hb⟩
    · exact (hd.append_right _).trans (List.filter_append_perm g c)
    · rw [k.1, List.filter_append, List.filter_eq_self.2 hd1, List.filter_eq_nil_iff.2 (by simp), List.append_nil]
    · rw [k.2, List.filter_append, List.filter_eq_nil_iff.2 (fun e he => by simp [hd1 e he]), List.nil_append, List.filter_filter]
      simpa only [Bool.and_self] using h'
  case retain σ f s =>
    refine key trivial fun o c' hst => ?_
    obtain ⟨d, us, h1, h2, h3, rfl, rfl⟩ := hst
    obtain rfl : d = [] := by
      cases d with
      | nil => rfl
      | cons a d =>
        have := h2 a (by simp)
        rw [(hr a (h1.mem_iff.1 (by simp))).1] at this; cases this
    exact ⟨us, h1, rfl, (split_all (fun e he => (hr e (h1.mem_iff.1 he)).2) s).symm⟩
  case retainPaired σ f s =>
    refine key trivial fun o c' hst => ?_
    obtain ⟨d, h1, rfl, rfl⟩ := hst
    obtain rfl : d = [] := by
      have : c.filterMap pairOf = [] := by
        rw [List.filterMap_eq_nil_iff]
        intro e he
        have := hr e he
        cases e <;> first | rfl | cases this
      rw [this] at h1; exact h1.eq_nil
    exact ⟨[], h1, rfl, rfl⟩
  case retainUnpaired σ f s =>
    refine key trivial fun o c' hst => ?_
    obtain ⟨d, h1, rfl, rfl⟩ := hst
    obtain rfl : d = [] := by
      rw [List.filter_eq_nil_iff.2 fun e he => by simp [hr e he]] at h1; exact h1.eq_nil
    exact ⟨[], h1, rfl, rfl⟩
  case clone => exact key hr fun _ _ h => h
  all_goals exact key trivial fun _ _ h => h

/-- what the caller has to see to: `Clone` gives equal items, and closures answer by their argument alone -/
def Op.Plain : Op L R → Prop
  | .drainFilter _ f _ _ => Pure f
  | .retain _ f _ => Pure f
  | .retainPaired _ f _ => Pure fun s (p : L × R) => f s p.1 p.2
  | .retainUnpaired _ f _ => Pure f
  | .clone cl cr => (∀ x, (cl x == x) = true) ∧ (∀ x, (cr x == x) = true)
  | _ => True

/-- C150: the list is exact.  Whatever map the API has produced, whatever the call, the arguments, the hash values and the table: the call does what is documented if *and only if*
the situation is on the list. -/
theorem C150_exact (h : Reachable m) (hc : Shows m c) (op : Op L R) (hl : op.Plain) :
    (∃ o m' c', m.exec op = .ok (o, m') ∧ Repair.Step c op o c' ∧ Shows m' c') ↔ Right m.hb c op := by
  have hrep := h.repr_of_shows hc
  constructor
  · rintro ⟨o, m', c', e, s, hs⟩
    -- what the crate does, if it does not break the map
    have key : Safe m.hb c op → ∃ c₁, Step c op o c₁ ∧ c₁.Perm c' := fun hsafe => by
      obtain ⟨o', m'', c₁, e', s', h', -⟩ := exec_simulates hrep hsafe
      rw [e] at e'; cases e'
      exact ⟨c₁, s', h'.shows.unique hs⟩
    have same : ∀ {P Q : OptionalPair L R → Bool}, (c.filter P).Perm (c.filter Q) → ∀ e ∈ c, P e = Q e := by
      intro P Q hp e he
      have := hp.mem_iff (a := e)
      rw [List.mem_filter, List.mem_filter] at this
      rw [Bool.eq_iff_iff]
      exact ⟨fun h => (this.1 ⟨he, h⟩).2, fun h => (this.2 ⟨he, h⟩).2⟩
    cases op
    case unpair l r =>
      by_cases hx : ∃ e ∈ c, hasL l e = true ∧ hasR r e = true
      · exact .inl hx
      · refine .inr ((C144_unpair h hc l r fun e he => ?_).1.1 ⟨_, m', c', Prod.ext rfl ?_, hs⟩)
        · cases h1 : hasL l e <;> cases h2 : hasR r e <;> first | rfl | exact absurd ⟨e, he, h1, h2⟩ hx
        · simp only [exec] at e; exact (Prod.mk.inj (Except.ok.inj e)).2
    case swapLeft old new =>
      by_cases ho : ∃ e ∈ c, hasL old e = true
      · exact .inl ho
      · have ho' : ∀ e ∈ c, hasL old e = false := by simpa using ho
        obtain ⟨c₁, s₁, hp⟩ := key trivial
        simp only [Repair.Step, if_neg (mt any_iff.2 ho)] at s
        obtain ⟨-, rfl⟩ := s
        simp only [Step, PartialSpec.swapLeft, findL_none ho'] at s₁
        obtain ⟨-, rfl⟩ := s₁
        refine .inr fun e he => ?_
        simpa using (List.mem_filter.1 (hp.mem_iff.2 he)).2
    case swapRight old new =>
      by_cases ho : ∃ e ∈ c, hasR old e = true
      · exact .inl ho
      · have ho' : ∀ e ∈ c, hasR old e = false := by simpa using ho
        obtain ⟨c₁, s₁, hp⟩ := key trivial
        simp only [Repair.Step, if_neg (mt any_iff.2 ho)] at s
        obtain ⟨-, rfl⟩ := s
        simp only [Step, PartialSpec.swapRight, findR_none ho'] at s₁
        obtain ⟨-, rfl⟩ := s₁
        refine .inr fun e he => ?_
        simpa using (List.mem_filter.1 (hp.mem_iff.2 he)).2
    case swapLeftOrInsert old new r =>
      by_cases ho : ∃ e ∈ c, hasL old e = true
      · exact .inl ho
      · have ho' : ∀ e ∈ c, hasL old e = false := by simpa using ho
        simp only [Repair.Step, if_neg (mt any_iff.2 ho)] at s
        obtain ⟨rfl, -⟩ := s
        simp only [exec] at e
        cases hx : m.swapLeftOrInsert old new r with
        | error x => rw [hx] at e; cases e
        | ok x =>
          rw [hx] at e
          obtain rfl : x.2 = m' := (Prod.mk.inj (Except.ok.inj e)).2
          exact .inr (((C144_swap_or_insert h hc).1 old new r ho').1 ⟨_, _, hx, hs⟩)
    case swapRightOrInsert old new l =>
      by_cases ho : ∃ e ∈ c, hasR old e = true
      · exact .inl ho
      · have ho' : ∀ e ∈ c, hasR old e = false := by simpa using ho
        simp only [Repair.Step, if_neg (mt any_iff.2 ho)] at s
        obtain ⟨rfl, -⟩ := s
        simp only [exec] at e
        cases hx : m.swapRightOrInsert old new l with
        | error x => rw [hx] at e; cases e
        | ok x =>
          rw [hx] at e
          obtain rfl : x.2 = m' := (Prod.mk.inj (Except.ok.inj e)).2
          exact .inr (((C144_swap_or_insert h hc).2 old new l ho').1 ⟨_, _, hx, hs⟩)
    case iter =>
      obtain ⟨d, hd, rfl, -⟩ := s
      obtain ⟨c₁, ⟨d', hd', e', -⟩, -⟩ := key trivial
      cases e'
      intro r hr
      cases (List.mem_filter.1 ((hd.symm.trans hd').mem_iff.1 hr)).2
    case drain n =>
      obtain ⟨d, hd, rfl, -⟩ := s
      simp only [exec] at e
      cases hx : m.drainTake n with
      | error x => rw [hx] at e; cases e
      | ok x =>
        rw [hx] at e
        have e1 : x.1 = d.take n := Out.entries.inj (Prod.mk.inj (Except.ok.inj e)).1
        exact (C144_drain h hc n).1 ⟨d, x.2, hd, by rw [hx, ← e1]⟩
    case drainFilter σ f st n =>
      obtain ⟨g, hf⟩ := hl
      refine ⟨⟨g, hf⟩, ?_⟩
      simp only [exec] at e
      cases hx : m.drainFilterTake f st n with
      | error x => rw [hx] at e; cases e
      | ok x =>
        rw [hx] at e
        obtain rfl : x.2.2 = m' := (Prod.mk.inj (Except.ok.inj e)).2
        intro l r hm u
        simpa only [hf] using drainFilter_wrong hrep hf st n hx hs l r hm
    case retain σ f st =>
      obtain ⟨g, hf⟩ := hl
      obtain ⟨d, hd, rfl, rfl⟩ := s
      obtain ⟨c₁, ⟨d', us, h1, h2, h3, -, rfl⟩, hp⟩ := key trivial
      rw [(split_pure hf d' st).2, (split_pure hf d st).1] at hp
      have hp := hp.trans (hd.filter g)
      have := perm_parts h1 h2 h3
      have hp' := ((this.1.filter (fun e => !g e)).symm.append this.2.symm).trans hp
      intro x hx
      have hmem := hp'.mem_iff (a := x)
      rw [List.mem_append, List.mem_filter, List.mem_filter, List.mem_filter, List.mem_filter] at hmem
      simp only [hf]
      cases hl : leftOf x with
      | none =>
        refine ⟨rfl, fun _ => (hmem.1 (.inr ⟨hx, by rw [hl]; rfl⟩)).2⟩
      | some a =>
        rw [hl] at hmem
        cases hgx : g x with
        | true =>
          rcases hmem.2 ⟨hx, hgx⟩ with h | h
          · rw [hgx] at h; cases h.2
          · cases h.2
        | false =>
          have := (hmem.1 (.inl ⟨⟨hx, rfl⟩, by rw [hgx]; rfl⟩)).2
          rw [hgx] at this; cases this
    case retainPaired σ f st =>
      obtain ⟨g, hf⟩ := hl
      obtain ⟨d, hd, rfl, rfl⟩ := s
      obtain ⟨c₁, ⟨d', hd', -, rfl⟩, hp⟩ := key trivial
      rw [(split_pure (f := fun s (p : L × R) => f s p.1 p.2) hf d' st).2, (split_pure (f := fun s (p : L × R) => f s p.1 p.2) hf d st).1] at hp
      intro x hx
      cases x with
      | someBoth l r =>
        have hm : (l, r) ∈ c.filterMap pairOf := List.mem_filterMap.2 ⟨_, hx, rfl⟩
        have hmem := hp.mem_iff (a := someBoth l r)
        simp only [List.mem_append, List.mem_map, List.mem_filter] at hmem
        cases hgx : g (l, r) with
        | true =>
          rcases hmem.2 (.inl ⟨(l, r), ⟨hd.mem_iff.2 hm, hgx⟩, rfl⟩) with ⟨p, ⟨-, hp⟩, hpe⟩ | h
          · cases hpe; rw [hgx] at hp; cases hp
          · cases h.2
        | false =>
          rcases hmem.1 (.inl ⟨(l, r), ⟨hd'.mem_iff.2 hm, by rw [hgx]; rfl⟩, rfl⟩) with ⟨p, ⟨-, hp⟩, hpe⟩ | h
          · cases hpe; rw [hgx] at hp; cases hp
          · cases h.2
      | _ => rfl
    case retainUnpaired σ f st =>
      obtain ⟨g, hf⟩ := hl
      obtain ⟨d, hd, rfl, rfl⟩ := s
      obtain ⟨c₁, ⟨d', hd', -, rfl⟩, hp⟩ := key trivial
      rw [(split_pure hf d' st).2, (split_pure hf d st).1] at hp
      intro x hx
      cases hix : isPair x with
      | true => rfl
      | false =>
        have hm : x ∈ c.filter fun e => !isPair e := List.mem_filter.2 ⟨hx, by rw [hix]; rfl⟩
        have hmem := hp.mem_iff (a := x)
        simp only [List.mem_append, List.mem_filter, hix] at hmem
        cases hgx : g x with
        | true =>
          rcases hmem.2 (.inl ⟨hd.mem_iff.2 hm, hgx⟩) with ⟨-, hp⟩ | h
          · rw [hgx] at hp; cases hp
          · cases h.2
        | false =>
          rcases hmem.1 (.inl ⟨hd'.mem_iff.2 hm, by rw [hgx]; rfl⟩) with ⟨-, hp⟩ | h
          · rw [hgx] at hp; cases hp
          · cases h.2
    case clone => exact hl
    all_goals trivial
  · intro hr
    obtain ⟨o, m', c', e, s, h', -⟩ := right_simulates hrep hr
    exact ⟨o, m', c', e, s, h'.shows⟩

/-- a history that stays on the list, in whatever order entries are visited; the contents are the documented ones -/
def RightRun (hb : BuildHasher L R) (c : List (OptionalPair L R)) : List (Op L R) → Prop
  | [] => True
  | op :: ops => Right hb c op ∧ ∀ o c', Repair.Step c op o c' → RightRun hb c' ops

theorem right_run (h : Repr m c) {ops : List (Op L R)} (hr : RightRun m.hb c ops) :
    ∃ os m' c', m.run ops = .ok (os, m') ∧ Repair.Steps c ops os c' ∧ Repr m' c' := by
  induction ops generalizing m c with
  | nil => exact ⟨_, _, _, rfl, ⟨rfl, rfl⟩, h⟩
  | cons op ops ih =>
    obtain ⟨o, m₁, c₁, e, s, h₁, hb⟩ := right_simulates h hr.1
    obtain ⟨os, m', c', e', s', h'⟩ := ih h₁ (by rw [hb]; exact hr.2 _ _ s)
    exact ⟨_, m', c', by simp only [run, e, e', bind, Except.bind, pure, Except.pure], ⟨o, os, c₁, rfl, s, s'⟩, h'⟩

/-- C150: a history that stays on the list goes through without a panic and does what is documented, call by call; the map at the end holds what the documentation says. -/
theorem C150_history (hb : BuildHasher L R) (n : Nat) (ops : List (Op L R)) (hr : RightRun hb [] ops) :
    ∃ os m' c', (withCapacityAndHasher n hb).run ops = .ok (os, m') ∧ Repair.Steps [] ops os c' ∧ Shows m' c' := by
  obtain ⟨os, m', c', e, s, h'⟩ := right_run (withCapacity_repr n hb) hr
  exact ⟨os, m', c', e, s, h'.shows⟩

/-- C150: and the repairs change nothing in it (visited items up to order, closures answering by their argument alone): a caller who stays on the list will not notice them. -/
theorem C150_repair (hb : BuildHasher L R) (n : Nat) (ops : List (Op L R)) (hr : RightRun hb [] ops) (hl : ∀ op ∈ ops, op.LawfulClone)
    (ho : ∀ op ∈ ops, Repair.OrderFree op) :
    ∃ os m' os' m'' c', (withCapacityAndHasher n hb).run ops = .ok (os, m') ∧ Repair.run (withCapacityAndHasher n hb) ops = .ok (os', m'') ∧
      os.length = os'.length ∧ (∀ p ∈ os.zip os', SameOut p.1 p.2) ∧ Shows m' c' ∧ Shows m'' c' := by
  suffices key : ∀ (ops : List (Op L R)) (m₁ m₂ : PartialMap L R) (c : List (OptionalPair L R)), Repr m₁ c → Repr m₂ c → RightRun m₁.hb c ops →
      (∀ op ∈ ops, op.LawfulClone) → (∀ op ∈ ops, Repair.OrderFree op) →
      ∃ os m' os' m'' c', m₁.run ops = .ok (os, m') ∧ Repair.run m₂ ops = .ok (os', m'') ∧
        os.length = os'.length ∧ (∀ p ∈ os.zip os', SameOut p.1 p.2) ∧ Repr m' c' ∧ Repr m'' c' by
    obtain ⟨os, m', os', m'', c', e, e', h1, h2, h3, h4⟩ := key ops _ _ [] (withCapacity_repr n hb) (withCapacity_repr n hb) hr hl ho
    exact ⟨os, m', os', m'', c', e, e', h1, h2, h3.shows, h4.shows⟩
  intro ops
  induction ops with
  | nil => intro m₁ m₂ c r₁ r₂ _ _ _; exact ⟨[], m₁, [], m₂, c, rfl, rfl, rfl, by simp, r₁, r₂⟩
  | cons op ops ih =>
    intro m₁ m₂ c r₁ r₂ hr hl ho
    obtain ⟨o₁, m₁', c₁, e₁, s₁, r₁', hb₁⟩ := right_simulates r₁ hr.1
    obtain ⟨o₂, m₂', c₂, e₂, s₂, r₂'⟩ := Repair.exec_simulates r₂ (hl op (by simp))
    obtain ⟨hso, hperm⟩ := Repair.step_det (ho op (by simp)) s₁ s₂
    obtain ⟨os₁, m₁'', os₂, m₂'', c', f₁, f₂, hlen, hz, q₁, q₂⟩ :=
      ih m₁' m₂' c₁ r₁' (r₂'.perm hperm.symm) (by rw [hb₁]; exact hr.2 _ _ s₁) (fun op h => hl op (by simp [h])) (fun op h => ho op (by simp [h]))
    refine ⟨o₁ :: os₁, m₁'', o₂ :: os₂, m₂'', c', ?_, ?_, by simp [hlen], ?_, q₁, q₂⟩
    · simp only [run, e₁, f₁, bind, Except.bind, pure, Except.pure]
    · simp only [Repair.run, e₂, f₂, bind, Except.bind, pure, Except.pure]
    · intro p hp
      rw [List.zip_cons_cons, List.mem_cons] at hp
      rcases hp with rfl | hp
      · exact hso
      · exact hz p hp

/-- on and off the list, for `demo`, in which all hashes are equal -/
example : let c := [someRight 30, someLeft 3, someBoth 2 20, someBoth 1 10]
    (¬ ∃ o m' c', demo.exec (.unpair 1 20) = .ok (o, m') ∧ Repair.Step c (.unpair 1 20) o c' ∧ Shows m' c') ∧
    (∃ o m' c', demo.exec (.unpair 1 30) = .ok (o, m') ∧ Repair.Step c (.unpair 1 30) o c' ∧ Shows m' c') ∧
    (¬ ∃ o m' c', demo.exec .iter = .ok (o, m') ∧ Repair.Step c .iter o c' ∧ Shows m' c') ∧
    (∃ o m' c', demo.exec (.drain 9) = .ok (o, m') ∧ Repair.Step c (.drain 9) o c' ∧ Shows m' c') ∧
    (∃ o m' c', demo.exec (.drainFilter Unit (fun _ e => (hasL 1 e, ())) () 9) = .ok (o, m') ∧
      Repair.Step c (.drainFilter Unit (fun _ e => (hasL 1 e, ())) () 9) o c' ∧ Shows m' c') ∧
    (¬ ∃ o m' c', demo.exec (.drainFilter Unit (fun _ e => (!hasL 1 e, ())) () 9) = .ok (o, m') ∧
      Repair.Step c (.drainFilter Unit (fun _ e => (!hasL 1 e, ())) () 9) o c' ∧ Shows m' c') := by
  intro c
  have k := fun op hl => C150_exact demo_reachable demo_shows (op : Op Nat Nat) hl
  refine ⟨mt (k (.unpair 1 20) trivial).1 ?_, (k (.unpair 1 30) trivial).2 ?_, mt (k .iter trivial).1 ?_, (k (.drain 9) trivial).2 ?_,
    (k (.drainFilter Unit (fun _ e => (hasL 1 e, ())) () 9) ⟨_, fun _ _ => rfl⟩).2 ?_,
    mt (k (.drainFilter Unit (fun _ e => (!hasL 1 e, ())) () 9) ⟨_, fun _ _ => rfl⟩).1 ?_⟩
  · rintro (⟨e, he, h1, h2⟩ | h)
    · simp at he; rcases he with rfl | rfl | rfl | rfl <;> simp [hasL, hasR] at h1 h2
    · exact h 1 10 2 20 (by simp) (by simp) rfl rfl (by rw [demo_hb]; rfl) (by rw [demo_hb]; rfl)
  · refine .inr ?_
    intro a b a' b' _ h2 _ h4; simp at h2 h4; omega
  · intro h; exact h 30 (by simp)
  · exact .inl (by decide)
  · exact ⟨⟨_, fun _ _ => rfl⟩, fun l r _ _ _ => rfl⟩
  · rintro ⟨-, h⟩
    exact absurd (h 1 10 (by simp) () rfl) (by simp [hasL])

/-- a history on the list, all hashes equal: pairs are made, broken, swapped, filtered and drained -/
example : let ops : List (Op Nat Nat) := [.insertLeft 1, .insertRight 10, .pair 1 10, .insert 2 20, .unpair 1 10, .swapLeft 2 5, .swapRightOrInsert 70 80 6,
      .removeRight 10, .iter, .drain 0]
    ∃ os m' os' m'' c', (withCapacityAndHasher 0 constHash).run ops = .ok (os, m') ∧ Repair.run (withCapacityAndHasher 0 constHash) ops = .ok (os', m'') ∧
      os.length = os'.length ∧ (∀ p ∈ os.zip os', SameOut p.1 p.2) ∧ Shows m' c' ∧ Shows m'' c' := by
  intro ops
  refine C150_repair constHash 0 ops ?_ (by simp [ops, Op.LawfulClone]) (by simp [ops, Repair.OrderFree, OrderFree])
  refine ⟨trivial, ?_⟩; rintro _ _ ⟨-, rfl⟩
  refine ⟨trivial, ?_⟩; rintro _ _ ⟨-, rfl⟩
  refine ⟨trivial, ?_⟩; rintro _ _ ⟨-, rfl⟩
  refine ⟨trivial, ?_⟩; rintro _ _ ⟨-, rfl⟩
  refine ⟨.inl (by decide), ?_⟩; rintro _ _ ⟨-, rfl⟩
  refine ⟨.inl (by decide), ?_⟩; rintro _ _ ⟨-, rfl⟩
  refine ⟨.inr (by decide), ?_⟩; rintro _ _ ⟨rfl, -⟩
  refine ⟨trivial, ?_⟩; rintro _ _ ⟨-, rfl⟩
  refine ⟨?_, ?_⟩
  · intro r
    change someRight r ∉ [someBoth 6 80, someBoth 5 20, someLeft 1]
    simp
  · rintro _ _ ⟨-, -, -, rfl⟩
    exact ⟨.inr (Nat.zero_le _), fun _ _ _ => trivial⟩

end Verif.PartialMap
