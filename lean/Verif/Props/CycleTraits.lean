import Verif.Props.CycleIter
import Verif.CycleMap.Counter
/-! Properties C24–C33 of `CycleMap`: equality, extension, capacity, serde, borrowed lookup, cloning. -/
set_option linter.unusedSectionVars false
namespace Verif.CycleMap
open CycleSpec OptionalPair Demo

variable [RawImpl] [LawfulRaw] {L R : Type} [BEq L] [BEq R] [EquivBEq L] [EquivBEq R]
variable {m : CycleMap L R} {c : List (L × R)}

/-! ### C24 -/

/-- C24: `==` on maps never panics and holds exactly when each pair of one map is, up to `==`, a pair of
the other.  (The two maps may have different hash builders and histories.) -/
theorem C24_eq {m' : CycleMap L R} {c' : List (L × R)} (h : Reachable m) (hc : Shows m c)
    (h' : Reachable m') (hc' : Shows m' c') :
    ∃ b, m.eq m' = .ok b ∧ (b = true ↔
      (∀ p ∈ c, ∃ q ∈ c', (p.1 == q.1) = true ∧ (p.2 == q.2) = true) ∧
      (∀ q ∈ c', ∃ p ∈ c, (p.1 == q.1) = true ∧ (p.2 == q.2) = true)) := by
  refine ⟨_, eq_refines (h.repr_of_shows hc) (h'.repr_of_shows hc'), ?_⟩
  rw [Bool.and_eq_true, beq_iff_eq, sub_iff]
  constructor
  · rintro ⟨hl, hs⟩
    refine ⟨hs, fun q hq => ?_⟩
    obtain ⟨p, hp, a, b⟩ := hs.symm_of_length hc.oneToOne (Nat.le_of_eq hl.symm) q hq
    exact ⟨p, hp, BEq.symm a, BEq.symm b⟩
  · rintro ⟨h1, h2⟩
    have h2' : Sub c' c := fun q hq => by
      obtain ⟨p, hp, a, b⟩ := h2 q hq
      exact ⟨p, hp, BEq.symm a, BEq.symm b⟩
    have h1' : Sub c c' := h1
    exact ⟨Nat.le_antisymm (h1'.length_le hc.oneToOne) (h2'.length_le hc'.oneToOne), h1⟩

/-- C24: `==` is an equivalence relation on reachable maps. -/
theorem C24_equivalence {m₁ m₂ m₃ : CycleMap L R} (h₁ : Reachable m₁) (h₂ : Reachable m₂) (h₃ : Reachable m₃) :
    m₁.eq m₁ = .ok true ∧ m₁.eq m₂ = m₂.eq m₁ ∧
    (m₁.eq m₂ = .ok true → m₂.eq m₃ = .ok true → m₁.eq m₃ = .ok true) := by
  obtain ⟨c₁, r₁⟩ := h₁.repr
  obtain ⟨c₂, r₂⟩ := h₂.repr
  obtain ⟨c₃, r₃⟩ := h₃.repr
  have key : ∀ {m m' : CycleMap L R} {c c' : List (L × R)}, Repr m c → Repr m' c' →
      (m.eq m' = .ok true ↔ c.length = c'.length ∧ Sub c c') := by
    intro m m' c c' r r'
    rw [eq_refines r r']
    constructor
    · intro h
      have h := Except.ok.inj h
      rw [Bool.and_eq_true, beq_iff_eq, sub_iff] at h; exact h
    · intro h
      rw [← sub_iff] at h
      rw [h.1, h.2]; simp
  have symm : ∀ {m m' : CycleMap L R} {c c' : List (L × R)}, Repr m c → Repr m' c' →
      m.eq m' = .ok true → m'.eq m = .ok true := by
    intro m m' c c' r r' h
    rw [key r r'] at h; rw [key r' r]
    exact ⟨h.1.symm, h.2.symm_of_length r.oneToOne (Nat.le_of_eq h.1.symm)⟩
  refine ⟨(key r₁ r₁).2 ⟨rfl, Sub.refl _⟩, ?_, ?_⟩
  · have e1 := eq_refines r₁ r₂
    have e2 := eq_refines r₂ r₁
    have s1 := symm r₁ r₂
    have s2 := symm r₂ r₁
    rw [e1, e2] at *
    generalize (c₁.length == c₂.length && c₁.all fun q => hasPair c₂ q.1 q.2) = a at *
    generalize (c₂.length == c₁.length && c₂.all fun q => hasPair c₁ q.1 q.2) = b at *
    cases a <;> cases b <;> simp_all
  · rw [key r₁ r₂, key r₂ r₃, key r₁ r₃]
    rintro ⟨a, b⟩ ⟨a', b'⟩
    exact ⟨a.trans a', b.trans b'⟩

example : demo.eq demo = .ok true := (C24_equivalence demo_reachable demo_reachable demo_reachable).1
/-- an empty map with a different hash builder is not equal to `demo` -/
example : ∃ b, demo.eq (withHasher spreadHash) = .ok b ∧ b = false := by
  obtain ⟨b, e, h⟩ := C24_eq demo_reachable demo_shows (.new spreadHash) (withHasher_repr spreadHash).shows
  refine ⟨b, e, ?_⟩
  cases b with
  | false => rfl
  | true =>
    obtain ⟨q, hq, _⟩ := (h.1 rfl).1 (3, 30) (by decide)
    cases hq

/-! ### C25 -/

theorem mem_survivors {xs : List (L × R)} {p : L × R} :
    p ∈ survivors xs ↔ ∃ ys zs, xs = ys ++ p :: zs ∧ ∀ z ∈ zs, (z.1 == p.1) = false ∧ (z.2 == p.2) = false := by
  induction xs with
  | nil => simp [survivors]
  | cons x xs ih =>
    have hx : (∃ ys zs, x :: xs = ys ++ p :: zs ∧ ∀ z ∈ zs, (z.1 == p.1) = false ∧ (z.2 == p.2) = false) ↔
        (x = p ∧ ∀ z ∈ xs, (z.1 == p.1) = false ∧ (z.2 == p.2) = false) ∨ p ∈ survivors xs := by
      rw [ih]
      constructor
      · rintro ⟨ys, zs, e, h⟩
        cases ys with
        | nil => cases e; exact .inl ⟨rfl, h⟩
        | cons y ys => cases e; exact .inr ⟨ys, zs, rfl, h⟩
      · rintro (⟨rfl, h⟩ | ⟨ys, zs, rfl, h⟩)
        · exact ⟨[], xs, rfl, h⟩
        · exact ⟨x :: ys, zs, rfl, h⟩
    rw [hx, survivors]
    have hc : xs.any (conflicts x) = true ↔ ¬ ∀ z ∈ xs, (z.1 == x.1) = false ∧ (z.2 == x.2) = false := by
      rw [List.any_eq_true]
      constructor
      · rintro ⟨z, hz, h⟩ hn
        rw [conflicts, (hn z hz).1, (hn z hz).2] at h; cases h
      · intro h
        apply Classical.byContradiction
        intro hn
        apply h
        intro z hz
        have : ¬ conflicts x z = true := fun h => hn ⟨z, hz, h⟩
        simpa [conflicts] using this
    split
    · rename_i h
      rw [hc] at h
      constructor
      · exact .inr
      · rintro (⟨rfl, h'⟩ | h')
        · exact absurd h' h
        · exact h'
    · rename_i h
      rw [hc, Classical.not_not] at h
      rw [List.mem_cons]
      constructor
      · rintro (rfl | h')
        · exact .inl ⟨rfl, h⟩
        · exact .inr h'
      · rintro (⟨rfl, _⟩ | h')
        · exact .inl rfl
        · exact .inr h'

/-- C25: extending is inserting the elements one after the other … -/
theorem C25_extend_is_inserts (h : Reachable m) (xs : List (L × R)) :
    ∃ os m', m.extend xs = .ok m' ∧ m.run (xs.map fun x => .insert x.1 x.2) = .ok (os, m') := by
  obtain ⟨c, hc⟩ := h.repr
  clear h
  induction xs generalizing m c with
  | nil => exact ⟨[], m, rfl, rfl⟩
  | cons x xs ih =>
    obtain ⟨m1, e1, h1, _⟩ := insert_refines hc x.1 x.2
    obtain ⟨os, m2, e2, e3⟩ := ih _ h1
    refine ⟨.inserted (CycleSpec.insert c x.1 x.2).1 :: os, m2, ?_, ?_⟩
    · simp only [extend, e1, bind, Except.bind]; exact e2
    · simp only [List.map_cons, run, exec, e1, bind, Except.bind, pure, Except.pure, e3]

/-- … and a pair of the sequence is in the result exactly if no later element shares an item with it,
an old pair exactly if no element of the sequence does. -/
theorem C25_extend (h : Reachable m) (hc : Shows m c) (xs : List (L × R)) :
    ∃ m' c', m.extend xs = .ok m' ∧ Shows m' c' ∧ ∀ p, p ∈ c' ↔
      (∃ ys zs, xs = ys ++ p :: zs ∧ ∀ z ∈ zs, (z.1 == p.1) = false ∧ (z.2 == p.2) = false) ∨
      (p ∈ c ∧ ∀ z ∈ xs, (z.1 == p.1) = false ∧ (z.2 == p.2) = false) := by
  obtain ⟨m', e, h', _⟩ := extend_refines (h.repr_of_shows hc) xs
  refine ⟨m', _, e, (h'.perm (insertAll_perm xs c)).shows, fun p => ?_⟩
  rw [List.mem_append, mem_survivors, List.mem_filter]
  simp [conflicts]

/-- C25 for `collect` / `from_iter`. -/
theorem C25_from_iter (hb : BuildHasher L R) (xs : List (L × R)) :
    ∃ m' c', fromIter hb xs = .ok m' ∧ Shows m' c' ∧ ∀ p, p ∈ c' ↔
      ∃ ys zs, xs = ys ++ p :: zs ∧ ∀ z ∈ zs, (z.1 == p.1) = false ∧ (z.2 == p.2) = false := by
  obtain ⟨m', c', e, s, h⟩ := C25_extend (.new hb) (withHasher_repr hb).shows xs
  exact ⟨m', c', e, s, fun p => by rw [h p]; simp⟩

example : ∃ m' c', fromIter constHash [(1, 10), (2, 20), (1, 20)] = .ok m' ∧ Shows m' c' ∧ ∀ p, p ∈ c' ↔
    ∃ ys zs, [(1, 10), (2, 20), (1, 20)] = ys ++ p :: zs ∧ ∀ z ∈ zs, (z.1 == p.1) = false ∧ (z.2 == p.2) = false :=
  C25_from_iter constHash _

/-! ### C26, C27 -/

/-- C26: sizes. -/
theorem C26_len (hc : Shows m c) :
    m.len = c.length ∧ m.iterLeft.length = m.len ∧ m.iterRight.length = m.len ∧
    (m.isEmpty = true ↔ c = []) ∧ Shows m.clear [] := by
  refine ⟨hc.len, ?_, ?_, ?_, (clear_refines m).shows⟩
  · rw [hc.iterLeft.length_eq, hc.len, List.length_map]
  · rw [hc.iterRight.length_eq, hc.len, List.length_map]
  · rw [hc.isEmpty, List.isEmpty_iff]

/-- C26: new maps are empty. -/
theorem C26_new (hb : BuildHasher L R) (n : Nat) :
    Shows (withHasher hb) ([] : List (L × R)) ∧ Shows (withCapacityAndHasher n hb) ([] : List (L × R)) :=
  ⟨(withHasher_repr hb).shows, (withCapacity_repr n hb).shows⟩

example : demo.len = 3 ∧ Shows demo.clear [] :=
  ⟨(C26_len demo_shows).1, (C26_len demo_shows).2.2.2.2⟩

/-- C27: capacity management is invisible. -/
theorem C27_capacity (h : Reachable m) (hc : Shows m c) (n : Nat) (a b : Bool) :
    Shows (m.reserve n) c ∧ Shows (m.shrinkTo n) c ∧ Shows m.shrinkToFit c ∧
    Shows (m.tryReserve n a b).2 c ∧ (m.tryReserve n a b).1 = (a && b) := by
  have h := h.repr_of_shows hc
  exact ⟨(reserve_refines h n).shows, (shrinkTo_refines h n).shows, (shrinkToFit_refines h).shows,
    (tryReserve_refines h n a b).2.shows, (tryReserve_refines h n a b).1⟩

example : Shows (demo.shrinkTo 2) [(3, 30), (2, 20), (1, 10)] := (C27_capacity demo_reachable demo_shows 2 true true).2.1

/-! ### C28 -/

omit [RawImpl] [LawfulRaw] in
/-- C28: the same history on two maps with different hash builders and different table implementations
returns the same results, call by call (visited items up to order). -/
theorem C28_hash_independent (I₁ I₂ : RawImpl) (hI₁ : @LawfulRaw I₁) (hI₂ : @LawfulRaw I₂) (hb₁ hb₂ : BuildHasher L R)
    (ops : List (Op L R)) (hs : SafeRun [] ops) (ho : ∀ op ∈ ops, OrderFree op) :
    ∃ os₁ m₁ os₂ m₂, @run I₁ L R _ _ (@withHasher I₁ L R _ _ hb₁) ops = .ok (os₁, m₁) ∧
      @run I₂ L R _ _ (@withHasher I₂ L R _ _ hb₂) ops = .ok (os₂, m₂) ∧ os₁.length = os₂.length ∧
      (∀ p ∈ os₁.zip os₂, SameOut p.1 p.2) ∧ ∃ c, @Shows I₁ L R _ _ m₁ c ∧ @Shows I₂ L R _ _ m₂ c := by
  suffices key : ∀ (ops : List (Op L R)) (m₁ m₂ : CycleMap L R) (c : List (L × R)), Repr m₁ c → Repr m₂ c →
      SafeRun c ops → (∀ op ∈ ops, OrderFree op) →
      ∃ os₁ m₁' os₂ m₂', @run I₁ L R _ _ m₁ ops = .ok (os₁, m₁') ∧ @run I₂ L R _ _ m₂ ops = .ok (os₂, m₂') ∧
        os₁.length = os₂.length ∧ (∀ p ∈ os₁.zip os₂, SameOut p.1 p.2) ∧ ∃ c, Repr m₁' c ∧ Repr m₂' c by
    obtain ⟨os₁, m₁, os₂, m₂, e₁, e₂, hl, hz, c, r₁, r₂⟩ := key ops _ _ []
      (@withHasher_repr I₁ hI₁ L R _ _ _ _ hb₁) (@withHasher_repr I₂ hI₂ L R _ _ _ _ hb₂) hs ho
    exact ⟨os₁, m₁, os₂, m₂, e₁, e₂, hl, hz, c, @Repr.shows I₁ hI₁ _ _ _ _ _ _ _ _ r₁, @Repr.shows I₂ hI₂ _ _ _ _ _ _ _ _ r₂⟩
  intro ops
  induction ops with
  | nil => intro m₁ m₂ c r₁ r₂ _ _; exact ⟨[], m₁, [], m₂, rfl, rfl, rfl, by simp, c, r₁, r₂⟩
  | cons op ops ih =>
    intro m₁ m₂ c r₁ r₂ hs ho
    obtain ⟨o₁, m₁', c₁, e₁, s₁, r₁'⟩ := @exec_simulates I₁ hI₁ _ _ _ _ _ _ _ _ r₁ op hs.1
    obtain ⟨o₂, m₂', c₂, e₂, s₂, r₂'⟩ := @exec_simulates I₂ hI₂ _ _ _ _ _ _ _ _ r₂ op hs.1
    obtain ⟨hso, hperm⟩ := step_det (ho op (by simp)) s₁ s₂
    obtain ⟨os₁, m₁'', os₂, m₂'', f₁, f₂, hl, hz, c', q₁, q₂⟩ :=
      ih m₁' m₂' c₁ r₁' (@Repr.perm I₂ hI₂ _ _ _ _ _ _ _ _ _ r₂' hperm.symm) (hs.2 _ _ s₁) (fun op h => ho op (by simp [h]))
    refine ⟨o₁ :: os₁, m₁'', o₂ :: os₂, m₂'', ?_, ?_, by simp [hl], ?_, c', q₁, q₂⟩
    · simp only [run, e₁, f₁, bind, Except.bind, pure, Except.pure]
    · simp only [run, e₂, f₂, bind, Except.bind, pure, Except.pure]
    · intro p hp
      rw [List.zip_cons_cons, List.mem_cons] at hp
      rcases hp with rfl | hp
      · exact hso
      · exact hz p hp

/-- a history to which C28 applies, run under two very different hash functions and tables -/
example : let ops : List (Op Nat Nat) := [.insert 1 10, .insert 2 10, .swapLeft 2 3, .iter]
    ∃ os₁ m₁ os₂ m₂, @run tidyRaw Nat Nat _ _ (@withHasher tidyRaw Nat Nat _ _ spreadHash) ops = .ok (os₁, m₁) ∧
    @run messyRaw Nat Nat _ _ (@withHasher messyRaw Nat Nat _ _ constHash) ops = .ok (os₂, m₂) ∧
    os₁.length = os₂.length ∧ (∀ p ∈ os₁.zip os₂, SameOut p.1 p.2) ∧
    ∃ c, @Shows tidyRaw Nat Nat _ _ m₁ c ∧ @Shows messyRaw Nat Nat _ _ m₂ c :=
  C28_hash_independent tidyRaw messyRaw tidyRaw_lawful messyRaw_lawful spreadHash constHash
    [.insert 1 10, .insert 2 10, .swapLeft 2 3, .iter] (by simp [SafeRun, Safe]) (by simp [OrderFree])

/-! ### C29, C30 -/

theorem visitLoop_ok {E : Type} (h : Repr m c) (xs : List (L × R)) (rest : List (Except E (L × R))) :
    ∃ m', m.extend xs = .ok m' ∧ m.visitLoop (xs.map .ok ++ rest) = m'.visitLoop rest ∧ Repr m' (insertAll c xs) := by
  induction xs generalizing m c with
  | nil => exact ⟨m, rfl, rfl, h⟩
  | cons x xs ih =>
    obtain ⟨m1, e1, h1, _⟩ := insert_refines h x.1 x.2
    obtain ⟨m2, e2, e3, h2⟩ := ih h1
    refine ⟨m2, ?_, ?_, h2⟩
    · simp only [extend, e1, bind, Except.bind]; exact e2
    · simp only [List.map_cons, List.cons_append, visitLoop, e1, bind, Except.bind]; exact e3

/-- C29: serializing announces the right length and emits every pair once; deserializing that sequence,
under any hash builder and size hint, gives a map with the same pairs, equal to the original. -/
theorem C29_serde_roundtrip {E : Type} (h : Reachable m) (hc : Shows m c) (hb : BuildHasher L R) (hint : Option Nat) :
    ∃ xs m', m.serialize = .ok (c.length, xs) ∧ xs.Perm c ∧
      visitSeq (E := E) hb hint (xs.map .ok) = .ok (.ok m') ∧ Shows m' c ∧
      m.eq m' = .ok true ∧ m'.eq m = .ok true := by
  have hr := h.repr_of_shows hc
  obtain ⟨xs, e, hp⟩ := iterList_refines hr
  obtain ⟨m', _, e2, h2⟩ := visitLoop_ok (E := E) (withCapacity_repr (hint.getD 0) hb) xs []
  have h3 : Repr m' c := by
    refine (h2.perm (insertAll_perm xs [])).perm ?_
    rw [survivors_of_oneToOne (OneToOne.perm hr.oneToOne hp.symm)]
    simpa using hp
  refine ⟨xs, m', ?_, hp, ?_, h3.shows, ?_, ?_⟩
  · simp [serialize, e, bind, Except.bind, pure, Except.pure, hc.len]
  · rw [List.append_nil] at e2
    rw [visitSeq, e2]; rfl
  · rw [eq_refines hr h3, sub_iff.2 (Sub.refl c)]; simp
  · rw [eq_refines h3 hr, sub_iff.2 (Sub.refl c)]; simp

example : ∃ xs m', demo.serialize = .ok (3, xs) ∧ xs.Perm [(3, 30), (2, 20), (1, 10)] ∧
    visitSeq (E := String) spreadHash none (xs.map .ok) = .ok (.ok m') ∧ Shows m' [(3, 30), (2, 20), (1, 10)] ∧
    demo.eq m' = .ok true ∧ m'.eq demo = .ok true :=
  C29_serde_roundtrip demo_reachable demo_shows spreadHash none

/-- C30: deserializing any sequence of decodable pairs gives the map obtained by collecting them (so a
one-to-one map, whatever the input); the first element that fails to decode makes it return that error. -/
theorem C30_deserialize {E : Type} (hb : BuildHasher L R) (hint : Option Nat) (xs : List (L × R)) :
    (∃ m' c', visitSeq (E := E) hb hint (xs.map .ok) = .ok (.ok m') ∧
      (withCapacityAndHasher (hint.getD 0) hb).extend xs = .ok m' ∧ Shows m' c' ∧ ∀ p, p ∈ c' ↔
        ∃ ys zs, xs = ys ++ p :: zs ∧ ∀ z ∈ zs, (z.1 == p.1) = false ∧ (z.2 == p.2) = false) ∧
    (∀ (e : E) rest, visitSeq hb hint (xs.map .ok ++ .error e :: rest) = .ok (.error e)) := by
  constructor
  · obtain ⟨m', e1, e2, h2⟩ := visitLoop_ok (E := E) (withCapacity_repr (hint.getD 0) hb) xs []
    refine ⟨m', _, ?_, e1, (h2.perm (insertAll_perm xs [])).shows, fun p => ?_⟩
    · rw [List.append_nil] at e2
      rw [visitSeq, e2]; rfl
    · rw [List.filter_nil, List.append_nil, mem_survivors]
  · intro e rest
    obtain ⟨m', e1, e2, h2⟩ := visitLoop_ok (withCapacity_repr (hint.getD 0) hb) xs (.error e :: rest)
    rw [visitSeq, e2]; rfl

example : visitSeq constHash (some 3) [.ok (1, 10), .ok (1, 20), .error "bad", .ok (2, 20)] = .ok (.error "bad") :=
  (C30_deserialize constHash (some 3) [(1, 10), (1, 20)]).2 "bad" [.ok (2, 20)]

/-! ### C31 -/

/-- C31: lookup by another type `Q` that hashes like, and can be compared with, the stored items: the partner
of the stored item that `q` matches, or `None`. -/
theorem C31_borrowed_lookup {Q : Type} (h : Reachable m) (hc : Shows m c)  (q : Q) (hash : Q → UInt64) :
    (∀ cmp : Q → L → Bool, (∀ a, cmp q a = true → hash q = m.hb.hl a) →
      (∀ a b, cmp q a = true → cmp q b = true → (a == b) = true) →
      m.getRightBy (hash q) (cmp q) = (c.find? fun p => cmp q p.1).map (·.2)) ∧
    (∀ cmp : Q → R → Bool, (∀ a, cmp q a = true → hash q = m.hb.hr a) →
      (∀ a b, cmp q a = true → cmp q b = true → (a == b) = true) →
      m.getLeftBy (hash q) (cmp q) = (c.find? fun p => cmp q p.2).map (·.1)) := by
  obtain ⟨ps, hr, hp⟩ := h.repr_of_shows hc
  constructor
  · intro cmp hh hu
    cases hf : c.find? (fun p => cmp q p.1) with
    | none =>
      rw [List.find?_eq_none] at hf
      exact getRightBy_none hr (fun p hm => by simpa [Rec.pair] using hf p.pair (hp.mem_iff.1 (List.mem_map_of_mem hm))) _
    | some p =>
      have hm := List.mem_of_find?_eq_some hf
      have hx := List.find?_some hf
      obtain ⟨p', hm', rfl⟩ := List.mem_map.1 (hp.mem_iff.2 hm)
      simp only [Rec.pair] at hx
      obtain ⟨qs, hqs⟩ := perm_cons_of_mem hm'
      have hr' := hr.perm hqs
      refine getRightBy_some hr' (hh _ hx) hx fun y hy => ?_
      cases hcy : cmp q y.l with
      | false => rfl
      | true =>
        have := (hr'.tailApart y hy).2.1
        rw [hu _ _ hx hcy] at this; cases this
  · intro cmp hh hu
    cases hf : c.find? (fun p => cmp q p.2) with
    | none =>
      rw [List.find?_eq_none] at hf
      exact getLeftBy_none hr (fun p hm => by simpa [Rec.pair] using hf p.pair (hp.mem_iff.1 (List.mem_map_of_mem hm))) _
    | some p =>
      have hm := List.mem_of_find?_eq_some hf
      have hx := List.find?_some hf
      obtain ⟨p', hm', rfl⟩ := List.mem_map.1 (hp.mem_iff.2 hm)
      simp only [Rec.pair] at hx
      obtain ⟨qs, hqs⟩ := perm_cons_of_mem hm'
      have hr' := hr.perm hqs
      refine getLeftBy_some hr' (hh _ hx) hx fun y hy => ?_
      cases hcy : cmp q y.r with
      | false => rfl
      | true =>
        have := (hr'.tailApart y hy).2.2
        rw [hu _ _ hx hcy] at this; cases this

/-- looking up by a `Fin 5` -/
example : demo.getRightBy 0 (fun x => (2 : Fin 5).val == x) = some 20 :=
  (C31_borrowed_lookup demo_reachable demo_shows (2 : Fin 5) (fun _ => 0)).1 (fun q x => q.val == x)
    (fun a _ => by rw [demo_hb]; rfl)
    (fun a b ha hb => beq_iff_eq.2 ((eq_of_beq ha).symm.trans (eq_of_beq hb)))

/-! ### C32 -/

/-- C32: the id counter of any map grows by at most the number of pairs inserted, and every id in the
tables of a reachable map is below the counter.  So nothing overflows in a history with fewer than 2^64 insertions. -/
theorem C32_counter (ops : List (Op L R)) (os : List (Out L R)) (m m' : CycleMap L R) (h : m.run ops = .ok (os, m')) :
    m'.counter ≤ m.counter + (ops.map fun op => match op with
      | .insert .. => 1
      | .swapLeftOrInsert .. => 1
      | .swapRightOrInsert .. => 1
      | .extend xs => xs.length
      | _ => 0).sum := by
  refine Nat.le_trans (run_counter h) (Nat.le_of_eq ?_)
  rfl

/-- C32: ids in use are below the counter, and distinct pairs have distinct ids. -/
theorem C32_ids (h : Reachable m) :
    (∀ e ∈ m.left.toList, e.id < m.counter) ∧ (∀ e ∈ m.right.toList, e.id < m.counter) ∧
    (m.left.toList.map (·.id)).Nodup ∧ (m.right.toList.map (·.id)).Nodup := by
  obtain ⟨c, ps, hr, hp⟩ := h.repr
  have hn : (ps.map (·.id)).Nodup := by
    rw [List.Nodup, List.pairwise_map]
    exact hr.apart.imp fun h => h.1
  refine ⟨?_, ?_, ?_, ?_⟩
  · intro e he
    obtain ⟨x, hx, rfl⟩ := List.mem_map.1 he
    obtain ⟨p, hp, rfl⟩ := List.mem_map.1 (hr.left.mem_iff.1 hx)
    exact hr.bound p hp
  · intro e he
    obtain ⟨x, hx, rfl⟩ := List.mem_map.1 he
    obtain ⟨p, hp, rfl⟩ := List.mem_map.1 (hr.right.mem_iff.1 hx)
    exact hr.bound p hp
  · rw [RawTable.toList, List.map_map, (hr.left.map _).nodup_iff, List.map_map]; exact hn
  · rw [RawTable.toList, List.map_map, (hr.right.map _).nodup_iff, List.map_map]; exact hn

example : (∀ e ∈ demo.left.toList, e.id < demo.counter) := (C32_ids demo_reachable).1

/-! ### C33 -/

/-- C33: a clone (made with any lawful `Clone` of the items) compares equal to the original, both ways. -/
theorem C33_clone_eq (h : Reachable m) (hc : Shows m c) (cl : L → L) (cr : R → R) (hl : ∀ x, (cl x == x) = true)
    (hr : ∀ x, (cr x == x) = true) :
    Shows (m.clone cl cr) (c.map fun p => (cl p.1, cr p.2)) ∧
    m.eq (m.clone cl cr) = .ok true ∧ (m.clone cl cr).eq m = .ok true := by
  have hm := h.repr_of_shows hc
  have hk := clone_refines hm hl hr
  refine ⟨hk.shows, ?_, ?_⟩
  · rw [eq_refines hm hk]
    have : Sub c (c.map fun p => (cl p.1, cr p.2)) := fun p hp =>
      ⟨_, List.mem_map_of_mem hp, BEq.symm (hl _), BEq.symm (hr _)⟩
    rw [sub_iff.2 this]; simp
  · rw [eq_refines hk hm]
    have : Sub (c.map fun p => (cl p.1, cr p.2)) c := by
      intro q hq
      obtain ⟨p, hp, rfl⟩ := List.mem_map.1 hq
      exact ⟨p, hp, hl _, hr _⟩
    rw [sub_iff.2 this]; simp

omit [LawfulRaw] [EquivBEq L] [EquivBEq R] in
/-- C33: when cloning an item gives an identical item, every history returns the same on the clone. -/
theorem C33_clone_history (m : CycleMap L R) (ops : List (Op L R)) :
    (m.clone (fun x => x) (fun x => x)).run ops = m.run ops := by
  have : m.clone (fun x => x) (fun x => x) = m := by
    cases m
    simp only [clone, RawTable.clone, MappingPair.clone]
    congr <;> exact List.map_id _
  rw [this]

example : demo.eq (demo.clone (· + 0) (· + 0)) = .ok true :=
  (C33_clone_eq demo_reachable demo_shows (· + 0) (· + 0) (by simp) (by simp)).2.1

end Verif.CycleMap
