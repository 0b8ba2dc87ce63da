import Verif.Props.CycleBasic
import Verif.Props.CycleIter
import Verif.Props.Forget
import Verif.Props.PartialBasic
import Verif.Props.PartialSwap
import Verif.Props.PartialIter
import Verif.Props.PartialTraits
import Verif.Props.GroupBasic
import Verif.Props.GroupSwap
import Verif.Props.GroupIter
/-!
Property C144: the conditions under which the documented behaviour holds are exact.

The theorems `Cxx_partial` say that a call does what is documented *if* some condition holds.  Here the "if" becomes
"if and only if", for every reachable map and all arguments: in every situation outside of the condition the call
panics, or leaves a map that is not the documented one.
-/
set_option linter.unusedSectionVars false
set_option linter.unusedSimpArgs false

namespace Verif.CycleMap
open CycleSpec OptionalPair Demo

variable [RawImpl] [LawfulRaw] {L R : Type} [BEq L] [BEq R] [EquivBEq L] [EquivBEq R]
variable {m : CycleMap L R} {c : List (L × R)}

/-- C144, `swap_left` of an item that is not there: the map stays as it is exactly if `new` is not there either
(C13). -/
theorem C144_swap_left (h : Reachable m) (hc : Shows m c) (old new : L) (ho : ∀ p ∈ c, (old == p.1) = false) :
    (∃ o m', m.swapLeft old new = .ok (o, m') ∧ Shows m' c) ↔ ∀ p ∈ c, (new == p.1) = false := by
  constructor
  · rintro ⟨o, m', e, s⟩
    obtain ⟨m'', e', s'⟩ := C13_actual h hc old new ho
    rw [e] at e'; cases e'
    have := (s.containsLeft new).symm.trans (s'.containsLeft new)
    rw [List.any_filter, (List.any_eq_false.2 (by simp) : (c.any fun p => !(new == p.1) && new == p.1) = false)] at this
    simpa using this
  · intro hn
    obtain ⟨m', e, s⟩ := C13_partial h hc old new ho hn
    exact ⟨_, m', e, s⟩

/-- C144, `swap_right` (C15) -/
theorem C144_swap_right (h : Reachable m) (hc : Shows m c) (old new : R) (ho : ∀ p ∈ c, (old == p.2) = false) :
    (∃ o m', m.swapRight old new = .ok (o, m') ∧ Shows m' c) ↔ ∀ p ∈ c, (new == p.2) = false := by
  constructor
  · rintro ⟨o, m', e, s⟩
    obtain ⟨m'', e', s'⟩ := C15_actual h hc old new ho
    rw [e] at e'; cases e'
    have := (s.containsRight new).symm.trans (s'.containsRight new)
    rw [List.any_filter, (List.any_eq_false.2 (by simp) : (c.any fun p => !(new == p.2) && new == p.2) = false)] at this
    simpa using this
  · intro hn
    obtain ⟨m', e, s⟩ := C15_partial h hc old new ho hn
    exact ⟨_, m', e, s⟩

/-- `swap_left(7, 8)` leaves `demo` alone, `swap_left(7, 2)` does not -/
example : (∃ o m', demo.swapLeft 7 8 = .ok (o, m') ∧ Shows m' [(3, 30), (2, 20), (1, 10)]) ∧
    ¬ ∃ o m', demo.swapLeft 7 2 = .ok (o, m') ∧ Shows m' [(3, 30), (2, 20), (1, 10)] :=
  ⟨(C144_swap_left demo_reachable demo_shows 7 8 (by decide)).2 (by decide),
    fun h => absurd ((C144_swap_left demo_reachable demo_shows 7 2 (by decide)).1 h) (by decide)⟩

/-- C144, `swap_left_or_insert` with `old` absent: everything displaced is handed back exactly if `new` is not there
(C17). -/
theorem C144_swap_left_or_insert (h : Reachable m) (hc : Shows m c) (old new : L) (r : R)
    (ho : ∀ p ∈ c, (old == p.1) = false) :
    (∃ o m', m.swapLeftOrInsert old new r = .ok (o, m') ∧
      ∀ p ∈ c, (new == p.1) = true ∨ (r == p.2) = true → ∃ q, (toPair o).2 = some q ∧ q.2 = p.2) ↔
    ∀ p ∈ c, (new == p.1) = false := by
  obtain ⟨o, m', e, ho', s⟩ := (C17_partial h hc old new r).2 ho
  constructor
  · rintro ⟨o₂, m₂, e₂, h₂⟩ p hp
    rw [e] at e₂; cases e₂
    cases hn : new == p.1 with
    | false => rfl
    | true =>
      obtain ⟨q, hq, hqp⟩ := h₂ p hp (.inl hn)
      rw [ho'] at hq
      have hq1 := List.mem_of_find?_eq_some hq
      have hq2 := List.find?_some hq
      simp only [Bool.and_eq_true, Bool.not_eq_true'] at hq2
      -- `p` and `q` have the same right item, so they are the same pair
      have : q = p := by
        have f1 := findR_of_mem (c := c) hc.oneToOne hq1 (r := p.2) (by rw [hqp]; exact BEq.rfl)
        have f2 := findR_of_mem (c := c) hc.oneToOne hp (r := p.2) BEq.rfl
        rw [f1] at f2; exact Option.some.inj f2
      rw [this, hn] at hq2; cases hq2.2
  · intro hn
    refine ⟨o, m', e, fun p hp hd => ?_⟩
    have hr : (r == p.2) = true := hd.resolve_left (by simp [hn p hp])
    refine ⟨p, ?_, rfl⟩
    rw [ho']
    show c.find? _ = _
    have : (c.find? fun p => r == p.2 && !(new == p.1)) = c.find? fun p => r == p.2 := by
      rw [← List.head?_filter, ← List.head?_filter, List.filter_congr fun q hq => by rw [hn q hq, Bool.not_false, Bool.and_true]]
    rw [this]
    exact findR_of_mem hc.oneToOne hp hr

/-- `swap_left_or_insert(7, 8, 20)` hands back `(2, 20)`; `swap_left_or_insert(7, 2, 80)` loses 20 -/
example : (∃ o m', demo.swapLeftOrInsert 7 8 20 = .ok (o, m') ∧ ∀ p ∈ [(3, 30), (2, 20), (1, 10)],
      (8 == p.1) = true ∨ (20 == p.2) = true → ∃ q, (toPair o).2 = some q ∧ q.2 = p.2) ∧
    ¬ ∃ o m', demo.swapLeftOrInsert 7 2 80 = .ok (o, m') ∧ ∀ p ∈ [(3, 30), (2, 20), (1, 10)],
      (2 == p.1) = true ∨ (80 == p.2) = true → ∃ q, (toPair o).2 = some q ∧ q.2 = p.2 :=
  ⟨(C144_swap_left_or_insert demo_reachable demo_shows 7 8 20 (by decide)).2 (by decide),
    fun h => absurd ((C144_swap_left_or_insert demo_reachable demo_shows 7 2 80 (by decide)).1 h) (by decide)⟩

/-- C144, `swap_right_or_insert` with `old` absent: the pair is inserted exactly if `l` is not there (C18). -/
theorem C144_swap_right_or_insert (h : Reachable m) (hc : Shows m c) (old new : R) (l : L)
    (ho : ∀ p ∈ c, (old == p.2) = false) :
    (∃ o m', m.swapRightOrInsert old new l = .ok (o, m') ∧
      Shows m' ((l, new) :: c.filter fun p => !(l == p.1) && !(new == p.2))) ↔ ∀ p ∈ c, (l == p.1) = false := by
  constructor
  · rintro ⟨o, m', e, -⟩ p hp
    cases hl : l == p.1 with
    | false => rfl
    | true =>
      obtain ⟨x, e'⟩ := (C18_panics h hc old new l).2 ⟨ho, p, hp, hl⟩
      rw [e] at e'; cases e'
  · intro hl
    obtain ⟨o, m', e, -, s⟩ := (C18_partial h hc old new l).2 ho hl
    refine ⟨o, m', e, ?_⟩
    rwa [List.filter_congr fun p hp => by rw [hl p hp, Bool.not_false, Bool.true_and]]

example : (∃ o m', demo.swapRightOrInsert 70 20 8 = .ok (o, m') ∧ Shows m' [(8, 20), (3, 30), (1, 10)]) ∧
    ¬ ∃ o m', demo.swapRightOrInsert 70 80 2 = .ok (o, m') ∧ Shows m' [(2, 80), (3, 30), (1, 10)] :=
  ⟨(C144_swap_right_or_insert demo_reachable demo_shows 70 20 8 (by decide)).2 (by decide),
    fun h => absurd ((C144_swap_right_or_insert demo_reachable demo_shows 70 80 2 (by decide)).1 h) (by decide)⟩

/-- C144, `drain` dropped after `n` items: the map is intact afterwards, with whatever contents, exactly if `n` items
or fewer were there (C21). -/
theorem C144_drain (h : Reachable m) (hc : Shows m c) (n : Nat) :
    (∃ ps m' c', m.drainTake n = .ok (ps, m') ∧ Shows m' c') ↔ c.length ≤ n := by
  constructor
  · rintro ⟨ps, m', c', e, s⟩
    obtain ⟨d, m'', hd, e', -, hl, -, hr, -⟩ := C21_actual h hc n
    rw [e] at e'; cases e'
    have h1 := s.iterLeft.length_eq
    have h2 := s.iterRight.length_eq
    have h3 := hr.length_eq
    have h4 := hd.length_eq
    rw [hl] at h1
    simp only [List.length_map, List.length_drop, List.length_nil] at h1 h2 h3
    omega
  · intro hn
    obtain ⟨d, m', -, e, -, -, -, s⟩ := C21_partial h hc n
    exact ⟨_, m', _, e, s hn⟩

example : (∃ ps m' c', demo.drainTake 3 = .ok (ps, m') ∧ Shows m' c') ∧
    ¬ ∃ ps m' c', demo.drainTake 2 = .ok (ps, m') ∧ Shows m' c' :=
  ⟨(C144_drain demo_reachable demo_shows 3).2 (by decide),
    fun h => absurd ((C144_drain demo_reachable demo_shows 2).1 h) (by decide)⟩

/-- C144, `drain` forgotten after `n` items: likewise (C115). -/
theorem C144_drain_forget (h : Reachable m) (hc : Shows m c) (n : Nat) :
    (∃ ps m' c', m.drainForget n = .ok (ps, m') ∧ Shows m' c') ↔ c.length ≤ n := by
  constructor
  · rintro ⟨ps, m', c', e, s⟩
    obtain ⟨d, m'', hd, e', -, hl, -, hr, -⟩ := C115_actual h hc n
    rw [e] at e'; cases e'
    have h1 := s.iterLeft.length_eq
    have h2 := s.iterRight.length_eq
    have h3 := hr.length_eq
    have h4 := hd.length_eq
    rw [hl] at h1
    simp only [List.length_map, List.length_drop, List.length_nil] at h1 h2 h3
    omega
  · intro hn
    obtain ⟨d, m', -, e, s, -⟩ := C115_partial h hc n hn
    exact ⟨_, m', _, e, s⟩

example : (∃ ps m' c', demo.drainForget 3 = .ok (ps, m') ∧ Shows m' c') ∧
    ¬ ∃ ps m' c', demo.drainForget 2 = .ok (ps, m') ∧ Shows m' c' :=
  ⟨(C144_drain_forget demo_reachable demo_shows 3).2 (by decide),
    fun h => absurd ((C144_drain_forget demo_reachable demo_shows 2).1 h) (by decide)⟩

end Verif.CycleMap

namespace Verif.PartialMap
open PartialSpec OptionalPair Demo
open CycleSpec (split split_pure)

variable [RawImpl] [LawfulRaw] {L R : Type} [BEq L] [BEq R] [EquivBEq L] [EquivBEq R]
variable {m : PartialMap L R} {c c' : List (OptionalPair L R)}

omit [LawfulRaw] [EquivBEq L] [EquivBEq R] in
/-- the observers determine the entries, up to their order -/
theorem Shows.unique (h : Shows m c) (h' : Shows m c') : c.Perm c' := by
  have key : ∀ {c : List (OptionalPair L R)}, Shows m c →
      (m.iterList ++ m.iterUnpairedList.filter fun e => (leftOf e).isNone).Perm c := by
    intro c h
    refine (h.iter.append (h.iterUnpaired.filter _)).trans ?_
    rw [List.filter_filter]
    have : (c.filter fun e => (leftOf e).isNone && !isPair e) = c.filter fun e => !(leftOf e).isSome := by
      refine List.filter_congr fun e _ => ?_
      cases e <;> rfl
    rw [this]
    exact List.filter_append_perm _ c
  exact (key h).symm.trans (key h')

/-- C144, `swap_left` and `swap_right` of an item that is not there: the map stays as it is exactly if `new` is not
there either (C47). -/
theorem C144_swap (h : Reachable m) (hc : Shows m c) :
    (∀ old new : L, (∀ e ∈ c, hasL old e = false) →
      ((∃ o m', m.swapLeft old new = .ok (o, m') ∧ Shows m' c) ↔ ∀ e ∈ c, hasL new e = false)) ∧
    (∀ old new : R, (∀ e ∈ c, hasR old e = false) →
      ((∃ o m', m.swapRight old new = .ok (o, m') ∧ Shows m' c) ↔ ∀ e ∈ c, hasR new e = false)) := by
  refine ⟨fun old new ho => ⟨?_, fun hn => ?_⟩, fun old new ho => ⟨?_, fun hn => ?_⟩⟩
  · rintro ⟨o, m', e, s⟩
    obtain ⟨m'', e', s'⟩ := (C47_actual h hc).1 old new ho
    rw [e] at e'; cases e'
    intro x hx
    simpa using (List.mem_filter.1 ((s.unique s').mem_iff.1 hx)).2
  · obtain ⟨m', e, s⟩ := (C47_partial h hc).1 old new ho hn
    exact ⟨_, m', e, s⟩
  · rintro ⟨o, m', e, s⟩
    obtain ⟨m'', e', s'⟩ := (C47_actual h hc).2 old new ho
    rw [e] at e'; cases e'
    intro x hx
    simpa using (List.mem_filter.1 ((s.unique s').mem_iff.1 hx)).2
  · obtain ⟨m', e, s⟩ := (C47_partial h hc).2 old new ho hn
    exact ⟨_, m', e, s⟩

example : (∃ o m', demo.swapLeft 7 8 = .ok (o, m') ∧ Shows m' [someRight 30, someLeft 3, someBoth 2 20, someBoth 1 10]) ∧
    ¬ ∃ o m', demo.swapLeft 7 3 = .ok (o, m') ∧ Shows m' [someRight 30, someLeft 3, someBoth 2 20, someBoth 1 10] :=
  ⟨((C144_swap demo_reachable demo_shows).1 7 8 (by decide)).2 (by decide),
    fun h => absurd (((C144_swap demo_reachable demo_shows).1 7 3 (by decide)).1 h) (by decide)⟩

/-- C144, `swap_left_or_insert` and `swap_right_or_insert` with `old` absent: the pair is inserted exactly if the
first item of the new pair is not there (for `swap_right_or_insert`: or belongs to the other item already); otherwise
they panic (C49). -/
theorem C144_swap_or_insert (h : Reachable m) (hc : Shows m c) :
    (∀ (old new : L) (r : R), (∀ e ∈ c, hasL old e = false) →
      ((∃ o m', m.swapLeftOrInsert old new r = .ok (o, m') ∧
        Shows m' (someBoth new r :: c.filter fun e => !hasL new e && !hasR r e)) ↔ ∀ e ∈ c, hasL new e = false)) ∧
    (∀ (old new : R) (l : L), (∀ e ∈ c, hasR old e = false) →
      ((∃ o m', m.swapRightOrInsert old new l = .ok (o, m') ∧
        Shows m' (someBoth l new :: c.filter fun e => !hasL l e && !hasR new e)) ↔
      ∀ e ∈ c, hasR new e = true → hasL l e = true)) := by
  refine ⟨fun old new r ho => ⟨?_, fun hn => ?_⟩, fun old new l ho => ⟨?_, fun hn => ?_⟩⟩
  · rintro ⟨o, m', e, -⟩ x hx
    cases hl : hasL new x with
    | false => rfl
    | true => rw [(C49_panics h hc).1 old new r ho ⟨x, hx, hl⟩] at e; cases e
  · obtain ⟨o, m', e, -, s⟩ := ((C49_partial h hc).1 old new r).2 ho hn
    exact ⟨o, m', e, s⟩
  · rintro ⟨o, m', e, -⟩ x hx hr
    cases hl : hasL l x with
    | true => rfl
    | false => rw [(C49_panics h hc).2 old new l ho ⟨x, hx, hr, hl⟩] at e; cases e
  · obtain ⟨o, m', e, -, s⟩ := ((C49_partial h hc).2 old new l).2 ho hn
    exact ⟨o, m', e, s⟩

example : (∃ o m', demo.swapRightOrInsert 70 10 1 = .ok (o, m') ∧
      Shows m' [someBoth 1 10, someRight 30, someLeft 3, someBoth 2 20]) ∧
    ¬ ∃ o m', demo.swapRightOrInsert 70 10 2 = .ok (o, m') ∧ Shows m' [someBoth 2 10, someRight 30, someLeft 3] :=
  ⟨((C144_swap_or_insert demo_reachable demo_shows).2 70 10 1 (by decide)).2 (by decide),
    fun h => absurd (((C144_swap_or_insert demo_reachable demo_shows).2 70 10 2 (by decide)).1 h) (by decide)⟩

/-- C144, `unpair` of two items that are not partners: the map is intact afterwards, with whatever contents, exactly
if the hashes do not agree crosswise; and then it is unchanged (C41). -/
theorem C144_unpair (h : Reachable m) (hc : Shows m c) (l : L) (r : R) (hn : ∀ e ∈ c, (hasL l e && hasR r e) = false) :
    ((∃ o m' c', m.unpair l r = (o, m') ∧ Shows m' c') ↔
      ∀ a b a' b', someBoth a b ∈ c → someBoth a' b' ∈ c → (l == a) = true → (r == b') = true →
        m.hb.hr r = m.hb.hr b → m.hb.hl l ≠ m.hb.hl a') ∧
    ((∃ o m' c', m.unpair l r = (o, m') ∧ Shows m' c') ↔ ∃ m', m.unpair l r = (false, m') ∧ Shows m' c) := by
  have key : (∃ o m' c', m.unpair l r = (o, m') ∧ Shows m' c') →
      ∀ a b a' b', someBoth a b ∈ c → someBoth a' b' ∈ c → (l == a) = true → (r == b') = true →
        m.hb.hr r = m.hb.hr b → m.hb.hl l ≠ m.hb.hl a' := by
    rintro ⟨o, m', c', e, s⟩ a b a' b' h1 h2 h3 h4 h5 h6
    have hrb : (r == b) = false := by
      have := hn _ h1
      simpa [hasL, hasR, h3] using this
    obtain ⟨-, m'', e', -, g1, g2, -⟩ := C41_actual h hc h1 h2 h3 h4 hrb h5 h6
    rw [e] at e'; cases e'
    rw [s.isRightPaired, List.any_eq_true] at g1
    obtain ⟨x, hx, hx'⟩ := g1
    rw [Bool.and_eq_true] at hx'
    rw [s.getLeft, mem_findR s.oneToOne hx hx'.2] at g2
    cases x with
    | someBoth _ _ => cases g2
    | _ => cases hx'.1
  refine ⟨⟨key, fun hx => ?_⟩, fun hx => ?_, fun ⟨m', e, s⟩ => ⟨_, m', c, e, s⟩⟩
  · obtain ⟨m', e, s⟩ := (C41_partial h hc l r).2 hn hx
    exact ⟨_, m', c, e, s⟩
  · exact (C41_partial h hc l r).2 hn (key hx)

/-- `demo` hashes everything alike: `unpair(1, 20)` breaks it, `unpair(1, 30)` does not -/
example : (∃ m', demo.unpair 1 30 = (false, m') ∧ Shows m' [someRight 30, someLeft 3, someBoth 2 20, someBoth 1 10]) ∧
    ¬ ∃ o m' c', demo.unpair 1 20 = (o, m') ∧ Shows m' c' := by
  have h1 := C144_unpair demo_reachable demo_shows 1 30 (by decide)
  have h2 := C144_unpair demo_reachable demo_shows 1 20 (by decide)
  refine ⟨h1.2.1 (h1.1.2 ?_), fun h => h2.1.1 h 1 10 2 20 (by simp) (by simp) rfl rfl ?_ ?_⟩
  · intro a b a' b' _ h2 _ h4; simp at h2 h4; omega
  · rw [demo_hb]; rfl
  · rw [demo_hb]; rfl

/-- C144, `iter`: it visits every entry exactly if there is no lone right item (C50). -/
theorem C144_iter (h : Reachable m) (hc : Shows m c) : m.iterList.Perm c ↔ ∀ r, someRight r ∉ c :=
  ⟨fun hp r hr => (C50_actual h hc).2 r (hp.mem_iff.2 hr), C50_partial h hc⟩

example : ¬ demo.iterList.Perm [someRight 30, someLeft 3, someBoth 2 20, someBoth 1 10] :=
  fun h => (C144_iter demo_reachable demo_shows).1 h 30 (by simp)

/-- C144, `drain` of which `n` items are taken: these are `n` entries of the map, or all of them, exactly if there
is at most one lone right item, or `n` is at most one more than the number of left items (C53). -/
theorem C144_drain (h : Reachable m) (hc : Shows m c) (n : Nat) :
    (∃ (d : List (OptionalPair L R)) (m' : PartialMap L R), d.Perm c ∧ m.drainTake n = .ok (d.take n, m')) ↔
      (c.filter fun e => (leftOf e).isNone).length ≤ 1 ∨ n ≤ (c.filter fun e => (leftOf e).isSome).length + 1 := by
  obtain ⟨d₀, x, m', h1, h2, h3, e, -⟩ := C53_actual h hc n
  have hnot : (fun e : OptionalPair L R => !(leftOf e).isSome) = fun e => (leftOf e).isNone := by
    funext e; cases leftOf e <;> rfl
  have hsum := List.filter_append_perm (fun e : OptionalPair L R => (leftOf e).isSome) c
  rw [hnot] at hsum
  constructor
  · rintro ⟨d, m'', hd, e'⟩
    rw [e] at e'
    have hl := congrArg List.length (Prod.ext_iff.1 (Except.ok.inj e')).1
    have h4 := hd.length_eq
    have h5 := hsum.length_eq
    have h6 := h1.length_eq
    have h7 : x.toList.length ≤ 1 := by cases x <;> simp
    simp only [List.length_take, List.length_append] at hl h5
    omega
  · intro hn
    by_cases h1' : (c.filter fun e => (leftOf e).isNone).length ≤ 1
    · obtain ⟨d, m'', hd, e', -⟩ := C53_partial h hc n h1'
      exact ⟨d, m'', hd, e'⟩
    have hn := hn.resolve_left h1'
    cases x with
    | none =>
      have : (c.filter fun e => (leftOf e).isNone) = [] := by
        rw [List.filter_eq_nil_iff]
        intro e he hl
        cases e with
        | neither => exact hc.oneToOne.2 he
        | someRight r => exact h2.1 rfl r he
        | _ => cases hl
      rw [this] at h1'; exact absurd (Nat.zero_le _) h1'
    | some y =>
      obtain ⟨hy, hyl⟩ := h3 y rfl
      obtain ⟨rest, hr⟩ := perm_cons_of_mem (List.mem_filter.2 ⟨hy, by rw [hyl]; rfl⟩ :
        y ∈ c.filter fun e => (leftOf e).isNone)
      refine ⟨(d₀ ++ [y]) ++ rest, m', ?_, ?_⟩
      · rw [List.append_assoc]
        exact (h1.append hr.symm).trans hsum
      · have hle : n ≤ (d₀ ++ [y]).length := by rw [List.length_append, h1.length_eq]; exact hn
        rw [e, List.take_append_of_le_length hle]
        rfl

/-- with 1 left of 3 lone right items: `[(None, Some(10)), (None, Some(20)), (Some(1), None)]` -/
example : ∃ m : PartialMap Nat Nat, ∃ c, Reachable m ∧ Shows m c ∧
    (∃ (d : List (OptionalPair Nat Nat)) (m' : PartialMap Nat Nat), d.Perm c ∧ m.drainTake 2 = .ok (d.take 2, m')) ∧
    ¬ ∃ (d : List (OptionalPair Nat Nat)) (m' : PartialMap Nat Nat), d.Perm c ∧ m.drainTake 3 = .ok (d.take 3, m') := by
  obtain ⟨m, r, s⟩ := of_entries constHash [someRight 10, someRight 20, (someLeft 1 : OptionalPair Nat Nat)]
  have s : Shows m [someLeft 1, someRight 20, someRight 10] := s
  exact ⟨m, _, r, s, (C144_drain r s 2).2 (by decide), fun h => absurd ((C144_drain r s 3).1 h) (by decide)⟩

/-- C144, `drain_filter` with a closure without side effects: it yields the accepted entries and leaves the others
exactly if the closure accepts `SomeRight(r)` for no right item `r` of a pair that it rejects (C54). -/
theorem C144_drain_filter (h : Reachable m) (hc : Shows m c) (g : OptionalPair L R → Bool) (n : Nat) :
    ((∃ (d : List (OptionalPair L R)) (m' : PartialMap L R), d.Perm (c.filter g) ∧
      m.drainFilterTake (fun (_ : Unit) e => (g e, ())) () n = .ok (d.take n, (), m') ∧
      Shows m' (c.filter fun e => !g e)) ↔
      ∀ l r, someBoth l r ∈ c → g (someBoth l r) = false → g (someRight r) = false) ∧
    ((∃ ps m' c', m.drainFilterTake (fun (_ : Unit) e => (g e, ())) () n = .ok (ps, (), m') ∧ Shows m' c') ↔
      ∀ l r, someBoth l r ∈ c → g (someBoth l r) = false → g (someRight r) = false) := by
  have key : (∃ ps m' c', m.drainFilterTake (fun (_ : Unit) e => (g e, ())) () n = .ok (ps, (), m') ∧ Shows m' c') →
      ∀ l r, someBoth l r ∈ c → g (someBoth l r) = false → g (someRight r) = false := by
    rintro ⟨ps, m', c', e, s⟩ l r hm hk
    cases hg : g (someRight r) with
    | false => rfl
    | true =>
      obtain ⟨d1, us, d2, m'', h1, h2, h3, h4, h5, h6, -, -, -, -, h7, -⟩ :=
        drainFilterTake_whole (h.repr_of_shows hc) (fun (_ : Unit) e => (g e, ())) () n
      rw [e] at h6; cases h6
      have k1 := split_pure (f := fun (_ : Unit) e => (g e, ())) (g := g) (fun _ _ => rfl) d1 ()
      have k2 := fun u => split_pure (f := fun (_ : Unit) e => (g (asRight e), ())) (g := fun e => g (asRight e)) (fun _ _ => rfl) d2 u
      rw [k1.2] at h4
      rw [(k2 _).1] at h7
      have hd : someBoth l r ∈ d1 := by
        rcases List.mem_append.1 (h1.mem_iff.2 hm) with hm | hm
        · exact hm
        · cases h3 _ hm
      have hd2 : someBoth l r ∈ d2 := by
        have : someBoth l r ∈ d1.filter fun e => !g e := List.mem_filter.2 ⟨hd, by rw [hk]; rfl⟩
        rcases List.mem_append.1 (h4.mem_iff.2 (List.mem_append_left _ this)) with h | h
        · exact h
        · cases (List.mem_filter.1 h).2
      obtain ⟨g1, g2, -⟩ := h7 l r (List.mem_filter.2 ⟨hd2, hg⟩)
      rw [s.isLeftPaired, List.any_eq_true] at g1
      obtain ⟨x, hx, hx'⟩ := g1
      rw [Bool.and_eq_true] at hx'
      rw [s.getRight, mem_findL s.oneToOne hx hx'.2] at g2
      cases x with
      | someBoth _ _ => cases g2
      | _ => cases hx'.1
  have back : (∀ l r, someBoth l r ∈ c → g (someBoth l r) = false → g (someRight r) = false) →
      ∃ (d : List (OptionalPair L R)) (m' : PartialMap L R), d.Perm (c.filter g) ∧
        m.drainFilterTake (fun (_ : Unit) e => (g e, ())) () n = .ok (d.take n, (), m') ∧
        Shows m' (c.filter fun e => !g e) := C54_partial h hc g n
  refine ⟨⟨fun ⟨d, m', _, e, s⟩ => key ⟨_, m', _, e, s⟩, back⟩, key, fun hg => ?_⟩
  obtain ⟨d, m', -, e, s⟩ := back hg
  exact ⟨_, m', _, e, s⟩

/-- accepting everything is fine; accepting what has no left item is not -/
example : (∃ (d : List (OptionalPair Nat Nat)) (m' : PartialMap Nat Nat),
      d.Perm [someRight 30, someLeft 3, someBoth 2 20, someBoth 1 10] ∧
      demo.drainFilterTake (fun (_ : Unit) _ => (true, ())) () 2 = .ok (d.take 2, (), m') ∧ Shows m' []) ∧
    ¬ ∃ ps m' c', demo.drainFilterTake (fun (_ : Unit) e => ((leftOf e).isNone, ())) () 2 = .ok (ps, (), m') ∧ Shows m' c' :=
  ⟨(C144_drain_filter demo_reachable demo_shows (fun _ => true) 2).1.2 (by simp),
    fun h => absurd ((C144_drain_filter demo_reachable demo_shows (fun e => (leftOf e).isNone) 2).2.1 h 1 10 (by simp) rfl)
      (by simp [leftOf])⟩

/-- C144, the `retain` family with a closure without side effects does what it should exactly if (`retain`) there are
only lone right items, all of them accepted, (`retain_paired`) there are no pairs, (`retain_unpaired`) there are only
pairs (C55). -/
theorem C144_retain (h : Reachable m) (hc : Shows m c) (g : OptionalPair L R → Bool) :
    ((∃ m', m.retain (fun (_ : Unit) e => (g e, ())) () = .ok ((), m') ∧ Shows m' (c.filter g)) ↔
      ∀ e ∈ c, leftOf e = none ∧ g e = true) ∧
    ((∃ m', m.retainPaired (fun (_ : Unit) l r => (g (someBoth l r), ())) () = .ok ((), m') ∧
      Shows m' (c.filter fun e => !isPair e || g e)) ↔ ∀ e ∈ c, isPair e = false) ∧
    ((∃ m', m.retainUnpaired (fun (_ : Unit) e => (g e, ())) () = .ok ((), m') ∧
      Shows m' (c.filter fun e => isPair e || g e)) ↔ ∀ e ∈ c, isPair e = true) := by
  obtain ⟨⟨m1, e1, s1⟩, ⟨m2, e2, s2⟩, ⟨m3, e3, s3⟩⟩ := C55_partial h hc fun e => !g e
  simp only [Bool.not_not] at e1 e2 e3
  -- two filters that leave the same entries agree on every entry
  have same : ∀ {P Q : OptionalPair L R → Bool}, (c.filter P).Perm (c.filter Q) → ∀ e ∈ c, P e = Q e := by
    intro P Q hp e he
    have := hp.mem_iff (a := e)
    rw [List.mem_filter, List.mem_filter] at this
    rw [Bool.eq_iff_iff]
    exact ⟨fun h => (this.1 ⟨he, h⟩).2, fun h => (this.2 ⟨he, h⟩).2⟩
  refine ⟨⟨?_, fun hg => ⟨m1, e1, ?_⟩⟩, ⟨?_, fun hg => ⟨m2, e2, ?_⟩⟩, ⟨?_, fun hg => ⟨m3, e3, ?_⟩⟩⟩
  · rintro ⟨m', e, s⟩ x hx
    rw [e] at e1; cases e1
    have := same (s.unique s1) x hx
    cases hl : leftOf x with
    | none => rw [hl] at this; exact ⟨rfl, by simpa using this⟩
    | some a => rw [hl] at this; cases hgx : g x <;> rw [hgx] at this <;> cases this
  · rwa [List.filter_congr fun x hx => show g x = ((leftOf x).isNone || !g x) by
      rw [(hg x hx).1, (hg x hx).2]; rfl]
  · rintro ⟨m', e, s⟩ x hx
    rw [e] at e2; cases e2
    have := same (s.unique s2) x hx
    cases hl : isPair x with
    | false => rfl
    | true => rw [hl] at this; cases hgx : g x <;> rw [hgx] at this <;> cases this
  · rwa [List.filter_congr fun x hx => show (!isPair x || g x) = (!isPair x || !g x) by rw [hg x hx]; rfl]
  · rintro ⟨m', e, s⟩ x hx
    rw [e] at e3; cases e3
    have := same (s.unique s3) x hx
    cases hl : isPair x with
    | true => rfl
    | false => rw [hl] at this; cases hgx : g x <;> rw [hgx] at this <;> cases this
  · rwa [List.filter_congr fun x hx => show (isPair x || g x) = (isPair x || !g x) by rw [hg x hx]; rfl]

/-- so none of the three does on `demo`, whatever the closure; on `{_: 10}`, `retain` does if it accepts -/
example (g : OptionalPair Nat Nat → Bool) :
    (¬ ∃ m', demo.retain (fun (_ : Unit) e => (g e, ())) () = .ok ((), m') ∧
      Shows m' ([someRight 30, someLeft 3, someBoth 2 20, someBoth 1 10].filter g)) ∧
    (g (someRight 10) = true → ∃ m m' : PartialMap Nat Nat, Reachable m ∧ Shows m [someRight 10] ∧
      m.retain (fun (_ : Unit) e => (g e, ())) () = .ok ((), m') ∧ Shows m' ([someRight 10].filter g)) := by
  refine ⟨fun h => ?_, fun hg => ?_⟩
  · have := ((C144_retain demo_reachable demo_shows g).1.1 h (someLeft 3) (by simp)).1
    cases this
  · obtain ⟨m, r, s⟩ := of_entries constHash [(someRight 10 : OptionalPair Nat Nat)]
    have s : Shows m [someRight 10] := s
    obtain ⟨m', e, s'⟩ := (C144_retain r s g).1.2 (by simpa [leftOf] using hg)
    exact ⟨m, m', r, s, e, s'⟩

/-- C144, the sizes announced (C52): `size_hint` of `iter_paired` is the number of items exactly if there is no lone
left item, that of `iter_unpaired` exactly if there are as many lone right items as pairs, and `len` of `drain` exactly
if there is no lone right item. -/
theorem C144_sizes (h : Reachable m) (hc : Shows m c) :
    ((∃ ps, m.iterPairedList = .ok ps ∧ m.iterPaired.sizeHint = ps.length) ↔ ∀ l, someLeft l ∉ c) ∧
    (m.iterUnpaired.sizeHint = m.iterUnpairedList.length ↔
      (c.filter fun e => (leftOf e).isNone).length = (c.filter isPair).length) ∧
    ((∃ ps m', m.drainTake (m.lenLeft + m.lenRight) = .ok (ps, m') ∧ m.drain.len = ps.length) ↔
      ∀ r, someRight r ∉ c) := by
  obtain ⟨a1, a2, a3⟩ := C52_actual hc
  -- the entries by kind
  have count : ∀ c : List (OptionalPair L R), neither ∉ c →
      (c.filterMap leftOf).length = (c.filter isPair).length + (c.filter fun e => (leftOf e).isSome && !isPair e).length ∧
      (c.filter fun e => !isPair e).length =
        (c.filter fun e => (leftOf e).isNone).length + (c.filter fun e => (leftOf e).isSome && !isPair e).length ∧
      (c.filterMap pairOf).length = (c.filter isPair).length := by
    intro c
    induction c with
    | nil => intro _; exact ⟨rfl, rfl, rfl⟩
    | cons e c ih =>
      intro hn
      have ih := ih fun h => hn (List.mem_cons_of_mem _ h)
      have p1 : ∀ a, isPair (someLeft a : OptionalPair L R) = false := fun _ => rfl
      have p2 : ∀ b, isPair (someRight b : OptionalPair L R) = false := fun _ => rfl
      have p3 : ∀ a b, isPair (someBoth a b : OptionalPair L R) = true := fun _ _ => rfl
      have l1 : ∀ a, leftOf (someLeft a : OptionalPair L R) = some a := fun _ => rfl
      have l2 : ∀ b, leftOf (someRight b : OptionalPair L R) = none := fun _ => rfl
      have l3 : ∀ a b, leftOf (someBoth a b : OptionalPair L R) = some a := fun _ _ => rfl
      have q1 : ∀ a, pairOf (someLeft a : OptionalPair L R) = none := fun _ => rfl
      have q2 : ∀ b, pairOf (someRight b : OptionalPair L R) = none := fun _ => rfl
      have q3 : ∀ a b, pairOf (someBoth a b : OptionalPair L R) = some (a, b) := fun _ _ => rfl
      obtain ⟨i1, i2, i3⟩ := ih
      cases e with
      | neither => exact absurd List.mem_cons_self hn
      | _ =>
        simp only [List.filter_cons, List.filterMap_cons, p1, p2, p3, l1, l2, l3, q1, q2, q3, Option.isSome_some, Option.isSome_none,
          Option.isNone_some, Option.isNone_none, Bool.true_and, Bool.false_and,
          Bool.not_true, Bool.not_false, Bool.and_true, Bool.and_false, Bool.false_eq_true, if_true, if_false,
          List.length_cons]
        refine ⟨?_, ?_, ?_⟩ <;> omega
  obtain ⟨b1, b2, b3⟩ := count c hc.oneToOne.2
  refine ⟨?_, ?_, ?_⟩
  · obtain ⟨ps, e, hp⟩ := hc.iterPaired
    have hl := hp.length_eq
    have : (∃ ps, m.iterPairedList = .ok ps ∧ m.iterPaired.sizeHint = ps.length) ↔
        (c.filter fun e => (leftOf e).isSome && !isPair e).length = 0 := by
      constructor
      · rintro ⟨ps', e', h'⟩
        rw [e] at e'; cases e'
        omega
      · intro h'
        exact ⟨ps, e, by omega⟩
    rw [this, List.length_eq_zero_iff, List.filter_eq_nil_iff]
    constructor
    · intro h l hm
      exact h _ hm rfl
    · intro h e he
      cases e with
      | someLeft l => exact absurd he (h l)
      | _ => simp [leftOf, isPair]
  · rw [a2, hc.iterUnpaired.length_eq]
    omega
  · obtain ⟨d, x, m', h1, h2, h3, e, -⟩ := C53_actual h hc (m.lenLeft + m.lenRight)
    have hl := h1.length_eq
    have hd : (c.filter fun e => (leftOf e).isSome).length = (c.filterMap leftOf).length := by
      rw [List.length_filterMap_eq_countP, List.countP_eq_length_filter]
    have hx : x.toList.length ≤ (c.filterMap rightOf).length := by
      cases x with
      | none => exact Nat.zero_le _
      | some y =>
        obtain ⟨hy, hyl⟩ := h3 y rfl
        cases y with
        | someRight r =>
          exact List.length_pos_of_mem (List.mem_filterMap.2 ⟨_, hy, rfl⟩)
        | neither => exact absurd hy hc.oneToOne.2
        | _ => cases hyl
    have ht : ((d ++ x.toList).take (m.lenLeft + m.lenRight)).length = (c.filterMap leftOf).length + x.toList.length := by
      rw [List.length_take, List.length_append, hc.lenLeft, hc.lenRight]
      omega
    rw [← h2]
    constructor
    · rintro ⟨ps, m'', e', h'⟩
      rw [e] at e'; cases e'
      rw [ht, a3] at h'
      cases x with
      | none => rfl
      | some y => simp at h'
    · rintro rfl
      refine ⟨_, m', e, ?_⟩
      rw [ht, a3]; rfl

/-- on `demo`, only `size_hint` of `iter_unpaired` could be right, but there are two pairs and one lone right item -/
example : (¬ ∃ ps, demo.iterPairedList = .ok ps ∧ demo.iterPaired.sizeHint = ps.length) ∧
    demo.iterUnpaired.sizeHint ≠ demo.iterUnpairedList.length := by
  have := C144_sizes demo_reachable demo_shows
  exact ⟨fun h => this.1.1 h 3 (by simp), fun h => absurd (this.2.1.1 h) (by decide)⟩

end Verif.PartialMap

namespace Verif.GroupMap
open GroupSpec Demo

variable [RawImpl] [LawfulRaw] {L R : Type} [BEq L] [BEq R] [EquivBEq L] [EquivBEq R]
variable {m : GroupMap L R} {c c' : Contents L R}

/-- C144, `insert`: the map is intact afterwards, with whatever contents, exactly if the two items were not paired
with each other; and then it has the documented contents (C62). -/
theorem C144_insert (h : Reachable m) (hc : Shows m c) (l : L) (r : R) :
    ((∃ m' c', m.insert l r = .ok m' ∧ Shows m' c') ↔ m.arePaired l r = false) ∧
    ((∃ m' c', m.insert l r = .ok m' ∧ Shows m' c') ↔ ∃ m', m.insert l r = .ok m' ∧ Shows m' (inserted c l r)) := by
  have key : (∃ m' c', m.insert l r = .ok m' ∧ Shows m' c') → m.arePaired l r = false := by
    rintro ⟨m', c', e, s⟩
    cases hp : m.arePaired l r with
    | false => rfl
    | true =>
      obtain ⟨m'', e', t, -⟩ := C62_actual h hc l r hp
      rw [e] at e'; cases e'
      rw [hc.arePaired] at hp
      obtain ⟨p, hf, -⟩ := (hasPair_iff hc.sound).1 hp
      have g1 : m'.getRight l = some p.2 := by
        rw [t.getRight, show c.pairs.find? (l == ·.1) = some p from hf]; rfl
      have g2 : m'.arePaired l p.2 = false := by
        rw [t.arePaired, Bool.and_eq_false_iff]
        refine .inr (List.any_eq_false.2 fun q hq => ?_)
        have := (List.mem_filter.1 hq).2
        simp only [Bool.not_eq_true'] at this
        simp [this]
      rw [s.getRight] at g1
      cases hf' : findL c' l with
      | none => rw [hf'] at g1; cases g1
      | some q =>
        rw [hf'] at g1
        have hq := List.mem_of_find?_eq_some hf'
        have hl : (l == q.1) = true := List.find?_some (p := fun p : L × R => l == p.1) hf'
        have hr : q.2 = p.2 := Option.some.inj g1
        rw [s.arePaired, hasPair, List.any_eq_false] at g2
        exact absurd (by simp [hl, hr]) (g2 q hq)
  refine ⟨⟨key, fun hp => ?_⟩, fun hx => C62_partial h hc l r (key hx), fun ⟨m', e, s⟩ => ⟨m', _, e, s⟩⟩
  obtain ⟨m', e, s⟩ := C62_partial h hc l r hp
  exact ⟨m', _, e, s⟩

example : (∃ m', demo.insert 1 20 = .ok m' ∧ Shows m' ⟨[30, 20, 10], [(1, 20), (3, 20), (2, 10)]⟩) ∧
    ¬ ∃ m' c', demo.insert 1 10 = .ok m' ∧ Shows m' c' := by
  have h1 := C144_insert demo_reachable demo_shows 1 20
  have h2 := C144_insert demo_reachable demo_shows 1 10
  refine ⟨h1.2.1 (h1.1.2 (by rw [demo_shows.arePaired]; rfl)), fun h => ?_⟩
  have := h2.1.1 h
  rw [demo_shows.arePaired] at this
  revert this; decide

omit [RawImpl] [LawfulRaw] [BEq R] [EquivBEq R] in
theorem find?_eq_some_of_mem {ps : List (L × R)} (h : ps.Pairwise fun p q => (p.1 == q.1) = false) {p : L × R}
    (hp : p ∈ ps) : ps.find? (p.1 == ·.1) = some p := by
  induction ps with
  | nil => cases hp
  | cons q ps ih =>
    obtain ⟨h1, h2⟩ := List.pairwise_cons.1 h
    rcases List.mem_cons.1 hp with rfl | hp
    · rw [List.find?_cons, BEq.rfl]
    · rw [List.find?_cons, BEq.comm, h1 p hp]
      exact ih h2 hp

/-- C144, `swap_right` with `old` present: `new` is added and takes over the left items of `old` exactly if `old` has no
left items and `new` was not there (C66). -/
theorem C144_swap_right (h : Reachable m) (hc : Shows m c) (old new : R) (ho : m.containsRight old = true) :
    (∃ m', m.swapRight old new = .ok m' ∧ Shows m' ⟨new :: c.rights, repaired c.pairs old new⟩) ↔
      m.isRightPaired old = false ∧ m.containsRight new = false := by
  constructor
  · rintro ⟨m', e, s⟩
    have hn : m.containsRight new = false := by
      rw [hc.containsRight, List.any_eq_false]
      intro b hb
      have := (List.pairwise_cons.1 s.sound.rights).1 b hb
      simp [this]
    refine ⟨?_, hn⟩
    cases hg : m.isRightPaired old with
    | false => rfl
    | true =>
      rw [hc.isRightPaired, hasGroup, List.any_eq_true] at hg
      obtain ⟨p, hp, hpo⟩ := hg
      obtain ⟨b, hb⟩ := (contains hc).1 ho
      obtain ⟨m'', e', w, -⟩ := C66_actual h hc old new b hb hn
      rw [e] at e'; cases e'
      have hpair : m.arePaired p.1 old = true := by
        rw [hc.arePaired]
        exact List.any_eq_true.2 ⟨p, hp, by simp [hpo]⟩
      have g := (w p.1 hpair).1
      have hmem : (p.1, new) ∈ repaired c.pairs old new := List.mem_map.2 ⟨p, hp, by rw [if_pos hpo]⟩
      have hf : findL ⟨new :: c.rights, repaired c.pairs old new⟩ p.1 = some (p.1, new) :=
        find?_eq_some_of_mem s.sound.lefts hmem
      rw [s.getRight, hf] at g
      rcases g with g | g
      · cases g
      · have hbn : new = b := Option.some.inj g
        rw [hc.containsRight, List.any_eq_false] at hn
        exact absurd (by rw [hbn]; exact BEq.rfl) (hn b (List.mem_of_find?_eq_some hb))
  · rintro ⟨h1, h2⟩
    exact (C66_partial h hc old new).1 ho h1 h2

example : (∃ m', demo.swapRight 30 40 = .ok m' ∧ Shows m' ⟨[40, 30, 20, 10], [(3, 20), (2, 10), (1, 10)]⟩) ∧
    ¬ ∃ m', demo.swapRight 20 40 = .ok m' ∧ Shows m' ⟨[40, 30, 20, 10], [(3, 40), (2, 10), (1, 10)]⟩ := by
  refine ⟨(C144_swap_right demo_reachable demo_shows 30 40 (by rw [demo_shows.containsRight]; rfl)).2
    ⟨by rw [demo_shows.isRightPaired]; rfl, by rw [demo_shows.containsRight]; rfl⟩, fun h => ?_⟩
  have := ((C144_swap_right demo_reachable demo_shows 20 40 (by rw [demo_shows.containsRight]; rfl)).1 h).1
  rw [demo_shows.isRightPaired] at this
  revert this; decide

/-- C144, `swap_right_remove` with `old` present, and `new` absent or equal to `old`: the map is intact afterwards,
with whatever contents, exactly if `old` has no left items; and then it has the documented contents (C67). -/
theorem C144_swap_right_remove (h : Reachable m) (hc : Shows m c) (old new b : R)
    (ho : c.rights.find? (old == ·) = some b) (hn : m.containsRight new = false ∨ (old == new) = true) :
    ((∃ o m' c', m.swapRightRemove old new = .ok (o, m') ∧ Shows m' c') ↔ m.isRightPaired old = false) ∧
    ((∃ o m' c', m.swapRightRemove old new = .ok (o, m') ∧ Shows m' c') ↔
      ∃ m', m.swapRightRemove old new = .ok (some b, m') ∧
        Shows m' ⟨new :: c.rights.filter (fun b => !(old == b)), repaired c.pairs old new⟩) := by
  have key : (∃ o m' c', m.swapRightRemove old new = .ok (o, m') ∧ Shows m' c') → m.isRightPaired old = false := by
    rintro ⟨o, m', c', e, s⟩
    cases hg : m.isRightPaired old with
    | false => rfl
    | true =>
      obtain ⟨m'', e', -, w, -⟩ := C67_actual h hc old new b ho hn
      rw [e] at e'; cases e'
      obtain ⟨ps, e1, -⟩ := s.iterPaired
      rw [w hg] at e1; cases e1
  refine ⟨⟨key, fun hp => ?_⟩, fun hx => (C67_partial h hc old new).1 b ho hn (key hx), fun ⟨m', e, s⟩ => ⟨_, m', _, e, s⟩⟩
  obtain ⟨m', e, s⟩ := (C67_partial h hc old new).1 b ho hn hp
  exact ⟨_, m', _, e, s⟩

example : (∃ m', demo.swapRightRemove 30 40 = .ok (some 30, m') ∧
      Shows m' ⟨[40, 20, 10], [(3, 20), (2, 10), (1, 10)]⟩) ∧
    ¬ ∃ o m' c', demo.swapRightRemove 20 40 = .ok (o, m') ∧ Shows m' c' := by
  have hn : demo.containsRight 40 = false := by rw [demo_shows.containsRight]; rfl
  have h1 := C144_swap_right_remove demo_reachable demo_shows 30 40 30 rfl (.inl hn)
  refine ⟨h1.2.1 (h1.1.2 (by rw [demo_shows.isRightPaired]; rfl)), fun h => ?_⟩
  have := (C144_swap_right_remove demo_reachable demo_shows 20 40 20 rfl (.inl hn)).1.1 h
  rw [demo_shows.isRightPaired] at this
  revert this; decide

/-- C144, `retain_paired` with a closure without side effects: the map is intact afterwards, with whatever contents,
exactly if the closure accepts nothing; and it keeps what the closure accepts exactly if there is no pair (C74). -/
theorem C144_retain_paired (h : Reachable m) (hc : Shows m c) (g : L → R → Bool) :
    ((∃ m' c', m.retainPaired (fun (_ : Unit) l r => (g l r, ())) () = .ok ((), m') ∧ Shows m' c') ↔
      ∀ p ∈ c.pairs, g p.1 p.2 = false) ∧
    ((∃ m', m.retainPaired (fun (_ : Unit) l r => (g l r, ())) () = .ok ((), m') ∧
      Shows m' ⟨c.rights, c.pairs.filter fun p => g p.1 p.2⟩) ↔ c.pairs = []) := by
  have key : (∃ m' c', m.retainPaired (fun (_ : Unit) l r => (g l r, ())) () = .ok ((), m') ∧ Shows m' c') →
      ∀ p ∈ c.pairs, g p.1 p.2 = false := by
    rintro ⟨m', c', e, s⟩ p hp
    cases hg : g p.1 p.2 with
    | false => rfl
    | true =>
      obtain ⟨d, acc, rej, s', m'', hd, hs, e', -, w⟩ := C74_actual h hc (fun (_ : Unit) l r => (g l r, ())) ()
      rw [e] at e'; cases e'
      have hsp := CycleSpec.split_pure (f := fun (_ : Unit) (p : L × R) => (g p.1 p.2, ())) (g := fun p => g p.1 p.2)
        (fun _ _ => rfl) d ()
      rw [hs] at hsp
      have hacc : p ∈ acc := by
        rw [show acc = _ from hsp.1]
        exact List.mem_filter.2 ⟨hd.mem_iff.2 hp, hg⟩
      obtain ⟨ls, e1, -⟩ := s.getLeft p.2
      rw [(w p.2 p hacc BEq.rfl).1] at e1; cases e1
  refine ⟨⟨key, fun hg => ?_⟩, ?_, fun hg => ?_⟩
  · obtain ⟨s', m', e, s⟩ := (C74_partial h hc (fun (_ : Unit) l r => (g l r, ())) ()).2 (fun p hp _ => hg p hp)
    exact ⟨m', c, e, s⟩
  · rintro ⟨m', e, s⟩
    have hg := key ⟨m', _, e, s⟩
    obtain ⟨s', m'', e', s'⟩ := (C74_partial h hc (fun (_ : Unit) l r => (g l r, ())) ()).2 (fun p hp _ => hg p hp)
    rw [e] at e'; cases e'
    have hl := s.lenLeft.symm.trans s'.lenLeft
    rw [List.filter_eq_nil_iff.2 fun p hp => by simp [hg p hp]] at hl
    exact List.length_eq_zero_iff.1 hl.symm
  · obtain ⟨s', m', e, s⟩ := (C74_partial h hc (fun (_ : Unit) l r => (g l r, ())) ()).2 (by simp [hg])
    refine ⟨m', e, ?_⟩
    obtain ⟨rs, ps⟩ := c
    cases hg
    exact s

example : (∃ m' c', demo.retainPaired (fun (_ : Unit) l r => (l == r, ())) () = .ok ((), m') ∧ Shows m' c') ∧
    (¬ ∃ m' c', demo.retainPaired (fun (_ : Unit) l _ => (l == 1, ())) () = .ok ((), m') ∧ Shows m' c') ∧
    ∀ g : Nat → Nat → Bool, ¬ ∃ m', demo.retainPaired (fun (_ : Unit) l r => (g l r, ())) () = .ok ((), m') ∧
      Shows m' ⟨demoC.rights, demoC.pairs.filter fun p => g p.1 p.2⟩ :=
  ⟨(C144_retain_paired demo_reachable demo_shows fun l r => l == r).1.2 (by decide),
    fun h => absurd ((C144_retain_paired demo_reachable demo_shows fun l _ => l == 1).1.1 h) (by decide),
    fun g h => absurd ((C144_retain_paired demo_reachable demo_shows g).2.1 h) (by decide)⟩

/-- C144, `retain_unpaired` with a closure without side effects: it keeps the lone right items that are accepted exactly
if there are no lone right items (C75). -/
theorem C144_retain_unpaired (h : Reachable m) (hc : Shows m c) (g : R → Bool) :
    (∃ m', m.retainUnpaired (fun (_ : Unit) r => (g r, ())) () = .ok ((), m') ∧
      Shows m' ⟨c.rights.filter (fun r => c.pairs.any (r == ·.2) || g r), c.pairs⟩) ↔
    ∀ r ∈ c.rights, c.pairs.any (r == ·.2) = true := by
  constructor
  · rintro ⟨m', e, s⟩ r hr
    obtain ⟨s', m'', e', s'⟩ := C75_actual_pure h hc (fun (_ : Unit) r => (g r, ())) () g (fun _ _ => rfl)
    rw [e] at e'; cases e'
    have hp := (s.iterRight.symm.trans s'.iterRight).mem_iff (a := r)
    simp only [List.mem_filter, hr, true_and] at hp
    cases hg : c.pairs.any (r == ·.2) with
    | true => rfl
    | false => rw [hg] at hp; cases hgr : g r <;> rw [hgr] at hp <;> simp at hp
  · intro hl
    obtain ⟨m', e, s⟩ := C75_partial h hc (fun (_ : Unit) r => (g r, ())) () hl
    refine ⟨m', e, ?_⟩
    rw [List.filter_eq_self.2 fun r hr => by rw [hl r hr]; rfl]
    exact s

example (g : Nat → Bool) : ¬ ∃ m', demo.retainUnpaired (fun (_ : Unit) r => (g r, ())) () = .ok ((), m') ∧
    Shows m' ⟨demoC.rights.filter (fun r => demoC.pairs.any (r == ·.2) || g r), demoC.pairs⟩ :=
  fun h => absurd ((C144_retain_unpaired demo_reachable demo_shows g).1 h) (by decide)

omit [RawImpl] [LawfulRaw] [BEq L] [EquivBEq L] [EquivBEq R] in
/-- if two pairs share a right item, a shorter list has all the right items -/
theorem shorter (ps : List (L × R)) (h : ¬ ps.Pairwise fun p q => (p.2 == q.2) = false) :
    ∃ qs : List (L × R), qs.length < ps.length ∧ ∀ p ∈ ps, p ∈ qs ∨ ∃ q ∈ qs, (p.2 == q.2) = true := by
  induction ps with
  | nil => exact absurd .nil h
  | cons p ps ih =>
    rw [List.pairwise_cons] at h
    by_cases hp : ∀ q ∈ ps, (p.2 == q.2) = false
    · obtain ⟨qs, h1, h2⟩ := ih fun h' => h ⟨hp, h'⟩
      refine ⟨p :: qs, by simpa using h1, fun q hq => ?_⟩
      rcases List.mem_cons.1 hq with rfl | hq
      · exact .inl List.mem_cons_self
      · rcases h2 q hq with h | ⟨x, hx, h⟩
        · exact .inl (List.mem_cons_of_mem _ h)
        · exact .inr ⟨x, List.mem_cons_of_mem _ hx, h⟩
    · refine ⟨ps, by simp, fun q hq => ?_⟩
      rcases List.mem_cons.1 hq with rfl | hq
      · refine .inr ?_
        obtain ⟨x, hx⟩ := Classical.not_forall.1 hp
        obtain ⟨hm, hx⟩ := Classical.not_imp.1 hx
        exact ⟨x, hm, by simpa using hx⟩
      · exact .inl hq

/-- C144, the sizes announced (C73): `size_hint` of `iter` is the number of items exactly if no right item has two left
items, and that of `iter_unpaired` exactly if there is no pair. -/
theorem C144_sizes (hc : Shows m c) :
    ((∃ xs, m.iterList = .ok xs ∧ m.iter.sizeHint = xs.length) ↔ c.pairs.Pairwise fun p q => (p.2 == q.2) = false) ∧
    (m.iterUnpaired.sizeHint = m.iterUnpairedList.length ↔ c.pairs = []) := by
  obtain ⟨a1, a2⟩ := C73_size_hint_actual hc
  have hnot : (fun r => !!hasGroup c r) = fun r => hasGroup c r := by funext r; simp
  have hsum := (List.filter_append_perm (fun r => !hasGroup c r) c.rights).length_eq
  rw [List.length_append, hnot] at hsum
  have hlone : (lone c).length + (c.rights.filter fun r => hasGroup c r).length = c.rights.length := hsum
  have hap : (c.rights.filter fun r => hasGroup c r).Pairwise fun a b => (a == b) = false := hc.sound.rights.filter _
  have hasGroup_of : ∀ p ∈ c.pairs, hasGroup c p.2 = true := fun p hp => List.any_eq_true.2 ⟨p, hp, BEq.rfl⟩
  constructor
  · obtain ⟨xs, e, hp⟩ := hc.iter
    have hx := hp.length_eq
    simp only [entries, List.length_append, List.length_map] at hx
    have : (∃ xs, m.iterList = .ok xs ∧ m.iter.sizeHint = xs.length) ↔
        c.pairs.length = (c.rights.filter fun r => hasGroup c r).length := by
      constructor
      · rintro ⟨xs', e', h'⟩
        rw [e] at e'; cases e'
        omega
      · intro h'
        exact ⟨xs, e, by omega⟩
    rw [this]
    constructor
    · intro hl
      refine Classical.byContradiction fun hd => ?_
      obtain ⟨qs, h1, h2⟩ := shorter c.pairs hd
      have := PartialSpec.length_le_of_sub (xs := c.rights.filter fun r => hasGroup c r) (ys := qs.map (·.2)) hap
        fun r hr => by
          obtain ⟨p, hp, hrp⟩ := List.any_eq_true.1 (List.mem_filter.1 hr).2
          rcases h2 p hp with h | ⟨q, hq, h⟩
          · exact ⟨p.2, List.mem_map.2 ⟨p, h, rfl⟩, hrp⟩
          · exact ⟨q.2, List.mem_map.2 ⟨q, hq, rfl⟩, BEq.trans hrp h⟩
      rw [List.length_map] at this
      omega
    · intro hd
      refine Nat.le_antisymm ?_ ?_
      · have := PartialSpec.length_le_of_sub (xs := c.pairs.map (·.2)) (ys := c.rights.filter fun r => hasGroup c r)
          (List.pairwise_map.2 hd) fun r hr => by
            obtain ⟨p, hp, rfl⟩ := List.mem_map.1 hr
            exact ⟨p.2, List.mem_filter.2 ⟨hc.sound.owned p hp,
              (hasGroup_of p hp)⟩, BEq.rfl⟩
        rwa [List.length_map] at this
      · have := PartialSpec.length_le_of_sub (xs := c.rights.filter fun r => hasGroup c r) (ys := c.pairs.map (·.2)) hap
          fun r hr => by
            obtain ⟨p, hp, hrp⟩ := List.any_eq_true.1 (List.mem_filter.1 hr).2
            exact ⟨p.2, List.mem_map.2 ⟨p, hp, rfl⟩, hrp⟩
        rwa [List.length_map] at this
  · rw [a2, hc.iterUnpaired.length_eq]
    constructor
    · intro hl
      have h0 : (c.rights.filter fun r => hasGroup c r).length = 0 := by omega
      rw [List.length_eq_zero_iff, List.filter_eq_nil_iff] at h0
      refine List.eq_nil_iff_forall_not_mem.2 fun p hp => ?_
      exact h0 p.2 (hc.sound.owned p hp) (hasGroup_of p hp)
    · intro hp
      have : (c.rights.filter fun r => hasGroup c r) = [] := by
        rw [List.filter_eq_nil_iff]
        intro r _
        simp [hasGroup, hp]
      rw [this] at hlone
      simp only [List.length_nil] at hlone
      omega

/-- in `demo`, 10 has two left items -/
example : (¬ ∃ xs, demo.iterList = .ok xs ∧ demo.iter.sizeHint = xs.length) ∧
    demo.iterUnpaired.sizeHint ≠ demo.iterUnpairedList.length :=
  ⟨fun h => absurd ((C144_sizes demo_shows).1.1 h) (by decide), fun h => absurd ((C144_sizes demo_shows).2.1 h) (by decide)⟩

end Verif.GroupMap
