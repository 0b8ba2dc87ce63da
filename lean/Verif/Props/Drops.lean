import Verif.CycleMap.Drops
import Verif.PartialMap.Drops
import Verif.GroupMap.Drops
import Verif.Props.Always
import Verif.Props.CycleDemo
import Verif.Props.PartialDemo
import Verif.Props.GroupDemo
/-! Properties C120–C122: items whose destructors (`Drop`) panic. -/
set_option linter.unusedSectionVars false
set_option linter.unusedSimpArgs false
namespace Verif.CycleMap
open CycleSpec OptionalPair Demo

variable [RawImpl] [LawfulRaw] {L R τ : Type} [BEq L] [BEq R] [EquivBEq L] [EquivBEq R]
variable {m : CycleMap L R} {c : List (L × R)}

/-- the map has the pairs `c`, and so it behaves in every later history -/
def UsableAs (m : CycleMap L R) (c : List (L × R)) : Prop :=
  Shows m c ∧ ∀ ops, SafeRun c ops → ∃ os m'' c'', m.run ops = .ok (os, m'') ∧ Steps c ops os c'' ∧ Shows m'' c''

theorem Repr.usable (h : Repr m c) : UsableAs m c := by
  refine ⟨h.shows, fun ops hs => ?_⟩
  obtain ⟨os, m'', c'', e, s, h⟩ := run_simulates h hs
  exact ⟨os, m'', c'', e, s, h.shows⟩

/-! ### C120 -/

/-- C120, for `CycleMap`: `drain_filter(f)`, at most `n` calls of `next`, then the iterator is dropped; `f` may panic, and so may the
destructors of the accepted items that were not yielded.  A destructor that panics does not stop the work: unless
two panics meet (which aborts the process) all pairs are shown to `f` that would have been shown without destructors, those
accepted are gone, all others are still there, and every later history goes as on a map with these pairs.  The call ends as
said by the number of panics of `f` and of the destructors. -/
theorem C120_drain_filter {σ : Type} (h : Reachable m) (hc : Shows m c) (f : σ → L → R → Option Bool × σ) (d : τ → L ⊕ R → Bool × τ)
    (s : σ) (t : τ) (n : Nat) :
    ∃ (e : Ending) (visited rest accepted rejected yielded dropped : List (L × R)) (s' s1 : σ) (t' : τ) (m' : CycleMap L R),
      (visited ++ rest).Perm c ∧ split (onPair (calm f)) visited s = (accepted, rejected, s1) ∧
      m.drainFilterD f d s t n = .ok (e, yielded, s', t', m') ∧ accepted = yielded ++ dropped ∧ yielded.length ≤ n ∧
      (e = match panics f visited s + (dropAll d (dropped.flatMap fun p => [.inl p.1, .inr p.2]) t).1 with
        | 0 => .returned | 1 => .panicked | _ => .aborted) ∧
      (crashes f visited s = false → rest = [] ∧ yielded = accepted.take n) ∧
      (e ≠ .aborted → s' = s1 ∧ t' = (dropAll d (dropped.flatMap fun p => [.inl p.1, .inr p.2]) t).2 ∧
        UsableAs m' (rejected ++ rest)) := by
  obtain ⟨e, v, r, y, dr, s', t', m', h1, h2, h3, h4, h5, h6, h7⟩ := drainFilterD_refines (h.repr_of_shows hc) f d s t n
  refine ⟨e, v, r, _, _, y, dr, s', _, t', m', h1, rfl, h2, h3, h4, h5, h6, fun he => ?_⟩
  obtain ⟨a, b, g⟩ := h7 he
  exact ⟨a, b, g.usable⟩

/-- a closure that accepts everything, and a destructor that panics the first time it is run: the three pairs are gone all the same -/
example : ∃ (e : Ending) (t' : Nat) (m' : CycleMap Nat Nat),
    demo.drainFilterD (fun (_ : Unit) _ _ => (some true, ())) (fun (t : Nat) _ => (t == 0, t + 1)) () 0 0 = .ok (e, [], (), t', m') ∧
    e = .panicked ∧ t' = 6 ∧ Shows m' [] := by
  obtain ⟨e, v, r, a, k, y, dr, s', s1, t', m', h1, h2, h3, h4, h5, h6, h7, h8⟩ := C120_drain_filter demo_reachable demo_shows
    (fun (_ : Unit) _ _ => (some true, ())) (fun (t : Nat) (_ : Nat ⊕ Nat) => (t == 0, t + 1)) () 0 0
  have key : ∀ v : List (Nat × Nat), crashes (fun (_ : Unit) (_ : Nat) (_ : Nat) => (some true, ())) v () = false ∧
      panics (fun (_ : Unit) (_ : Nat) (_ : Nat) => (some true, ())) v () = 0 ∧
      split (onPair (calm (fun (_ : Unit) (_ : Nat) (_ : Nat) => (some true, ())))) v () = (v, [], ()) := by
    intro v
    induction v with
    | nil => exact ⟨rfl, rfl, rfl⟩
    | cons a v ih =>
      refine ⟨ih.1, ?_, ?_⟩
      · simpa [panics] using ih.2.1
      · simp [split, onPair, calm] at ih ⊢
        simp [ih.2.2]
  obtain ⟨k1, k2, k3⟩ := key v
  obtain ⟨rfl, hy⟩ := h7 k1
  rw [k3] at h2
  cases h2
  simp at hy
  subst hy
  have hl := h1.length_eq
  simp only [List.nil_append] at h4
  subst h4
  rw [k2] at h6
  simp only [List.append_nil] at hl h1
  match v, hl, h6, h8, h3, h1 with
  | [p, q, w], _, h6, h8, h3, h1 =>
    have he : e = .panicked := h6
    obtain ⟨-, h9, h10⟩ := h8 (by rw [he]; simp)
    exact ⟨e, t', m', h3, he, h9, h10.1⟩

/-! ### C121 -/

/-- C121, for `retain`: unless the closure panics (then nothing is removed), it is shown all pairs; the rejected ones are removed and dropped
one after the other, up to and including the first whose destructors panic (`sweep`), and the others stay.  So the map has whole pairs
only, and every later history goes as on a map with these pairs. -/
theorem C121_retain {σ : Type} (h : Reachable m) (hc : Shows m c) (f : σ → L → R → Option Bool × σ) (d : τ → L ⊕ R → Bool × τ) (s : σ)
    (t : τ) :
    ∃ v : List (L × R), v.Perm c ∧
      ((crashes f v s = true ∧ ∃ s', m.retainD f d s t = .ok (.panicked, s', t, m)) ∨
       (crashes f v s = false ∧ ∃ (accepted rejected left : List (L × R)) (n : Nat) (s' : σ) (t' : τ) (m' : CycleMap L R),
        split (onPair (calm f)) v s = (accepted, rejected, s') ∧
        sweep d (fun p => [.inl p.1, .inr p.2]) rejected t = (n, left, t') ∧
        m.retainD f d s t = .ok (match n with | 0 => .returned | 1 => .panicked | _ => .aborted, s', t', m') ∧
        UsableAs m' (accepted ++ left))) := by
  obtain ⟨v, hp, ⟨hcr, e⟩ | ⟨hcr, x, m', h1, h2, h3⟩⟩ := retainD_refines (h.repr_of_shows hc) f d s t
  · exact ⟨v, hp, .inl ⟨hcr, _, e⟩⟩
  · exact ⟨v, hp, .inr ⟨hcr, _, _, _, _, _, _, m', rfl, h1, h2, h3.usable⟩⟩

/-- C121, for `extend`: it ends early only after an element by whose insertion destructors panicked; the elements up to and including this one
are inserted, and every later history goes as on a map with these pairs.  Every pair that was there or was inserted
is in the map or was dropped. -/
theorem C121_extend (h : Reachable m) (hc : Shows m c) (d : τ → L ⊕ R → Bool × τ) (xs : List (L × R)) (t : τ) :
    ∃ (e : Ending) (t' : τ) (m' : CycleMap L R) (ys zs gone : List (L × R)), xs = ys ++ zs ∧ m.extendD d xs t = .ok (e, t', m') ∧
      UsableAs m' (insertAll c ys) ∧ (gone ++ insertAll c ys).Perm (ys ++ c) ∧
      t' = (dropAll d (gone.flatMap fun p => [.inl p.1, .inr p.2]) t).2 ∧
      (e = match (dropAll d (gone.flatMap fun p => [.inl p.1, .inr p.2]) t).1 with
        | 0 => .returned | 1 => .panicked | _ => .aborted) ∧
      (e = .returned → zs = []) ∧ ∃ t0 m0, m.extendD d ys.dropLast t = .ok (.returned, t0, m0) := by
  obtain ⟨e, t', m', ys, zs, gone, h1, h2, -, h4, h5, h6, h7, h8, h9⟩ := extendD_refines (h.repr_of_shows hc) d xs t
  exact ⟨e, t', m', ys, zs, gone, h1, h2, h4.usable, h5, h6, h7, h8, h9⟩

/-- a destructor that panics the second time it is run: `retain` that rejects everything is stopped by the first pair it removes -/
example : ∃ (m' : CycleMap Nat Nat) (c' : List (Nat × Nat)),
    demo.retainD (fun (_ : Unit) _ _ => (some false, ())) (fun (t : Nat) _ => (t == 1, t + 1)) () 0 = .ok (.panicked, (), 2, m') ∧
    UsableAs m' c' ∧ c'.length = 2 := by
  obtain ⟨v, hp, ⟨hcr, _⟩ | ⟨_, a, r, l, n, s', t', m', h1, h2, h3, h4⟩⟩ := C121_retain demo_reachable demo_shows
    (fun (_ : Unit) _ _ => (some false, ())) (fun (t : Nat) (_ : Nat ⊕ Nat) => (t == 1, t + 1)) () 0
  · match v, hp.length_eq, hcr with
    | [p, q, w], _, hcr => cases hcr
  · match v, hp.length_eq, h1 with
    | [p, q, w], _, h1 =>
      cases h1; cases h2
      exact ⟨m', _, h3, h4, rfl⟩

/-- `(2, 10)` takes two pairs out of the map; a destructor panics, and `(4, 40)` is not inserted any more -/
example : ∃ (m' : CycleMap Nat Nat) (e : Ending) (t' : Nat),
    demo.extendD (fun (t : Nat) _ => (t == 0, t + 1)) [(2, 10), (4, 40)] 0 = .ok (e, t', m') ∧ UsableAs m' [(2, 10), (3, 30)] := by
  have key : ∀ m0 : CycleMap Nat Nat, ∀ t0 : Nat, demo.extendD (fun (t : Nat) _ => (t == 0, t + 1)) [(2, 10)] 0 ≠ .ok (.returned, t0, m0) := by
    intro m0 t0 hh
    obtain ⟨m1, e1, -⟩ := insert_refines (demo_reachable.repr_of_shows demo_shows) 2 10
    simp [extendD, e1, bind, Except.bind, CycleSpec.insert, findL, findR, hasPair, OptionalPair.ofPair, given, pieces, dropAll, endingOf,
      pure, Except.pure] at hh
  obtain ⟨e, t', m', ys, zs, gone, h1, h2, h3, h4, _, h6, h7, t0, m0, h8⟩ := C121_extend demo_reachable demo_shows
    (fun (t : Nat) (_ : Nat ⊕ Nat) => (t == 0, t + 1)) [(2, 10), (4, 40)] 0
  match ys, h1 with
  | [], h1 =>
    subst h1
    have : gone = [] := by
      have := h4.length_eq
      simp [insertAll] at this
      exact this
    subst this
    cases h7 h6
  | [p], h1 =>
    cases h1
    exact ⟨m', e, t', h2, h3⟩
  | [p, q], h1 => cases h1; exact absurd h8 (key _ _)

/-! ### C122 -/

/-- C122 in full, for `CycleMap`: however `clear` ends, the map is empty then.  False, see `C122_false`. -/
def C122_full : Prop :=
  ∀ [RawImpl] [LawfulRaw] (L R τ : Type) [BEq L] [BEq R] [EquivBEq L] [EquivBEq R] (m : CycleMap L R) (d : τ → L ⊕ R → Bool × τ) (t : τ),
    Reachable m → Shows (m.clearD d t).2.2 []

/-- What happens if the destructor of a left item panics (`dropUntil`: the items are dropped one after the other until a destructor panics):
`clear` panics, no left item is left, and all right items are still there, without a partner; removing one or inserting one
again panics. -/
theorem C122_actual (h : Reachable m) (hc : Shows m c) (d : τ → L ⊕ R → Bool × τ) (t : τ)
    (hd : (dropUntil d (m.iterLeft.map .inl) t).1 = true) :
    ∃ (t' : τ) (m' : CycleMap L R), m.clearD d t = (.panicked, t', m') ∧ m'.len = 0 ∧ m'.iterLeft = [] ∧
      (∀ l, m'.containsLeft l = false) ∧ m'.iterRight.Perm (c.map (·.2)) ∧
      ∀ p ∈ c, m'.containsRight p.2 = true ∧ m'.getLeft p.2 = none ∧
        m'.removeViaRight p.2 = .error .unwrapNone ∧ ∀ l, m'.insert l p.2 = .error .unwrapNone := by
  rcases hk : dropUntil d (m.iterLeft.map .inl) t with ⟨_ | _, t'⟩
  · rw [hk] at hd; cases hd
  have hl : m.left.toList.map (fun x => (.inl x.value : L ⊕ R)) = m.iterLeft.map .inl := by rw [iterLeft, List.map_map]; rfl
  have hce : m.clearD d t = (.panicked, t', { m with left := m.left.clear }) := by rw [clearD, hl, hk]
  obtain ⟨ps, hr, hp⟩ := h.repr_of_shows hc
  obtain ⟨h1, h2, h3, h4, h5⟩ := orphans (m := { m with left := m.left.clear }) (rs := ps) (RawTable.clear_entries _) hr.right hr.apart
  exact ⟨t', _, hce, h1, h2, h3, h4.trans (hp.map _), fun p hpm => h5 p (hp.mem_iff.2 hpm)⟩

/-- C122, what holds: if no destructor of a left item panics, the map is empty, even if the destructor of a right item panics.
Missing: left items whose destructors panic. -/
theorem C122_partial (m : CycleMap L R) (d : τ → L ⊕ R → Bool × τ) (t : τ) (hd : ∀ t, ∀ l ∈ m.iterLeft, (d t (.inl l)).1 = false) :
    UsableAs (m.clearD d t).2.2 [] := by
  have hl : m.left.toList.map (fun x => (.inl x.value : L ⊕ R)) = m.iterLeft.map .inl := by rw [iterLeft, List.map_map]; rfl
  have hn : ∀ t, (dropUntil d (m.iterLeft.map .inl) t).1 = false := fun t => dropUntil_calm (fun t a ha => by
    obtain ⟨l, hl, rfl⟩ := List.mem_map.1 ha; exact hd t l hl) t
  rcases hk : dropUntil d (m.iterLeft.map .inl) t with ⟨_ | _, t'⟩
  · have hc : (m.clearD d t).2.2 = m.clear := by
      rw [clearD, hl, hk]
      simp only
      split <;> rfl
    rw [hc]; exact (clear_refines m).usable
  · have := hn t; rw [hk] at this; cases this

example : UsableAs (demo.clearD (fun (_ : Unit) x => (x.isRight, ())) ()).2.2 [] :=
  C122_partial demo _ () (by simp)

omit [RawImpl] [LawfulRaw] in
/-- the witness: three pairs, every destructor panics -/
theorem C122_false : ¬ C122_full := by
  intro h
  let _ := messyRaw; have := messyRaw_lawful
  obtain ⟨t', m', h1, _, _, _, h5, _⟩ := C122_actual demo_reachable demo_shows (fun (_ : Unit) _ => (true, ())) () (by
    have := demo_shows.iterLeft.length_eq
    match hl : demo.iterLeft, this with
    | [a, b, c], _ => rfl)
  have h2 := h Nat Nat Unit demo (fun _ _ => (true, ())) () demo_reachable
  rw [h1] at h2
  have h3 := (h5.symm.trans h2.iterRight).length_eq
  simp at h3

end Verif.CycleMap

namespace Verif.PartialMap
open PartialSpec OptionalPair Demo
open CycleSpec (split)
open CycleMap (Ending calm panics)

variable [RawImpl] [LawfulRaw] {L R τ : Type} [BEq L] [BEq R] [EquivBEq L] [EquivBEq R]
variable {m : PartialMap L R} {c : List (OptionalPair L R)}

/-- the map has the entries `c`, and so it behaves in every later history -/
def UsableAs (m : PartialMap L R) (c : List (OptionalPair L R)) : Prop :=
  Shows m c ∧ ∀ ops, SafeRun m.hb c ops → ∃ os m'' c'', m.run ops = .ok (os, m'') ∧ Steps c ops os c'' ∧ Shows m'' c''

theorem Repr.usable (h : Repr m c) : UsableAs m c := by
  refine ⟨h.shows, fun ops hs => ?_⟩
  obtain ⟨os, m'', c'', e, s, h, _⟩ := run_simulates rfl h hs
  exact ⟨os, m'', c'', e, s, h.shows⟩

/-! ### C120 -/

/-- C120, for `PartialCycleMap`: `drain_filter(f)`, at most `n` calls of `next`, then the iterator is dropped; `f` accepts `SomeRight(r)` for no
paired `r` (for the others see C54) and may panic, and so may the destructors of the accepted items that were not
yielded.  The closure visits entries with a left item (`v1`, of `v1 ++ w1`), then entries with a right item (`v2`, of `v2 ++ w2`) that
are still there.  A destructor that panics does not stop the work: all entries are visited if `f` does not panic.  Unless two panics meet
(which aborts the process) the accepted entries are gone, all others are still there, and every later history goes as on a map with these
entries.  The call ends as said by the number of panics of `f` and of the destructors. -/
theorem C120_drain_filter {σ : Type} (h : Reachable m) (hc : Shows m c) (f : σ → OptionalPair L R → Option Bool × σ)
    (d : τ → L ⊕ R → Bool × τ) (s : σ) (t : τ) (n : Nat) (hsafe : ∀ s l r, someBoth l r ∈ c → (f s (someRight r)).1 ≠ some true) :
    ∃ (e : Ending) (v1 w1 v2 w2 a1 k1 a2 k2 yielded dropped c' : List (OptionalPair L R)) (s1 s2 s' : σ) (t' : τ) (k : Nat)
      (m' : PartialMap L R),
      (v1 ++ w1).Perm (c.filter fun x => (leftOf x).isSome) ∧ split (calm f) v1 s = (a1, k1, s1) ∧
      (v2 ++ w2).Perm ((k1 ++ w1 ++ c.filter fun x => (leftOf x).isNone).filter fun x => (rightOf x).isSome) ∧
      split (calm fun s x => f s (asRight x)) v2 s1 = (a2, k2, s2) ∧
      k = panics f v1 s + panics (fun s x => f s (asRight x)) v2 s1 ∧
      m.drainFilterD f d s t n = .ok (e, yielded, s', t', m') ∧
      a1 ++ a2.map asRight = yielded ++ dropped ∧ yielded.length ≤ n ∧
      c' = k2 ++ w2 ++ (k1 ++ w1).filter (fun x => (rightOf x).isNone) ∧ (a1 ++ a2 ++ c').Perm c ∧
      (e = match k + (dropAll d (dropped.flatMap pieces) t).1 with
        | 0 => .returned | 1 => .panicked | _ => .aborted) ∧
      (k = 0 → w1 = [] ∧ w2 = [] ∧ yielded = (a1 ++ a2.map asRight).take n) ∧
      (e ≠ .aborted → s' = s2 ∧ t' = (dropAll d (dropped.flatMap pieces) t).2 ∧ UsableAs m' c') := by
  obtain ⟨e, e0, v1, w1, us, v2, w2, ps, dr, s', t', m', g1, g2, g3, g4, g5, g6, g7, g8, g9, g10, g11, g12⟩ :=
    drainFilterD_refines (h.repr_of_shows hc) f d s t n hsafe
  have p1 := CycleMap.split_perm (calm f) v1 s
  generalize hs1 : split (calm f) v1 s = q1 at *
  obtain ⟨a1, k1, s1⟩ := q1
  have p2 := CycleMap.split_perm (calm fun s x => f s (asRight x)) v2 s1
  simp only at *
  generalize hs2 : split (calm fun s x => f s (asRight x)) v2 s1 = q2 at *
  obtain ⟨a2, k2, s2⟩ := q2
  simp only at *
  have hu : us.Perm (c.filter fun x => (leftOf x).isNone) := by
    have := g1.filter fun e => (leftOf e).isNone
    rwa [List.filter_append, List.filter_eq_nil_iff.2 (fun e he => by
      have := g2 e he; revert this; cases leftOf e <;> simp),
      List.filter_eq_self.2 (fun e he => by simp [g3 e he]), List.nil_append] at this
  refine ⟨e, v1, w1, v2, w2, a1, k1, a2, k2, ps, dr, _, s1, s2, s', t', _, m', ?_, hs1, ?_, hs2, rfl, g6, g8, g7, rfl, ?_, ?_, ?_, ?_⟩
  · have := g1.filter fun e => (leftOf e).isSome
    rwa [List.filter_append, List.filter_eq_self.2 g2, List.filter_eq_nil_iff.2 (fun e he => by simp [g3 e he]),
      List.append_nil] at this
  · have := g4.filter fun e => (rightOf e).isSome
    rw [List.filter_append, List.filter_eq_self.2 g5, List.filter_eq_nil_iff.2 (fun e he => by
      have := (List.mem_filter.1 he).2; revert this; cases rightOf e <;> simp), List.append_nil] at this
    exact this.trans ((hu.append_left _).filter _)
  · have q : (a2 ++ (k2 ++ w2 ++ (k1 ++ w1).filter fun x => (rightOf x).isNone)).Perm (k1 ++ w1 ++ us) := by
      refine .trans ?_ g4
      simp only [← List.append_assoc]
      exact (p2.symm.append_right _).append_right _
    rw [List.append_assoc]
    refine (q.append_left a1).trans (.trans ?_ g1)
    simp only [← List.append_assoc]
    exact (p1.symm.append_right _).append_right _
  · rw [← g9]; exact g10
  · intro hk
    rw [hk] at g9
    exact g11 (by cases e0 <;> first | rfl | cases g9)
  · intro he
    obtain ⟨a, b, g⟩ := g12 he
    exact ⟨a, b, g.usable⟩

/-! ### C121 -/

/-- C121, for `retain`: the closure is shown all entries with a left item; the accepted ones (see C53) are removed and dropped one after the other,
up to and including the first whose destructors panic (`sweep`), and the others stay, whole. -/
theorem C121_retain {σ : Type} (h : Reachable m) (hc : Shows m c) (f : σ → OptionalPair L R → Bool × σ) (d : τ → L ⊕ R → Bool × τ) (s : σ)
    (t : τ) :
    ∃ (v accepted rejected left : List (OptionalPair L R)) (n : Nat) (s' : σ) (t' : τ) (m' : PartialMap L R),
      v.Perm (c.filter fun e => (leftOf e).isSome) ∧ split f v s = (accepted, rejected, s') ∧
      sweep d pieces accepted t = (n, left, t') ∧
      m.retainD f d s t = .ok (match n with | 0 => .returned | 1 => .panicked | _ => .aborted, s', t', m') ∧
      UsableAs m' (left ++ (rejected ++ c.filter fun e => (leftOf e).isNone)) := by
  obtain ⟨v, us, x, m', h1, h2, h3, h4, h5, h6⟩ := retainD_refines (h.repr_of_shows hc) f d s t
  have hd : v.Perm (c.filter fun e => (leftOf e).isSome) := by
    have := h1.filter fun e => (leftOf e).isSome
    rwa [List.filter_append, List.filter_eq_self.2 h2, List.filter_eq_nil_iff.2 (fun e he => by simp [h3 e he]),
      List.append_nil] at this
  have hu : us.Perm (c.filter fun e => (leftOf e).isNone) := by
    have := h1.filter fun e => (leftOf e).isNone
    rwa [List.filter_append, List.filter_eq_nil_iff.2 (fun e he => by
        have := h2 e he; revert this; cases leftOf e <;> simp),
      List.filter_eq_self.2 (fun e he => by simp [h3 e he]), List.nil_append] at this
  exact ⟨v, _, _, _, _, _, _, m', hd, rfl, h4, h5, (h6.perm (.append_left _ (.append_left _ hu))).usable⟩

/-- C121, for `retain_unpaired`: the same with the lone items -/
theorem C121_retain_unpaired {σ : Type} (h : Reachable m) (hc : Shows m c) (f : σ → OptionalPair L R → Bool × σ)
    (d : τ → L ⊕ R → Bool × τ) (s : σ) (t : τ) :
    ∃ (v accepted rejected left : List (OptionalPair L R)) (n : Nat) (s' : σ) (t' : τ) (m' : PartialMap L R),
      v.Perm (c.filter fun e => !isPair e) ∧ split f v s = (accepted, rejected, s') ∧
      sweep d pieces accepted t = (n, left, t') ∧
      m.retainUnpairedD f d s t = .ok (match n with | 0 => .returned | 1 => .panicked | _ => .aborted, s', t', m') ∧
      UsableAs m' (left ++ (rejected ++ c.filter isPair)) := by
  obtain ⟨v, x, m', h1, h2, h3, h4⟩ := retainUnpairedD_refines (h.repr_of_shows hc) f d s t
  exact ⟨v, _, _, _, _, _, _, m', h1, rfl, h2, h3, h4.usable⟩

/-- C121, for `retain_paired`: the same with the pairs -/
theorem C121_retain_paired {σ : Type} (h : Reachable m) (hc : Shows m c) (f : σ → L → R → Bool × σ) (d : τ → L ⊕ R → Bool × τ) (s : σ)
    (t : τ) :
    ∃ (v accepted rejected left : List (L × R)) (n : Nat) (s' : σ) (t' : τ) (m' : PartialMap L R),
      v.Perm (c.filterMap pairOf) ∧ split (fun s p => f s p.1 p.2) v s = (accepted, rejected, s') ∧
      sweep d (fun p => [.inl p.1, .inr p.2]) accepted t = (n, left, t') ∧
      m.retainPairedD f d s t = .ok (match n with | 0 => .returned | 1 => .panicked | _ => .aborted, s', t', m') ∧
      UsableAs m' ((left ++ rejected).map (fun p => someBoth p.1 p.2) ++ c.filter fun e => !isPair e) := by
  obtain ⟨v, x, m', h1, h2, h3, h4⟩ := retainPairedD_refines (h.repr_of_shows hc) f d s t
  exact ⟨v, _, _, _, _, _, _, m', h1, rfl, h2, h3, h4.usable⟩

/-- C121, for the two `extend`s: they end early only after an element by whose insertion destructors panicked; the elements up to and
including this one are inserted.  Every entry that was there or was inserted is in the map or was dropped. -/
theorem C121_extend (h : Reachable m) (hc : Shows m c) (d : τ → L ⊕ R → Bool × τ) (xs : List (OptionalPair L R)) (t : τ) :
    ∃ (e : Ending) (t' : τ) (m' : PartialMap L R) (ys zs gone : List (OptionalPair L R)), xs = ys ++ zs ∧
      m.extendD d xs t = .ok (e, t', m') ∧
      (∀ ps : List (L × R), xs = ps.map (fun p => someBoth p.1 p.2) → m.extendPairsD d ps t = .ok (e, t', m')) ∧
      UsableAs m' (insertAll c ys) ∧ (gone ++ insertAll c ys).Perm (present ys ++ c) ∧
      t' = (dropAll d (gone.flatMap pieces) t).2 ∧
      (e = match (dropAll d (gone.flatMap pieces) t).1 with
        | 0 => .returned | 1 => .panicked | _ => .aborted) ∧
      (e = .returned → zs = []) ∧ ∃ t0 m0, m.extendD d ys.dropLast t = .ok (.returned, t0, m0) := by
  obtain ⟨e, t', m', ys, zs, gone, h1, h2, -, h4, h5, h6, h7, h8, h9⟩ := extendD_refines (h.repr_of_shows hc) d xs t
  exact ⟨e, t', m', ys, zs, gone, h1, h2, fun ps hp => by rw [extendPairsD_eq, ← hp, h2], h4.usable, h5, h6, h7, h8, h9⟩

/-- the closure accepts everything, a destructor panics the first time it is run: the first entry that `retain` removes is the last -/
example : ∃ (m' : PartialMap Nat Nat) (e : Ending) (t' : Nat) (c' : List (OptionalPair Nat Nat)),
    demo.retainD (fun (_ : Unit) _ => (true, ())) (fun (t : Nat) _ => (t == 0, t + 1)) () 0 = .ok (e, (), t', m') ∧
    UsableAs m' c' ∧ c'.length = 3 := by
  obtain ⟨v, a, r, l, n, s', t', m', h1, h2, h3, h4, h5⟩ := C121_retain demo_reachable demo_shows
    (fun (_ : Unit) _ => (true, ())) (fun (t : Nat) (_ : Nat ⊕ Nat) => (t == 0, t + 1)) () 0
  refine ⟨m', _, t', _, h4, h5, ?_⟩
  have hl := h1.length_eq
  have hm : ∀ e ∈ v, (leftOf e).isSome = true := fun e he => (List.mem_filter.1 (h1.mem_iff.1 he)).2
  match v, hl, h2, hm with
  | [p, q, w], _, h2, hm =>
    cases h2
    have : l = [q, w] := by
      cases p with
      | someLeft => cases h3; rfl
      | someBoth => cases h3; rfl
      | neither => cases hm _ List.mem_cons_self
      | someRight => cases hm _ List.mem_cons_self
    subst this
    rfl

/-- without panics all lone items go -/
example : ∃ (m' : PartialMap Nat Nat) (e : Ending) (c' : List (OptionalPair Nat Nat)),
    demo.retainUnpairedD (fun (_ : Unit) _ => (true, ())) (fun (t : Unit) _ => (false, t)) () () = .ok (e, (), (), m') ∧
    UsableAs m' c' ∧ c' = [someBoth 2 20, someBoth 1 10] := by
  obtain ⟨v, a, r, l, n, s', t', m', h1, h2, h3, h4, h5⟩ := C121_retain_unpaired demo_reachable demo_shows
    (fun (_ : Unit) _ => (true, ())) (fun (t : Unit) (_ : Nat ⊕ Nat) => (false, t)) () ()
  refine ⟨m', _, _, h4, h5, ?_⟩
  match v, h1.length_eq, h2 with
  | [p, q], _, h2 =>
    cases h2
    cases p <;> cases q <;> cases h3 <;> rfl

/-- a destructor that panics the second time it is run: of two pairs one is left -/
example : ∃ (m' : PartialMap Nat Nat) (p : Nat × Nat),
    demo.retainPairedD (fun (_ : Unit) _ _ => (true, ())) (fun (t : Nat) _ => (t == 1, t + 1)) () 0 = .ok (.panicked, (), 2, m') ∧
    UsableAs m' [someBoth p.1 p.2, someRight 30, someLeft 3] := by
  obtain ⟨v, a, r, l, n, s', t', m', h1, h2, h3, h4, h5⟩ := C121_retain_paired demo_reachable demo_shows
    (fun (_ : Unit) _ _ => (true, ())) (fun (t : Nat) (_ : Nat ⊕ Nat) => (t == 1, t + 1)) () 0
  match v, h1.length_eq, h2 with
  | [p, q], _, h2 =>
    cases h2; cases h3
    exact ⟨m', q, h4, h5⟩

/-- `(2, 10)` takes two pairs out of the map; if no destructor panics, the lone `5` is inserted as well -/
example : ∃ (m' : PartialMap Nat Nat) (ys zs : List (OptionalPair Nat Nat)) (e : Ending) (t' : Nat),
    demo.extendD (fun (t : Nat) _ => (t == 0, t + 1)) [someBoth 2 10, someLeft 5] 0 = .ok (e, t', m') ∧
    [someBoth 2 10, someLeft 5] = ys ++ zs ∧ UsableAs m' (insertAll [someRight 30, someLeft 3, someBoth 2 20, someBoth 1 10] ys) := by
  obtain ⟨e, t', m', ys, zs, gone, h1, h2, _, h3, _⟩ := C121_extend demo_reachable demo_shows
    (fun (t : Nat) (_ : Nat ⊕ Nat) => (t == 0, t + 1)) [someBoth 2 10, someLeft 5] 0
  exact ⟨m', ys, zs, e, t', h2, h1, h3⟩

/-- the hypothesis of C120 for `PartialCycleMap`: a closure that accepts the pairs and the lone `30` and panics on the lone `3` -/
example : ∃ x, demo.drainFilterD (fun (_ : Unit) e => (if e == someLeft 3 then none else some (isPair e || e == someRight 30), ()))
    (fun (t : Nat) _ => (t == 0, t + 1)) () 0 1 = .ok x := by
  obtain ⟨e, v1, w1, v2, w2, a1, k1, a2, k2, y, dr, c', s1, s2, s', t', k, m', h1, h2, h3, h4, h5, h6, _⟩ := C120_drain_filter demo_reachable
    demo_shows (fun (_ : Unit) e => (if e == someLeft 3 then none else some (isPair e || e == someRight 30), ()))
    (fun (t : Nat) (_ : Nat ⊕ Nat) => (t == 0, t + 1)) () 0 1 (by
      intro _ l r hm
      simp at hm
      rcases hm with ⟨-, rfl⟩ | ⟨-, rfl⟩ <;> decide)
  exact ⟨_, h6⟩

/-! ### C122 -/

/-- C122 in full, for `PartialCycleMap`: however `clear` ends, the map is empty then.  False, see `C122_false`. -/
def C122_full : Prop :=
  ∀ [RawImpl] [LawfulRaw] (L R τ : Type) [BEq L] [BEq R] [EquivBEq L] [EquivBEq R] (m : PartialMap L R) (d : τ → L ⊕ R → Bool × τ) (t : τ),
    Reachable m → Shows (m.clearD d t).2.2 []

/-- What happens if the destructor of a left item panics (`dropUntil`: the items are dropped one after the other until a destructor panics):
`clear` panics, no left item is left, and all right items are still there; those that were paired say they are, have no partner, and
removing them with their partner panics. -/
theorem C122_actual (h : Reachable m) (hc : Shows m c) (d : τ → L ⊕ R → Bool × τ) (t : τ)
    (hd : (dropUntil d (m.iterLeft.map .inl) t).1 = true) :
    ∃ (t' : τ) (m' : PartialMap L R), m.clearD d t = (.panicked, t', m') ∧ m'.iterLeft = [] ∧
      (∀ l, m'.containsLeft l = false) ∧ m'.iterRight.Perm (c.filterMap rightOf) ∧
      ∀ l r, someBoth l r ∈ c → m'.isRightPaired r = true ∧ m'.getLeft r = none ∧ m'.removeViaRight r = .error .unwrapNone := by
  rcases hk : dropUntil d (m.iterLeft.map .inl) t with ⟨_ | _, t'⟩
  · rw [hk] at hd; cases hd
  have hl : m.left.toList.map (fun x => (.inl x.value : L ⊕ R)) = m.iterLeft.map .inl := by rw [iterLeft, List.map_map]; rfl
  have hce : m.clearD d t = (.panicked, t', { m with left := m.left.clear }) := by rw [clearD, hl, hk]
  obtain ⟨ps, hr, hp⟩ := h.repr_of_shows hc
  obtain ⟨h1, h2, h3, h4⟩ := orphans (m := { m with left := m.left.clear }) (rs := ps) (RawTable.clear_entries _) hr.right hr.apart
  exact ⟨t', _, hce, h1, h2, h3.trans (hp.filterMap _), fun l r hm => h4 l r (hp.mem_iff.2 hm)⟩

/-- C122, what holds: if no destructor of a left item panics, the map is empty, even if the destructor of a right item panics.
Missing: left items whose destructors panic. -/
theorem C122_partial (m : PartialMap L R) (d : τ → L ⊕ R → Bool × τ) (t : τ) (hd : ∀ t, ∀ l ∈ m.iterLeft, (d t (.inl l)).1 = false) :
    UsableAs (m.clearD d t).2.2 [] := by
  have hl : m.left.toList.map (fun x => (.inl x.value : L ⊕ R)) = m.iterLeft.map .inl := by rw [iterLeft, List.map_map]; rfl
  have hn : ∀ t, (dropUntil d (m.iterLeft.map .inl) t).1 = false := fun t => dropUntil_calm (fun t a ha => by
    obtain ⟨l, hl, rfl⟩ := List.mem_map.1 ha; exact hd t l hl) t
  rcases hk : dropUntil d (m.iterLeft.map .inl) t with ⟨_ | _, t'⟩
  · have hc : (m.clearD d t).2.2 = m.clear := by
      rw [clearD, hl, hk]
      simp only
      split <;> rfl
    rw [hc]; exact (clear_refines m).usable
  · have := hn t; rw [hk] at this; cases this

example : UsableAs (demo.clearD (fun (_ : Unit) x => (x.isRight, ())) ()).2.2 [] :=
  C122_partial demo _ () (by simp)

omit [RawImpl] [LawfulRaw] in
/-- the witness: every destructor panics -/
theorem C122_false : ¬ C122_full := by
  intro h
  let _ := messyRaw; have := messyRaw_lawful
  obtain ⟨t', m', h1, _, _, h5, _⟩ := C122_actual demo_reachable demo_shows (fun (_ : Unit) _ => (true, ())) () (by
    have := demo_shows.iterLeft.length_eq
    match hl : demo.iterLeft, this with
    | [a, b, c], _ => rfl)
  have h2 := h Nat Nat Unit demo (fun _ _ => (true, ())) () demo_reachable
  rw [h1] at h2
  have h3 := (h5.symm.trans h2.iterRight).length_eq
  simp [rightOf] at h3

end Verif.PartialMap

namespace Verif.GroupMap
open GroupSpec Demo
open CycleSpec (split)
open CycleMap (Ending)

variable [RawImpl] [LawfulRaw] {L R τ : Type} [BEq L] [BEq R] [EquivBEq L] [EquivBEq R]
variable {m : GroupMap L R} {c : Contents L R}

/-- the map has the contents `c`, and so it behaves in every later history -/
def UsableAs (m : GroupMap L R) (c : Contents L R) : Prop :=
  Shows m c ∧ ∀ ops, SafeRun c ops → ∃ os m'' c'', m.run ops = .ok (os, m'') ∧ Steps c ops os c'' ∧ Shows m'' c''

theorem Repr.usable (h : Repr m c) : UsableAs m c := by
  refine ⟨h.shows, fun ops hs => ?_⟩
  obtain ⟨os, m'', c'', e, s, h, _⟩ := run_simulates h hs
  exact ⟨os, m'', c'', e, s, h.shows⟩

/-! ### C121 -/

/-- C121, for `retain_unpaired`: the closure is shown all lone right items; the accepted ones (see C73) are removed and dropped one after the
other, up to and including the first whose destructor panics (`sweep`), and the others stay. -/
theorem C121_retain_unpaired {σ : Type} (h : Reachable m) (hc : Shows m c) (f : σ → R → Bool × σ) (d : τ → L ⊕ R → Bool × τ) (s : σ)
    (t : τ) :
    ∃ (v accepted rejected left : List R) (n : Nat) (s' : σ) (t' : τ) (m' : GroupMap L R),
      v.Perm (lone c) ∧ split f v s = (accepted, rejected, s') ∧ sweep d (fun r => [.inr r]) accepted t = (n, left, t') ∧
      m.retainUnpairedD f d s t = .ok (match n with | 0 => .returned | 1 => .panicked | _ => .aborted, s', t', m') ∧
      UsableAs m' ⟨left ++ (rejected ++ c.rights.filter (hasGroup c)), c.pairs⟩ := by
  obtain ⟨v, x, m', h1, h2, h3, h4⟩ := retainUnpairedD_refines (h.repr_of_shows hc) f d s t
  exact ⟨v, _, _, _, _, _, _, m', h1, rfl, h2, h3, Repr.usable h4⟩

/-- C121, for the two `extend`s, if no pair is in the map already when its turn comes (for the others see C74): they end early only after an
element by whose insertion destructors panicked; the elements up to and including this one are inserted.  Every item that was there or
was inserted is in the map or was dropped. -/
theorem C121_extend (h : Reachable m) (hc : Shows m c) (d : τ → L ⊕ R → Bool × τ) (xs : List (Option L × R)) (hs : NewPairs c xs) (t : τ) :
    ∃ (e : Ending) (t' : τ) (m' : GroupMap L R) (ys zs : List (Option L × R)) (gone : List (L ⊕ R)), xs = ys ++ zs ∧
      m.extendOptD d xs t = .ok (e, t', m') ∧
      (∀ ps : List (L × R), xs = ps.map (fun p => (some p.1, p.2)) → m.extendD d ps t = .ok (e, t', m')) ∧
      UsableAs m' (insertAll c ys) ∧ (gone ++ items (insertAll c ys)).Perm (itemsOf ys ++ items c) ∧
      t' = (dropAll d gone t).2 ∧
      (e = match (dropAll d gone t).1 with | 0 => .returned | 1 => .panicked | _ => .aborted) ∧
      (e = .returned → zs = []) ∧ ∃ t0 m0, m.extendOptD d ys.dropLast t = .ok (.returned, t0, m0) := by
  obtain ⟨e, t', m', ys, zs, gone, h1, h2, -, h4, h5, h6, h7, h8, h9⟩ := extendOptD_refines (h.repr_of_shows hc) d xs hs t
  exact ⟨e, t', m', ys, zs, gone, h1, h2, fun ps hp => by rw [extendD_eq, ← hp, h2], h4.usable, h5, h6, h7, h8, h9⟩

/-- the lone `30` goes, though its destructor panics -/
example : ∃ (m' : GroupMap Nat Nat),
    demo.retainUnpairedD (fun (_ : Unit) _ => (true, ())) (fun (t : Nat) _ => (true, t + 1)) () 0 = .ok (.panicked, (), 1, m') ∧
    UsableAs m' ⟨[20, 10], [(3, 20), (2, 10), (1, 10)]⟩ := by
  obtain ⟨v, a, r, l, n, s', t', m', h1, h2, h3, h4, h5⟩ := C121_retain_unpaired demo_reachable demo_shows
    (fun (_ : Unit) _ => (true, ())) (fun (t : Nat) (_ : Nat ⊕ Nat) => (true, t + 1)) () 0
  match v, h1.length_eq, h2 with
  | [p], _, h2 =>
    cases h2; cases h3
    exact ⟨m', h4, h5⟩

/-- `insert_right(10)` drops the group of `10`; `1` moves to `30`, and the second `1` and `30` are dropped -/
example : ∃ (m' : GroupMap Nat Nat) (e : Ending) (t' : Nat) (ys zs : List (Option Nat × Nat)),
    demo.extendOptD (fun (t : Nat) _ => (t == 2, t + 1)) [(some 1, 30), (none, 10)] 0 = .ok (e, t', m') ∧
    [(some 1, 30), (none, 10)] = ys ++ zs ∧ UsableAs m' (insertAll demoC ys) := by
  obtain ⟨e, t', m', ys, zs, gone, h1, h2, _, h3, _⟩ := C121_extend demo_reachable demo_shows
    (fun (t : Nat) (_ : Nat ⊕ Nat) => (t == 2, t + 1)) [(some 1, 30), (none, 10)] (by
      simp [NewPairs, hasPair, demoC]) 0
  exact ⟨m', e, t', ys, zs, h2, h1, h3⟩

/-! ### C122 -/

/-- C122 in full, for `GroupMap`: however `clear` ends, the map is empty then.  False, see `C122_false`. -/
def C122_full : Prop :=
  ∀ [RawImpl] [LawfulRaw] (L R τ : Type) [BEq L] [BEq R] [EquivBEq L] [EquivBEq R] (m : GroupMap L R) (d : τ → L ⊕ R → Bool × τ) (t : τ),
    Reachable m → Shows (m.clearD d t).2.2 empty

/-- What happens if the destructor of a left item panics (`dropUntil`: the items are dropped one after the other until a destructor panics):
`clear` panics, no left item is left, and all right items are still there, still paired with the left items that are gone (`ShowsTorn`); removing
one that had left items panics. -/
theorem C122_actual (h : Reachable m) (hc : Shows m c) (d : τ → L ⊕ R → Bool × τ) (t : τ)
    (hd : (dropUntil d (m.iterLeft.map .inl) t).1 = true) :
    ∃ (t' : τ) (m' : GroupMap L R), m.clearD d t = (.panicked, t', m') ∧ ShowsTorn m' c.rights [] c.pairs ∧
      ∀ r p, p ∈ c.pairs → (r == p.2) = true → m'.removeRight r = .error .unwrapNone := by
  rcases hk : dropUntil d (m.iterLeft.map .inl) t with ⟨_ | _, t'⟩
  · rw [hk] at hd; cases hd
  have hl : m.left.toList.map (fun x => (.inl x.value : L ⊕ R)) = m.iterLeft.map .inl := by rw [iterLeft, List.map_map]; rfl
  have hce : m.clearD d t = (.panicked, t', { m with left := m.left.clear }) := by rw [clearD, hl, hk]
  obtain ⟨h1, h2⟩ := clearLeft_torn (h.repr_of_shows hc)
  exact ⟨t', _, hce, h1, h2⟩

/-- C122, what holds: if no destructor of a left item panics, the map is empty, even if the destructor of a right item panics.
Missing: left items whose destructors panic. -/
theorem C122_partial (m : GroupMap L R) (d : τ → L ⊕ R → Bool × τ) (t : τ) (hd : ∀ t, ∀ l ∈ m.iterLeft, (d t (.inl l)).1 = false) :
    UsableAs (m.clearD d t).2.2 empty := by
  have hl : m.left.toList.map (fun x => (.inl x.value : L ⊕ R)) = m.iterLeft.map .inl := by rw [iterLeft, List.map_map]; rfl
  have hn : ∀ t, (dropUntil d (m.iterLeft.map .inl) t).1 = false := fun t => dropUntil_calm (fun t a ha => by
    obtain ⟨l, hl, rfl⟩ := List.mem_map.1 ha; exact hd t l hl) t
  rcases hk : dropUntil d (m.iterLeft.map .inl) t with ⟨_ | _, t'⟩
  · have hc : (m.clearD d t).2.2 = m.clear := by
      rw [clearD, hl, hk]
      simp only
      split <;> rfl
    rw [hc]; exact Repr.usable (clear_refines m)
  · have := hn t; rw [hk] at this; cases this

example : UsableAs (demo.clearD (fun (_ : Unit) x => (x.isRight, ())) ()).2.2 empty :=
  C122_partial demo _ () (by simp)

omit [RawImpl] [LawfulRaw] in
/-- the witness: every destructor panics -/
theorem C122_false : ¬ C122_full := by
  intro h
  let _ := messyRaw; have := messyRaw_lawful
  obtain ⟨t', m', h1, h5, _⟩ := C122_actual demo_reachable demo_shows (fun (_ : Unit) _ => (true, ())) () (by
    have := demo_shows.iterLeft.length_eq
    match hl : demo.iterLeft, this with
    | [a, b, c], _ => rfl)
  have h2 := h Nat Nat Unit demo (fun _ _ => (true, ())) () demo_reachable
  rw [h1] at h2
  have h3 := (h5.iterRight.symm.trans h2.iterRight).length_eq
  simp [demoC, empty] at h3

end Verif.GroupMap
