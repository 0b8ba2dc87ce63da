import Verif.PartialMap.Forget
import Verif.Props.Always
import Verif.Props.PartialIter
/-! Properties C113–C115: iterators leaked with `mem::forget`. -/
set_option linter.unusedSectionVars false
set_option linter.unusedSimpArgs false
namespace Verif.CycleMap
open CycleSpec OptionalPair Demo

variable [RawImpl] [LawfulRaw] {L R : Type} [BEq L] [BEq R] [EquivBEq L] [EquivBEq R]
variable {m : CycleMap L R} {c : List (L × R)}

/-! ### C113 -/

/-- C113: `drain_filter(f)`, at most `n` calls of `next`, then `mem::forget`.  In some order `d` of the pairs, the closure was shown pairs
until it had accepted `n` of them (or there were no more).  The accepted pairs were yielded and are gone, all others are still in the
map, those not shown to the closure included, and every later history goes as on a map with these pairs. -/
theorem C113_forget {σ : Type} (h : Reachable m) (hc : Shows m c) (f : σ → L → R → Bool × σ) (s : σ) (n : Nat) :
    ∃ (d : List (L × R)) (x : Seen σ (L × R)) (m' : CycleMap L R), d.Perm c ∧ x = upTo (fun s p => f s p.1 p.2) n d s ∧
      m.drainFilterForget f s n = .ok (x.accepted, x.state, m') ∧ Shows m' (x.rejected ++ x.unseen) ∧
      ∀ ops, SafeRun (x.rejected ++ x.unseen) ops →
        ∃ os m'' c'', m'.run ops = .ok (os, m'') ∧ Steps (x.rejected ++ x.unseen) ops os c'' ∧ Shows m'' c'' := by
  obtain ⟨d, m', h1, h2, h3, _⟩ := drainFilterForget_refines (h.repr_of_shows hc) f s n
  refine ⟨d, _, m', h1, rfl, h2, h3.shows, fun ops hs => ?_⟩
  obtain ⟨os, m'', c'', e, s, h⟩ := run_simulates h3 hs
  exact ⟨os, m'', c'', e, s, h.shows⟩

/-- forgotten after one item: of the three pairs two are left, although the closure accepts them, too -/
example : ∃ (ps : List (Nat × Nat)) (m' : CycleMap Nat Nat) (c' : List (Nat × Nat)),
    demo.drainFilterForget (fun (_ : Unit) _ _ => (true, ())) () 1 = .ok (ps, (), m') ∧ ps.length = 1 ∧ Shows m' c' ∧ c'.length = 2 := by
  obtain ⟨d, x, m', h1, h2, h3, h4, _⟩ := C113_forget demo_reachable demo_shows (fun (_ : Unit) _ _ => (true, ())) () 1
  have hl := h1.length_eq
  match d, hl with
  | [a, b, e], _ => subst h2; exact ⟨_, _, _, h3, rfl, h4, rfl⟩

/-- the closure is shown no pair after the last one yielded -/
example : upTo (fun (k : Nat) (x : Nat) => (x % 2 == 1, k + 1)) 1 [2, 3, 4, 5] 0 = ⟨[3], [2], [4, 5], 2⟩ := rfl

/-! ### C115 -/

/-- C115 in full, for `CycleMap`: a map whose `drain` was forgotten is still a map of some pairs.  False, see `C115_false`. -/
def C115_full : Prop :=
  ∀ [RawImpl] [LawfulRaw] (L R : Type) [BEq L] [BEq R] [EquivBEq L] [EquivBEq R] (m m' : CycleMap L R) (n : Nat) (ps : List (L × R)),
    Reachable m → m.drainForget n = .ok (ps, m') → ∃ c', Shows m' c'

/-- What happens: no left item is left, and the right item of every pair that was not yielded is still there, without a partner; removing it
or inserting it again panics. -/
theorem C115_actual (h : Reachable m) (hc : Shows m c) (n : Nat) :
    ∃ (d : List (L × R)) (m' : CycleMap L R), d.Perm c ∧ m.drainForget n = .ok (d.take n, m') ∧
      m'.len = 0 ∧ m'.iterLeft = [] ∧ (∀ l, m'.containsLeft l = false) ∧
      m'.iterRight.Perm ((d.drop n).map (·.2)) ∧
      ∀ p ∈ d.drop n, m'.containsRight p.2 = true ∧ m'.getLeft p.2 = none ∧
        m'.removeViaRight p.2 = .error .unwrapNone ∧ ∀ l, m'.insert l p.2 = .error .unwrapNone := by
  obtain ⟨d, m', hp, e, hb, _, hl, rs, hrs, hr, ha⟩ := drainForget_refines (h.repr_of_shows hc) n
  have nl : ∀ x (P : MappingPair L → Bool), m'.left.get x P = none := by
    intro x P; exact RawTable.get_none (by simp [hl])
  have nr : ∀ x (P : MappingPair L → Bool), m'.left.removeEntry x P = none := by
    intro x P; exact RawTable.removeEntry_none (by simp [hl])
  refine ⟨d, m', hp, e, ?_, ?_, ?_, ?_, ?_⟩
  · simp [len, RawTable.len, hl]
  · simp [iterLeft, RawTable.toList, hl]
  · intro l; simp [containsLeft, nl]
  · rw [← hrs, iterRight, RawTable.toList, List.map_map]
    refine (hr.map _).trans ?_
    simp [Function.comp_def, toR, Rec.pair]
  · intro p hpm
    rw [← hrs] at hpm
    obtain ⟨q, hq, rfl⟩ := List.mem_map.1 hpm
    obtain ⟨ts, ht⟩ := perm_cons_of_mem hq
    have ha' := List.pairwise_cons.1 ((ht.pairwise_iff (fun h => h.symm)).1 ha)
    have hperm : m'.right.entries.Perm (toR m.hb q :: ts.map (toR m.hb)) := hr.trans (ht.map _)
    have hk : ∀ e ∈ ts.map (toR m.hb), equivalentKey q.r e.2 = false := by
      intro e he
      obtain ⟨t, ht, rfl⟩ := List.mem_map.1 he
      exact (ha'.1 t ht).2.2
    have hself : equivalentKey q.r (toR m.hb q).2 = true := BEq.rfl
    have g1 : m'.right.get (m'.hb.hr q.r) (equivalentKey q.r) = some (toR m.hb q).2 := by
      rw [hb]; exact RawTable.get_some hperm rfl hself hk
    obtain ⟨t', g2, _⟩ := RawTable.removeEntry_some hperm (h := m'.hb.hr q.r) (p := equivalentKey q.r)
      (by rw [hb]; rfl) hself hk
    have g3 : m'.removeViaRight q.r = .error .unwrapNone := by simp [removeViaRight, g2, nr]
    refine ⟨by simp [containsRight, Rec.pair, g1], ?_, g3, ?_⟩
    · have : m'.right.get (m'.hb.hr q.r) (fun x => q.r == x.value) = some (toR m.hb q).2 := g1
      simp [getLeft, getLeftBy, Rec.pair, this, nl]
    · intro l
      have : m'.removeViaLeft l = .ok (none, m') := by simp [removeViaLeft, nr]
      simp [insert, this, Rec.pair, g3, bind, Except.bind]

/-- C115, what holds: forgotten after the last pair, `drain` leaves an empty map like a new one.  Missing: `drain` forgotten earlier. -/
theorem C115_partial (h : Reachable m) (hc : Shows m c) (n : Nat) (hn : c.length ≤ n) :
    ∃ (d : List (L × R)) (m' : CycleMap L R), d.Perm c ∧ m.drainForget n = .ok (d, m') ∧ Shows m' [] ∧
      ∀ ops, SafeRun [] ops → ∃ os m'' c'', m'.run ops = .ok (os, m'') ∧ Steps [] ops os c'' ∧ Shows m'' c'' := by
  obtain ⟨d, m', hp, e, hb, hc, hl, rs, hrs, hr, _⟩ := drainForget_refines (h.repr_of_shows hc) n
  have hlen : d.length ≤ n := by rw [hp.length_eq]; exact hn
  rw [List.drop_eq_nil_of_le hlen, List.map_eq_nil_iff] at hrs
  subst hrs
  rw [List.take_of_length_le hlen] at e
  have hr' : Repr m' [] := ⟨[], ⟨by rw [hl]; exact .refl _, by simpa using hr, .nil, by simp⟩, .refl _⟩
  refine ⟨d, m', hp, e, hr'.shows, fun ops hs => ?_⟩
  obtain ⟨os, m'', c'', e, s, h⟩ := run_simulates hr' hs
  exact ⟨os, m'', c'', e, s, h.shows⟩

example : ∃ (d : List (Nat × Nat)) (m' : CycleMap Nat Nat), d.Perm [(3, 30), (2, 20), (1, 10)] ∧ demo.drainForget 3 = .ok (d, m') ∧ Shows m' [] :=
  have ⟨d, m', h1, h2, h3, _⟩ := C115_partial demo_reachable demo_shows 3 (by simp)
  ⟨d, m', h1, h2, h3⟩

omit [RawImpl] [LawfulRaw] in
/-- the witness: `mem::forget` of `drain()` on three pairs after one item -/
theorem C115_false : ¬ C115_full := by
  intro h
  letI := messyRaw; haveI := messyRaw_lawful
  obtain ⟨d, m', hp, e, _, hl, _, hr, _⟩ := C115_actual demo_reachable demo_shows 1
  obtain ⟨c', s⟩ := h Nat Nat demo m' 1 _ demo_reachable e
  have h1 := s.iterLeft.length_eq
  have h2 := (hr.symm.trans s.iterRight).length_eq
  have h3 := hp.length_eq
  rw [hl] at h1
  simp at h1 h2 h3
  omega

omit [RawImpl] [LawfulRaw] in
/-- As `drain` starts the ids over, a left item inserted after a forgotten `drain` can find the right item of its former pair: `(1, 10)`
is inserted, `mem::forget(map.drain())` runs, `(1, 30)` is inserted, and `get_right(&1)` is `10`. -/
theorem C115_witness : letI := swissRaw 4
    ∃ os m ps m' o m'', (withCapacityAndHasher 0 idHash).run [.insert 1 10] = .ok (os, m) ∧ m.drainForget 0 = .ok (ps, m') ∧
      m'.insert 1 30 = .ok (o, m'') ∧ m''.getRight 1 = some 10 ∧ m''.arePaired 1 30 = true := by
  let _ := swissRaw 4
  refine ⟨_, _, _, _, _, _, rfl, rfl, rfl, ?_, ?_⟩ <;> decide

end Verif.CycleMap

namespace Verif.PartialMap
open PartialSpec OptionalPair Demo
open CycleSpec (upTo Seen upTo_perm)

variable [RawImpl] [LawfulRaw] {L R : Type} [BEq L] [BEq R] [EquivBEq L] [EquivBEq R]
variable {m : PartialMap L R} {c : List (OptionalPair L R)}

/-! ### C114 -/

/-- C114 in full: a forgotten `drain_filter` has removed the entries it yielded, and nothing else.  False, see `C114_false`. -/
def C114_full : Prop :=
  ∀ [RawImpl] [LawfulRaw] (L R : Type) [BEq L] [BEq R] [EquivBEq L] [EquivBEq R] (m : PartialMap L R) (c : List (OptionalPair L R)) (σ : Type)
    (f : σ → OptionalPair L R → Bool × σ) (s : σ) (n : Nat), Reachable m → Shows m c →
    ∃ (ps c' : List (OptionalPair L R)) (s' : σ) (m' : PartialMap L R), m.drainFilterForget f s n = .ok (ps, s', m') ∧
      (ps ++ c').Perm c ∧ Shows m' c'

/-- What happens, for every closure with a state.  In some order `d1` of the entries with a left item, the closure was shown entries until it
had accepted `n` of them; if there were fewer, it was then shown right items still there, in some order `d2` of their entries, as `SomeRight`
even if they are paired, until `n` items were accepted in all.  If the right item of a pair was accepted in this way, the left item
keeps saying it is paired and has no partner; if that happened to no pair, the map is one of the entries not accepted. -/
theorem C114_actual {σ : Type} (h : Reachable m) (hc : Shows m c) (f : σ → OptionalPair L R → Bool × σ) (s : σ) (n : Nat) :
    ∃ (d1 d2 : List (OptionalPair L R)) (x1 x2 : Seen σ (OptionalPair L R)) (m' : PartialMap L R),
      d1.Perm (c.filter fun e => (leftOf e).isSome) ∧ x1 = upTo f n d1 s ∧
      d2.Perm ((x1.rejected ++ x1.unseen ++ c.filter fun e => (leftOf e).isNone).filter fun e => (rightOf e).isSome) ∧
      x2 = upTo (fun s e => f s (asRight e)) (n - x1.accepted.length) d2 x1.state ∧
      m.drainFilterForget f s n = .ok (x1.accepted ++ x2.accepted.map asRight, x2.state, m') ∧
      m'.iterLeft.Perm ((x1.rejected ++ x1.unseen).filterMap leftOf) ∧
      m'.iterRight.Perm ((x2.rejected ++ x2.unseen).filterMap rightOf) ∧
      (∀ l r, someBoth l r ∈ x2.accepted →
        m'.isLeftPaired l = true ∧ m'.getRight l = none ∧ m'.removeViaLeft l = .error .unwrapNone) ∧
      ((∀ l r, someBoth l r ∉ x2.accepted) → ∃ c', (x1.accepted ++ x2.accepted ++ c').Perm c ∧ Shows m' c' ∧
        ∀ ops, SafeRun m'.hb c' ops → ∃ os m'' c'', m'.run ops = .ok (os, m'') ∧ Steps c' ops os c'' ∧ Shows m'' c'') := by
  obtain ⟨d1, us, d2, x1, x2, m', h1, h2, h3, hx1, h4, h5, hx2, h6, _, _, h7, h8, h9, h10⟩ :=
    drainFilterForget_refines (h.repr_of_shows hc) f s n
  have hd : d1.Perm (c.filter fun e => (leftOf e).isSome) := by
    have := h1.filter fun e => (leftOf e).isSome
    rwa [List.filter_append, List.filter_eq_self.2 h2, List.filter_eq_nil_iff.2 (fun e he => by simp [h3 e he]),
      List.append_nil] at this
  have hu : us.Perm (c.filter fun e => (leftOf e).isNone) := by
    have := h1.filter fun e => (leftOf e).isNone
    rwa [List.filter_append, List.filter_eq_nil_iff.2 (fun e he => by
        have := h2 e he; revert this; cases leftOf e <;> simp),
      List.filter_eq_self.2 (fun e he => by simp [h3 e he]), List.nil_append] at this
  refine ⟨d1, d2, x1, x2, m', hd, hx1, ?_, hx2, h6, h7, h8, h9, fun hx => ⟨_, ?_, (h10 hx).shows, fun ops hs => ?_⟩⟩
  · have := h4.filter fun e => (rightOf e).isSome
    rw [List.filter_append, List.filter_eq_self.2 h5, List.filter_filter, List.filter_eq_nil_iff.2
      (fun e he => by cases rightOf e <;> simp), List.append_nil] at this
    exact this.trans ((hu.append_left _).filter _)
  · have p1 := upTo_perm f n d1 s
    have p2 := upTo_perm (fun s e => f s (asRight e)) (n - x1.accepted.length) d2 x1.state
    rw [← hx1] at p1; rw [← hx2] at p2
    refine List.Perm.trans ?_ ((p1.append_right us).symm.trans h1)
    rw [List.append_assoc, List.append_assoc x1.accepted]
    refine List.Perm.append_left _ (List.Perm.trans ?_ h4)
    rw [← List.append_assoc]
    exact p2.symm.append_right _
  · obtain ⟨os, m'', c'', e, s, h, _⟩ := run_simulates rfl (h10 hx) hs
    exact ⟨os, m'', c'', e, s, h.shows⟩

/-- C114, what holds: it is so if the closure accepts `SomeRight(r)` for no paired right item `r`.  Missing: other closures (but also with them
if `n` entries with a left item are accepted, see `C114_actual`). -/
theorem C114_partial {σ : Type} (h : Reachable m) (hc : Shows m c) (f : σ → OptionalPair L R → Bool × σ) (s : σ) (n : Nat)
    (hf : ∀ s l r, someBoth l r ∈ c → (f s (someRight r)).1 = false) :
    ∃ (ps c' : List (OptionalPair L R)) (s' : σ) (m' : PartialMap L R), m.drainFilterForget f s n = .ok (ps, s', m') ∧
      ps.length ≤ n ∧ (ps ++ c').Perm c ∧ Shows m' c' := by
  obtain ⟨d1, d2, x1, x2, m', h1, hx1, h2, hx2, h3, _, _, _, h4⟩ := C114_actual h hc f s n
  have hacc : ∀ (f : σ → OptionalPair L R → Bool × σ) n d s, ∀ e ∈ (upTo f n d s).accepted, ∃ s', (f s' e).1 = true := by
    intro f n d s
    induction d generalizing n s with
    | nil => cases n <;> simp [upTo]
    | cons a d ih =>
      cases n with
      | zero => simp [upTo]
      | succ n =>
        intro e he
        cases hfa : f s a with
        | mk b s' =>
          cases b with
          | true =>
            simp only [upTo, hfa] at he
            rcases List.mem_cons.1 he with rfl | he
            · exact ⟨s, by rw [hfa]⟩
            · exact ih n s' e he
          | false =>
            simp only [upTo, hfa] at he
            exact ih (n + 1) s' e he
  have hlen : ∀ (f : σ → OptionalPair L R → Bool × σ) n d s, (upTo f n d s).accepted.length ≤ n := by
    intro f n d s
    induction d generalizing n s with
    | nil => cases n <;> simp [upTo]
    | cons a d ih =>
      cases n with
      | zero => simp [upTo]
      | succ n =>
        cases hfa : f s a with
        | mk b s' =>
          cases b with
          | true => simpa [upTo, hfa] using ih n s'
          | false => simpa [upTo, hfa] using ih (n + 1) s'
  have hmem : ∀ e ∈ x2.accepted, e ∈ d2 := by
    intro e he
    have := upTo_perm (fun s e => f s (asRight e)) (n - x1.accepted.length) d2 x1.state
    rw [← hx2] at this
    exact this.mem_iff.2 (List.mem_append_left _ he)
  have hin : ∀ e ∈ d2, e ∈ c := by
    intro e he
    have := (List.mem_filter.1 (h2.mem_iff.1 he)).1
    rcases List.mem_append.1 this with hm | hm
    · have p1 := upTo_perm f n d1 s
      rw [← hx1] at p1
      exact (List.mem_filter.1 (h1.mem_iff.1 (p1.mem_iff.2 (List.mem_append_right _ hm)))).1
    · exact (List.mem_filter.1 hm).1
  have hno : ∀ l r, someBoth l r ∉ x2.accepted := by
    intro l r hm
    have h1 := hm
    rw [hx2] at h1
    obtain ⟨s', hs'⟩ := hacc _ _ _ _ _ h1
    have := hf s' l r (hin _ (hmem _ hm))
    simp only [asRight] at hs'
    rw [this] at hs'; cases hs'
  obtain ⟨c', h5, h6, _⟩ := h4 hno
  have hmap : x2.accepted.map asRight = x2.accepted := by
    rw [List.map_congr_left (g := id), List.map_id]
    intro e he
    cases e with
    | someBoth l r => exact absurd he (hno l r)
    | _ => rfl
  rw [hmap] at h3
  refine ⟨_, c', _, m', h3, ?_, h5, h6⟩
  have l1 := hlen f n d1 s
  have l2 := hlen (fun s e => f s (asRight e)) (n - x1.accepted.length) d2 x1.state
  rw [← hx1] at l1; rw [← hx2] at l2
  simp; omega

example : ∃ (ps c' : List (OptionalPair Nat Nat)) (m' : PartialMap Nat Nat),
    demo.drainFilterForget (fun (_ : Unit) e => (isPair e || e == someRight 30, ())) () 2 = .ok (ps, (), m') ∧
    ps.length ≤ 2 ∧ (ps ++ c').Perm [someRight 30, someLeft 3, someBoth 2 20, someBoth 1 10] ∧ Shows m' c' := by
  obtain ⟨ps, c', _, m', h1, h2⟩ := C114_partial demo_reachable demo_shows
    (fun (_ : Unit) e => (isPair e || e == someRight 30, ())) () 2 (by
      intro _ l r hm
      simp at hm
      rcases hm with ⟨-, rfl⟩ | ⟨-, rfl⟩ <;> decide)
  exact ⟨ps, c', m', h1, h2⟩

omit [RawImpl] [LawfulRaw] in
/-- the witness: a closure accepting lone right items; of a pair the right item is yielded alone -/
theorem C114_false : ¬ C114_full := by
  intro h
  letI := messyRaw; haveI := messyRaw_lawful
  let f : Unit → OptionalPair Nat Nat → Bool × Unit := fun _ e => ((leftOf e).isNone, ())
  obtain ⟨ps, c', s', m', h1, h2, h3⟩ := h Nat Nat demo _ Unit f () 10 demo_reachable demo_shows
  obtain ⟨x, e, hx⟩ := ran (e := demo.drainFilterForget f () 10) (p := fun x => x.1.contains (someRight 10)) (by decide +kernel)
  rw [h1] at e; cases e
  have := h2.mem_iff.1 (List.mem_append_left c' (List.contains_iff_mem.1 hx))
  simp at this

/-! ### C115 -/

/-- C115 in full, for `PartialCycleMap`: a map whose `drain` was forgotten is still a map of some entries.  False, see `C115_false`. -/
def C115_full : Prop :=
  ∀ [RawImpl] [LawfulRaw] (L R : Type) [BEq L] [BEq R] [EquivBEq L] [EquivBEq R] (m m' : PartialMap L R) (n : Nat)
    (ps : List (OptionalPair L R)), Reachable m → m.drainForget n = .ok (ps, m') → ∃ c', Shows m' c'

/-- What happens.  The entries with a left item are yielded in some order `d`, then one lone right item; `us` are the lone right items.
If `drain` is forgotten in the first part, no left item is left, the lone right items are still there, and so is the right item of
every pair that was not yielded: it says that it is paired and has no partner, and removing it with its partner panics.
If it is forgotten later, the map is empty. -/
theorem C115_actual (h : Reachable m) (hc : Shows m c) (n : Nat) :
    ∃ (d us : List (OptionalPair L R)) (m' : PartialMap L R), d.Perm (c.filter fun e => (leftOf e).isSome) ∧
      us.Perm (c.filter fun e => (leftOf e).isNone) ∧ m'.iterLeft = [] ∧ (∀ l, m'.containsLeft l = false) ∧
      (n ≤ d.length → m.drainForget n = .ok (d.take n, m') ∧ m'.iterRight.Perm ((d.drop n ++ us).filterMap rightOf) ∧
        (∀ l r, someBoth l r ∈ d.drop n →
          m'.isRightPaired r = true ∧ m'.getLeft r = none ∧ m'.removeViaRight r = .error .unwrapNone) ∧
        ((∀ l r, someBoth l r ∉ d.drop n) → Shows m' us)) ∧
      (d.length < n → Shows m' [] ∧ ∃ x : Option (OptionalPair L R), m.drainForget n = .ok (d ++ x.toList, m') ∧
        (x = none ↔ us = []) ∧ ∀ e, x = some e → e ∈ us) := by
  obtain ⟨d, us, m', h1, h2, h3, hb, hcm, hl, h4, h5⟩ := drainForget_refines (h.repr_of_shows hc) n
  have hd : d.Perm (c.filter fun e => (leftOf e).isSome) := by
    have := h1.filter fun e => (leftOf e).isSome
    rwa [List.filter_append, List.filter_eq_self.2 h2, List.filter_eq_nil_iff.2 (fun e he => by simp [h3 e he]),
      List.append_nil] at this
  have hu : us.Perm (c.filter fun e => (leftOf e).isNone) := by
    have := h1.filter fun e => (leftOf e).isNone
    rwa [List.filter_append, List.filter_eq_nil_iff.2 (fun e he => by
        have := h2 e he; revert this; cases leftOf e <;> simp),
      List.filter_eq_self.2 (fun e he => by simp [h3 e he]), List.nil_append] at this
  have nl : ∀ x (P : MappingPair L → Bool), m'.left.get x P = none := by
    intro x P; exact RawTable.get_none (by simp [hl])
  have nr : ∀ x (P : MappingPair L → Bool), m'.left.removeEntry x P = none := by
    intro x P; exact RawTable.removeEntry_none (by simp [hl])
  refine ⟨d, us, m', hd, hu, by simp [iterLeft, RawTable.toList, hl], fun l => by simp [containsLeft, nl], fun hn => ?_, fun hn => ?_⟩
  · obtain ⟨e, rs, vs, hrs, hvs, hr, ha, hid⟩ := h4 hn
    refine ⟨e, ?_, fun l r hm => ?_, fun hno => ?_⟩
    · rw [← hrs, ← hvs, ← List.map_append, iterRight, RawTable.toList, List.map_map]
      refine (hr.map _).trans ?_
      rw [← tabR_values (hb := m.hb)]; rfl
    · rw [← hrs] at hm
      obtain ⟨⟨e, i⟩, hq, heq⟩ := List.mem_map.1 hm
      have heq : e = someBoth l r := heq
      subst heq
      obtain ⟨ts, ht⟩ := perm_cons_of_mem (List.mem_append_left vs hq)
      have ha' := List.pairwise_cons.1 (pairwise_perm ha ht)
      have hperm : m'.right.entries.Perm ((m'.hb.hr r, ⟨r, some (m'.hb.hl l), i⟩) :: tabR m'.hb ts) := by
        rw [hb]; exact hr.trans (ht.filterMap _)
      have hkey : ∀ y ∈ tabR m'.hb ts, equivalentKey r y.2 = false :=
        keysR fun q hq => hasR_false_of (x := someBoth l r) (by simp [hasR]) (ha'.1 q hq).2
      have g1 := RawTable.get_some (h := m'.hb.hr r) (p := equivalentKey r) hperm rfl BEq.rfl hkey
      obtain ⟨t', g2, _⟩ := RawTable.removeEntry_some (h := m'.hb.hr r) (p := equivalentKey r) hperm rfl BEq.rfl hkey
      have g3 := g1
      have e0 : (equivalentKey r) = fun x => r == x.value := rfl
      rw [e0] at g3
      refine ⟨?_, ?_, ?_⟩
      · simp only [isRightPaired, g1]; rfl
      · simp only [getLeft, getLeftBy, g3, nl]
      · simp only [removeViaRight, g2, nr]
    · have hne : ∀ q ∈ vs, q.e ≠ neither := by
        intro q hq he
        refine hc.oneToOne.2 (h1.mem_iff.1 (List.mem_append_right _ ?_))
        rw [← hvs, ← he]; exact List.mem_map_of_mem hq
      have hvl : ∀ q ∈ vs, leftOf q.e = none := fun q hq => h3 q.e (by rw [← hvs]; exact List.mem_map_of_mem hq)
      have hrr : tabR m.hb rs = [] := by
        rw [tabR, List.filterMap_eq_nil_iff]; intro q hq
        refine toR_none.2 ?_
        have hmem : q.e ∈ d.drop n := by rw [← hrs]; exact List.mem_map_of_mem hq
        have hs := h2 q.e (List.mem_of_mem_drop hmem)
        cases he : q.e with
        | someBoth l r => exact absurd (he ▸ hmem) (hno l r)
        | someRight r => rw [he] at hs; cases hs
        | _ => rfl
      have hr' : Repr m' us := by
        refine ⟨vs, ⟨?_, ?_, (List.pairwise_append.1 ha).2.1, ?_, hne⟩, by rw [hvs]⟩
        · rw [hl]
          have : tabL m'.hb vs = [] := by
            rw [tabL, List.filterMap_eq_nil_iff]; intro q hq; exact toL_none.2 (hvl q hq)
          rw [this]
        · rw [hb]
          refine hr.trans ?_
          simp only [tabR, List.filterMap_append] at hrr ⊢
          rw [hrr, List.nil_append]
        · intro q hq; rw [hcm]; exact hid q (List.mem_append_right _ hq)
      exact hr'.shows
  · obtain ⟨h6, x, h7⟩ := h5 hn
    exact ⟨(Repr.nil hl h6).shows, x, h7⟩

/-- C115, what holds: driven past the last entry with a left item, a forgotten `drain` leaves an empty map; forgotten before, it leaves a map of
the lone right items if the map had no pairs.  Missing: pairs not yielded. -/
theorem C115_partial (h : Reachable m) (hc : Shows m c) (n : Nat) :
    ((c.filterMap leftOf).length < n → ∃ (ps : List (OptionalPair L R)) (m' : PartialMap L R), m.drainForget n = .ok (ps, m') ∧ Shows m' []) ∧
    ((∀ l r, someBoth l r ∉ c) → n ≤ (c.filterMap leftOf).length → ∃ (ps c' : List (OptionalPair L R)) (m' : PartialMap L R),
      m.drainForget n = .ok (ps, m') ∧ c'.Perm (c.filter fun e => (leftOf e).isNone) ∧ Shows m' c') := by
  obtain ⟨d, us, m', h1, h2, _, _, h3, h4⟩ := C115_actual h hc n
  have hlen : d.length = (c.filterMap leftOf).length := by
    have e1 : d.length = (d.filterMap leftOf).length := by
      rw [List.length_filterMap_eq_countP, List.countP_eq_length.2]
      intro e he; exact (List.mem_filter.1 (h1.mem_iff.1 he)).2
    rw [e1, (h1.filterMap leftOf).length_eq, List.filterMap_filter]
    refine congrArg List.length (List.filterMap_congr fun e _ => ?_)
    cases e <;> rfl
  rw [hlen] at h3 h4
  refine ⟨fun hn => ?_, fun hno hn => ?_⟩
  · obtain ⟨h5, x, h6, _⟩ := h4 hn
    exact ⟨_, m', h6, h5⟩
  · obtain ⟨h5, _, _, h6⟩ := h3 hn
    exact ⟨_, us, m', h5, h2, h6 fun l r hm => hno l r (List.mem_filter.1 (h1.mem_iff.1 (List.mem_of_mem_drop hm))).1⟩

example : ∃ (ps : List (OptionalPair Nat Nat)) (m' : PartialMap Nat Nat), demo.drainForget 4 = .ok (ps, m') ∧ Shows m' [] :=
  (C115_partial demo_reachable demo_shows 4).1 (by decide)

/-- two left items and a right item, all alone; `drain()` forgotten after one of the left items -/
example : ∃ (m : PartialMap Nat Nat) (ps c' : List (OptionalPair Nat Nat)) (m' : PartialMap Nat Nat),
    m.lenLeft = 2 ∧ m.drainForget 1 = .ok (ps, m') ∧ c'.Perm [someRight 5] ∧ Shows m' c' := by
  obtain ⟨m, e, h, _⟩ := extend_refines (withHasher_repr constHash) ([someLeft 1, someLeft 2, someRight 5] : List (OptionalPair Nat Nat))
  have hr : Reachable m := .step (op := .extend [someLeft 1, someLeft 2, someRight 5]) (o := .unit) (.new constHash) (by simp) (by simp)
    (by simp) (by simp only [exec, e]; rfl)
  have hc : Shows m [someRight 5, someLeft 2, someLeft 1] := h.shows
  obtain ⟨ps, c', m', h1, h2, h3⟩ := (C115_partial hr hc 1).2 (by simp) (by decide)
  exact ⟨m, ps, c', m', hc.lenLeft, h1, h2, h3⟩

omit [RawImpl] [LawfulRaw] in
/-- the witness: two pairs, `drain()` forgotten at once -/
theorem C115_false : ¬ C115_full := by
  intro h
  let _ := messyRaw; have := messyRaw_lawful
  obtain ⟨d, us, m', h1, h2, hl, _, h3, _⟩ := C115_actual demo_reachable demo_shows 0
  obtain ⟨e, hr, ho, _⟩ := h3 (Nat.zero_le _)
  obtain ⟨c', s⟩ := h Nat Nat demo m' 0 _ demo_reachable e
  have hm : someBoth 1 10 ∈ d := h1.mem_iff.2 (by simp [leftOf])
  have hp := (ho 1 10 hm).1
  rw [s.isRightPaired, List.any_eq_true] at hp
  obtain ⟨x, hx, hp⟩ := hp
  have hl2 := s.iterLeft
  rw [hl] at hl2
  have := List.filterMap_eq_nil_iff.1 hl2.symm.eq_nil x hx
  cases x <;> simp [isPair, leftOf] at hp this

end Verif.PartialMap
