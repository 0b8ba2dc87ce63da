import Verif.Props.PartialIter
import Verif.PartialMap.Panics
/-! Property C92: closures that panic inside the `retain` family and `drain_filter` of a `PartialCycleMap`. -/
set_option linter.unusedSectionVars false
set_option linter.unusedSimpArgs false
namespace Verif.PartialMap
open PartialSpec OptionalPair Demo
open CycleSpec (split split_pure)
open CycleMap (Ending split_perm)

variable [RawImpl] [LawfulRaw] {L R : Type} [BEq L] [BEq R] [EquivBEq L] [EquivBEq R]
variable {m : PartialMap L R} {c : List (OptionalPair L R)}

/-- C92 for `retain`: if the closure, run over the entries with a left item in table order `d`, panics, then the map is
untouched (and the closure was not called again); otherwise the call does what it does with closures that do not panic (C55): the *rejected* entries stay. -/
theorem C92_retain {σ : Type} (h : Reachable m) (hc : Shows m c) (f : σ → OptionalPair L R → Option Bool × σ) (s : σ) :
    ∃ (d : List (OptionalPair L R)) (m' : PartialMap L R), d.Perm (c.filter fun e => (leftOf e).isSome) ∧
      ((crashes f d s = true ∧ m.retainP f s = .ok (.panicked, lastState f d s, m)) ∨
       (crashes f d s = false ∧ m.retainP f s = .ok (.returned, (split (calm f) d s).2.2, m') ∧
        Shows m' ((split (calm f) d s).2.1 ++ c.filter fun e => (leftOf e).isNone))) := by
  obtain ⟨d, us, m', h1, h2, h3, hor⟩ := retainP_refines (h.repr_of_shows hc) f s
  have hd : d.Perm (c.filter fun e => (leftOf e).isSome) := by
    have := h1.filter fun e => (leftOf e).isSome
    rwa [List.filter_append, List.filter_eq_self.2 h2, List.filter_eq_nil_iff.2 (fun e he => by simp [h3 e he]),
      List.append_nil] at this
  have hu : us.Perm (c.filter fun e => (leftOf e).isNone) := by
    have := h1.filter fun e => (leftOf e).isNone
    rwa [List.filter_append, List.filter_eq_nil_iff.2 (fun e he => by
      have := h2 e he; revert this; cases leftOf e <;> simp),
      List.filter_eq_self.2 (fun e he => by simp [h3 e he]), List.nil_append] at this
  rcases hor with ⟨k1, k2⟩ | ⟨k1, k2, k3, _⟩
  · exact ⟨d, m', hd, .inl ⟨k1, k2⟩⟩
  · exact ⟨d, m', hd, .inr ⟨k1, k2, (k3.perm (hu.append_left _)).shows⟩⟩

/-- C92 for `retain_paired`: as for `retain`, over the pairs. -/
theorem C92_retain_paired {σ : Type} (h : Reachable m) (hc : Shows m c) (f : σ → L × R → Option Bool × σ) (s : σ) :
    ∃ (d : List (L × R)) (m' : PartialMap L R), d.Perm (c.filterMap pairOf) ∧
      ((crashes f d s = true ∧ m.retainPairedP f s = .ok (.panicked, lastState f d s, m)) ∨
       (crashes f d s = false ∧ m.retainPairedP f s = .ok (.returned, (split (calm f) d s).2.2, m') ∧
        Shows m' ((split (calm f) d s).2.1.map (fun p => someBoth p.1 p.2) ++ c.filter fun e => !isPair e))) := by
  obtain ⟨d, m', hd, ⟨k1, k2⟩ | ⟨k1, k2, k3, _⟩⟩ := retainPairedP_refines (h.repr_of_shows hc) f s
  · exact ⟨d, m', hd, .inl ⟨k1, k2⟩⟩
  · exact ⟨d, m', hd, .inr ⟨k1, k2, k3.shows⟩⟩

/-- C92 for `retain_unpaired`: as for `retain`, over the lone items. -/
theorem C92_retain_unpaired {σ : Type} (h : Reachable m) (hc : Shows m c) (f : σ → OptionalPair L R → Option Bool × σ) (s : σ) :
    ∃ (d : List (OptionalPair L R)) (m' : PartialMap L R), d.Perm (c.filter fun e => !isPair e) ∧
      ((crashes f d s = true ∧ m.retainUnpairedP f s = .ok (.panicked, lastState f d s, m)) ∨
       (crashes f d s = false ∧ m.retainUnpairedP f s = .ok (.returned, (split (calm f) d s).2.2, m') ∧
        Shows m' ((split (calm f) d s).2.1 ++ c.filter isPair))) := by
  obtain ⟨d, m', hd, ⟨k1, k2⟩ | ⟨k1, k2, k3, _⟩⟩ := retainUnpairedP_refines (h.repr_of_shows hc) f s
  · exact ⟨d, m', hd, .inl ⟨k1, k2⟩⟩
  · exact ⟨d, m', hd, .inr ⟨k1, k2, k3.shows⟩⟩

/-- C92 for `drain_filter` dropped after at most `n` items, with a closure that accepts `SomeRight(r)` for no *paired* `r`
(for the others see C54) and that may panic at any call.  The call never panics by itself.  The closure visits entries with
a left item (`v1`, of `v1 ++ w1`) first; then entries with a right item (`v2`, of `v2 ++ w2`) that are still there, which it
sees as `SomeRight`.  It is stopped early only by a second panic, or by a first one that comes after the `n` items.  The entries it accepted are gone, all others are still there, and every later history goes as on a map
with those entries.  The call ends by returning, by a panic or by an abort if the closure panicked 0, 1 or 2 times. -/
theorem C92_drain_filter {σ : Type} (h : Reachable m) (hc : Shows m c) (f : σ → OptionalPair L R → Option Bool × σ) (s : σ)
    (n : Nat) (hsafe : ∀ s l r, someBoth l r ∈ c → (f s (someRight r)).1 ≠ some true) :
    ∃ (e : Ending) (v1 w1 v2 w2 a1 k1 a2 k2 yielded c' : List (OptionalPair L R)) (s1 s2 : σ) (m' : PartialMap L R),
      (v1 ++ w1).Perm (c.filter fun x => (leftOf x).isSome) ∧ split (calm f) v1 s = (a1, k1, s1) ∧
      (v2 ++ w2).Perm ((k1 ++ w1 ++ c.filter fun x => (leftOf x).isNone).filter fun x => (rightOf x).isSome) ∧
      split (calm fun s x => f s (asRight x)) v2 s1 = (a2, k2, s2) ∧
      m.drainFilterP f s n = .ok (e, yielded, s2, m') ∧
      yielded <+: a1 ++ a2.map asRight ∧ yielded.length ≤ n ∧
      c' = k2 ++ w2 ++ (k1 ++ w1).filter (fun x => (rightOf x).isNone) ∧ (a1 ++ a2 ++ c').Perm c ∧
      Shows m' c' ∧ m'.hb = m.hb ∧
      (∀ ops, SafeRun m'.hb c' ops → ∃ os m'' c'', m'.run ops = .ok (os, m'') ∧ Steps c' ops os c'' ∧ Shows m'' c'') ∧
      panics f v1 s + panics (fun s x => f s (asRight x)) v2 s1 =
        (match e with | .returned => 0 | .panicked => 1 | .aborted => 2) ∧
      (e = .returned → w1 = [] ∧ w2 = [] ∧ yielded = (a1 ++ a2.map asRight).take n) ∧ (w1 ≠ [] → v2 = []) ∧
      (e = .aborted → yielded.length < n) ∧ (e = .panicked → w1 ≠ [] ∨ w2 ≠ [] → yielded.length = n) := by
  obtain ⟨e, v1, w1, us, v2, w2, ps, m', g1, g2, g3, g4, g5, g6, g7, g8, g9, g10, g11, g12, g13, g14, g15⟩ :=
    drainFilterP_refines (h.repr_of_shows hc) f s n hsafe
  have p1 := split_perm (calm f) v1 s
  generalize hs1 : split (calm f) v1 s = q1 at *
  obtain ⟨a1, k1, s1⟩ := q1
  have p2 := split_perm (calm fun s x => f s (asRight x)) v2 s1
  simp only at *
  generalize hs2 : split (calm fun s x => f s (asRight x)) v2 s1 = q2 at *
  obtain ⟨a2, k2, s2⟩ := q2
  simp only at *
  have hu : us.Perm (c.filter fun x => (leftOf x).isNone) := by
    have := g1.filter fun e => (leftOf e).isNone
    rwa [List.filter_append, List.filter_eq_nil_iff.2 (fun e he => by
      have := g2 e he; revert this; cases leftOf e <;> simp),
      List.filter_eq_self.2 (fun e he => by simp [g3 e he]), List.nil_append] at this
  refine ⟨e, v1, w1, v2, w2, a1, k1, a2, k2, ps, _, s1, s2, m', ?_, hs1, ?_, hs2, g6, g7, g8, rfl, ?_, g9.shows, g10, ?_, ?_, g12, g13, g14, g15⟩
  · have := g1.filter fun e => (leftOf e).isSome
    rwa [List.filter_append, List.filter_eq_self.2 g2, List.filter_eq_nil_iff.2 (fun e he => by simp [g3 e he]),
      List.append_nil] at this
  · have := g4.filter fun e => (rightOf e).isSome
    rw [List.filter_append, List.filter_eq_self.2 g5, List.filter_eq_nil_iff.2 (fun e he => by
      have := (List.mem_filter.1 he).2; revert this; cases rightOf e <;> simp), List.append_nil] at this
    exact this.trans ((hu.append_left _).filter _)
  · have q : (a2 ++ (k2 ++ w2 ++ (k1 ++ w1).filter fun x => (rightOf x).isNone)).Perm (k1 ++ w1 ++ us) := by
      refine .trans ?_ g4
      simp only [← List.append_assoc]
      exact (p2.symm.append_right _).append_right _
    rw [List.append_assoc]
    refine (q.append_left a1).trans (.trans ?_ g1)
    simp only [← List.append_assoc]
    exact (p1.symm.append_right _).append_right _
  · intro ops hs
    obtain ⟨os, m'', c'', e, s, h, _⟩ := run_simulates rfl g9 hs
    exact ⟨os, m'', c'', e, s, h.shows⟩
  · rw [← g11]; cases e <;> rfl

/-- a closure that rejects the first entry it sees, accepts the second and panics on the third -/
def moody {α : Type} (s : Nat) (_ : α) : Option Bool × Nat := (if s == 2 then none else some (s == 1), s + 1)

/-- `demo` has three entries with a left item: the third call panics and nothing is removed -/
example : demo.retainP moody 0 = .ok (.panicked, 3, demo) := by
  obtain ⟨d, m', hp, h⟩ := C92_retain demo_reachable demo_shows moody 0
  have := hp.length_eq
  match d, this, h with
  | [a, b, c], _, .inl ⟨_, h1⟩ => exact h1
  | [a, b, c], _, .inr ⟨h0, _⟩ => simp [crashes, moody] at h0

/-- only two pairs: no panic, and one pair goes -/
example : ∃ d s' m', demo.retainPairedP moody 0 = .ok (.returned, s', m') ∧ Shows m' d ∧ m'.lenLeft = 2 := by
  obtain ⟨d, m', hp, ⟨h0, _⟩ | ⟨_, h1, h2⟩⟩ := C92_retain_paired demo_reachable demo_shows moody 0
  · have := hp.length_eq
    match d, this with
    | [a, b], _ => simp [crashes, moody] at h0
  · have := hp.length_eq
    match d, this with
    | [a, b], _ => exact ⟨_, _, m', h1, h2, h2.lenLeft.trans rfl⟩

example : ∃ d s' m', demo.retainUnpairedP moody 0 = .ok (.returned, s', m') ∧ Shows m' d ∧ m'.lenLeft + m'.lenRight = 5 := by
  obtain ⟨d, m', hp, ⟨h0, _⟩ | ⟨_, h1, h2⟩⟩ := C92_retain_unpaired demo_reachable demo_shows moody 0
  · have := hp.length_eq
    match d, this with
    | [a, b], _ => simp [crashes, moody] at h0
  · have := hp.length_eq
    match d, this with
    | [a, b], _ =>
      refine ⟨_, _, m', h1, h2, ?_⟩
      rw [h2.lenLeft, h2.lenRight]
      have ha : a ∈ [someRight 30, someLeft 3] := hp.mem_iff.1 (by simp)
      simp only [List.mem_cons, List.not_mem_nil, or_false] at ha
      rcases ha with rfl | rfl <;> rfl

/-- a closure that always panics: the first `next` panics, the `Drop` run by the unwinding panics again -/
example : ∃ ps s' m', demo.drainFilterP (fun s _ => (none, s + 1)) 0 5 = .ok (.aborted, ps, s', m') ∧
    m'.lenLeft = 3 := by
  obtain ⟨e, v1, w1, v2, w2, a1, k1, a2, k2, ps, c', s1, s2, m', g1, g2, g3, g4, g5, gp, -, -, gc, gs, -, -, g6, g7, g8, g9, g10⟩ :=
    C92_drain_filter demo_reachable demo_shows (fun s _ => (none, s + 1)) 0 5 (by simp)
  have hsp : ∀ (l : List (OptionalPair Nat Nat)) (s : Nat),
      split (calm fun s _ => (none, s + 1)) l s = ([], l, s + l.length) ∧ panics (fun s _ => (none, s + 1)) l s = l.length := by
    intro l
    induction l with
    | nil => intros; exact ⟨rfl, rfl⟩
    | cons a l ih =>
      intro s
      have h1 := (ih (s + 1)).1
      have h2 := (ih (s + 1)).2
      constructor
      · rw [split]
        have : calm (fun s (_ : OptionalPair Nat Nat) => ((none : Option Bool), s + 1)) s a = (false, s + 1) := rfl
        simp only [this, h1, List.length_cons]
        rw [Nat.add_assoc, Nat.add_comm 1]
      · simp only [panics, h2, List.length_cons]; simp; omega
  rw [(hsp v1 0).1] at g2; cases g2
  rw [(hsp v2 _).1] at g4; cases g4
  rw [(hsp v1 0).2, (hsp v2 _).2] at g6
  have hps : ps = [] := List.prefix_nil.1 gp
  subst hps
  have l3 : (v1 ++ w1).length = 3 := g1.length_eq
  clear g1 g3
  have l4 : m'.lenLeft = 3 := gs.lenLeft.trans ((gc.filterMap leftOf).length_eq)
  match e with
  | .aborted => exact ⟨_, _, _, g5, l4⟩
  | .returned =>
    exfalso
    obtain ⟨rfl, -, -⟩ := g7 rfl
    simp only [List.append_nil] at g6 l3; omega
  | .panicked =>
    exfalso
    have hw : w1 ≠ [] := by
      rintro rfl
      simp at g6 l3; omega
    cases g10 rfl (.inl hw)

end Verif.PartialMap
