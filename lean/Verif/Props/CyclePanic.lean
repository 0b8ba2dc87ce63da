import Verif.Props.CycleIter
import Verif.CycleMap.Panics
/-! Property C80: closures that panic inside `retain` and `drain_filter` of a `CycleMap`. -/
set_option linter.unusedSectionVars false
namespace Verif.CycleMap
open CycleSpec OptionalPair Demo

variable [RawImpl] [LawfulRaw] {L R : Type} [BEq L] [BEq R] [EquivBEq L] [EquivBEq R]
variable {m : CycleMap L R} {c : List (L × R)}

/-- C80 for `retain`: if the closure, run over the pairs in table order `d`, panics, then the map is untouched
(and the closure was not called again);
otherwise exactly the accepted pairs stay. -/
theorem C80_retain {σ : Type} (h : Reachable m) (hc : Shows m c) (f : σ → L → R → Option Bool × σ) (s : σ) :
    ∃ (d : List (L × R)) (m' : CycleMap L R), d.Perm c ∧
      ((crashes f d s = true ∧ m.retainP f s = .ok (.panicked, lastState f d s, m)) ∨
       (crashes f d s = false ∧ m.retainP f s =
          .ok (.returned, (split (fun s p => ((f s p.1 p.2).1 == some true, (f s p.1 p.2).2)) d s).2.2, m') ∧
          Shows m' (split (fun s p => ((f s p.1 p.2).1 == some true, (f s p.1 p.2).2)) d s).1)) := by
  obtain ⟨d, m', hp, ⟨h0, h1⟩ | ⟨h0, h1, h2⟩⟩ := retainP_refines (h.repr_of_shows hc) f s
  · exact ⟨d, m', hp, .inl ⟨h0, h1⟩⟩
  · exact ⟨d, m', hp, .inr ⟨h0, h1, h2.shows⟩⟩

/-- C80 for `drain_filter` dropped after at most `n` items, whatever the closure does: the call never panics
by itself; the pairs split into `visited` and `rest`; the closure was run over `visited` (in that order), the pairs it accepted are gone,
all others are still there, and every later history goes as on a map with those pairs.  Without a panic all pairs were visited, and the
first `n` accepted were yielded.  Pairs are left out only by a second panic (abort), or by a first one after `n` items. -/
theorem C80_drain_filter {σ : Type} (h : Reachable m) (hc : Shows m c) (f : σ → L → R → Option Bool × σ) (s : σ) (n : Nat) :
    ∃ (e : Ending) (visited rest yielded : List (L × R)) (s' : σ) (m' : CycleMap L R) (c' : List (L × R)),
      (visited ++ rest).Perm c ∧ m.drainFilterP f s n = .ok (e, yielded, s', m') ∧
      yielded <+: (split (fun s p => ((f s p.1 p.2).1 == some true, (f s p.1 p.2).2)) visited s).1 ∧
      c' = (split (fun s p => ((f s p.1 p.2).1 == some true, (f s p.1 p.2).2)) visited s).2.1 ++ rest ∧
      Shows m' c' ∧ (∀ p ∈ c', p ∈ c) ∧
      (∀ ops, SafeRun c' ops → ∃ os m'' c'', m'.run ops = .ok (os, m'') ∧ Steps c' ops os c'' ∧ Shows m'' c'') ∧
      (e = .returned ↔ crashes f visited s = false) ∧ yielded.length ≤ n ∧
      (e = .returned → rest = [] ∧
        yielded = (split (fun s p => ((f s p.1 p.2).1 == some true, (f s p.1 p.2).2)) visited s).1.take n) ∧
      (e = .aborted → yielded.length < n) ∧ (e = .panicked → rest ≠ [] → yielded.length = n) ∧
      panics f visited s = (match e with | .returned => 0 | .panicked => 1 | .aborted => 2) := by
  obtain ⟨e, v, r, k, m', hp, h1, h2, h3, h4, h5, h6, h7, h8, h9, h10⟩ := drainFilterP_refines (h.repr_of_shows hc) f s n
  have hl : ((split (onPair (calm f)) v s).1.take k).length = k := by rw [List.length_take]; omega
  refine ⟨e, v, r, _, _, m', _, hp, h1, List.take_prefix _ _, rfl, h2.shows, ?_, ?_, h4, by rw [hl]; exact h5,
    fun he => ⟨h3 he, h7 he⟩, by rw [hl]; exact h8, by rw [hl]; exact h9, h10⟩
  · intro p hpm
    refine hp.mem_iff.1 ?_
    rcases List.mem_append.1 hpm with h | h
    · exact List.mem_append_left _ ((split_perm _ v s).mem_iff.2 (List.mem_append_right _ h))
    · exact List.mem_append_right _ h
  · intro ops hs
    obtain ⟨os, m'', c'', e, s, h⟩ := run_simulates h2 hs
    exact ⟨os, m'', c'', e, s, h.shows⟩

/-- a closure that rejects the first pair it sees, accepts the second and panics on the third -/
def moody (s : Nat) (_ _ : Nat) : Option Bool × Nat := (if s == 2 then none else some (s == 1), s + 1)

example : demo.retainP moody 0 = .ok (.panicked, 3, demo) := by
  obtain ⟨d, m', hp, h⟩ := C80_retain demo_reachable demo_shows moody 0
  have := hp.length_eq
  match d, this, h with
  | [a, b, c], _, .inl ⟨_, h1⟩ => exact h1
  | [a, b, c], _, .inr ⟨h0, _⟩ => simp [crashes, moody] at h0

example : ∃ (e : Ending) (ps : List (Nat × Nat)) (s' : Nat) (m' : CycleMap Nat Nat) (c' : List (Nat × Nat)),
    demo.drainFilterP moody 0 2 = .ok (e, ps, s', m') ∧ Shows m' c' ∧ ∀ p ∈ c', p ∈ [(3, 30), (2, 20), (1, 10)] :=
  have ⟨e, _, _, ps, s', m', c', _, h1, _, _, h2, h3, _⟩ := C80_drain_filter demo_reachable demo_shows moody 0 2
  ⟨e, ps, s', m', c', h1, h2, h3⟩

end Verif.CycleMap
