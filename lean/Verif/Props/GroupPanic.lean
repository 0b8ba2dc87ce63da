import Verif.Props.GroupSwap
import Verif.GroupMap.Panics
/-! Property C93: closures that panic inside `retain_paired` and `retain_unpaired` of a `GroupMap`. -/
set_option linter.unusedSectionVars false
set_option linter.unusedSimpArgs false
namespace Verif.GroupMap
open GroupSpec Demo
open CycleSpec (split)
open CycleMap (Ending)

variable [RawImpl] [LawfulRaw] {L R : Type} [BEq L] [BEq R] [EquivBEq L] [EquivBEq R]
variable {m : GroupMap L R} {c : Contents L R}

/-- C93 for `retain_paired`: if the closure, run over the pairs in table order `d`, panics, then the map is untouched
(and the closure was not called again); otherwise
the call does what it does with closures that do not panic (C74). -/
theorem C93_retain_paired {σ : Type} (h : Reachable m) (hc : Shows m c) (f : σ → L × R → Option Bool × σ) (s : σ) :
    ∃ (d : List (L × R)) (m' : GroupMap L R), d.Perm c.pairs ∧
      ((crashes f d s = true ∧ m.retainPairedP f s = .ok (.panicked, lastState f d s, m)) ∨
       (crashes f d s = false ∧ m.retainPairedP f s = .ok (.returned, (split (calm f) d s).2.2, m') ∧
        ShowsTorn m' c.rights (split (calm f) d s).2.1 c.pairs ∧
        ∀ r p, p ∈ (split (calm f) d s).1 → (r == p.2) = true → m'.removeRight r = .error .unwrapNone)) := by
  obtain ⟨d, m', hd, ⟨k1, k2⟩ | ⟨k1, k2, k3, k4, _⟩⟩ := retainPairedP_eq (h.repr_of_shows hc) f s
  · exact ⟨d, m', hd, .inl ⟨k1, k2⟩⟩
  · exact ⟨d, m', hd, .inr ⟨k1, k2, k3, k4⟩⟩

/-- C93 for `retain_unpaired`: if the closure, run over the lone right items in table order `d`, panics, then the map is
untouched; otherwise the *rejected* items stay (C75). -/
theorem C93_retain_unpaired {σ : Type} (h : Reachable m) (hc : Shows m c) (f : σ → R → Option Bool × σ) (s : σ) :
    ∃ (d : List R) (m' : GroupMap L R), d.Perm (c.rights.filter fun r => !c.pairs.any (r == ·.2)) ∧
      ((crashes f d s = true ∧ m.retainUnpairedP f s = .ok (.panicked, lastState f d s, m)) ∨
       (crashes f d s = false ∧ m.retainUnpairedP f s = .ok (.returned, (split (calm f) d s).2.2, m') ∧
        Shows m' ⟨(split (calm f) d s).2.1 ++ c.rights.filter (fun r => c.pairs.any (r == ·.2)), c.pairs⟩)) := by
  obtain ⟨d, m', hd, ⟨k1, k2⟩ | ⟨k1, k2, k3, _⟩⟩ := retainUnpairedP_refines (h.repr_of_shows hc) f s
  · exact ⟨d, m', hd, .inl ⟨k1, k2⟩⟩
  · exact ⟨d, m', hd, .inr ⟨k1, k2, k3.shows⟩⟩

/-- a closure that rejects the first element it sees, accepts the second and panics on the third -/
def moody {α : Type} (s : Nat) (_ : α) : Option Bool × Nat := (if s == 2 then none else some (s == 1), s + 1)

/-- `demo` has three pairs: the third call panics and nothing is removed -/
example : demo.retainPairedP moody 0 = .ok (.panicked, 3, demo) := by
  obtain ⟨d, m', hp, h⟩ := C93_retain_paired demo_reachable demo_shows moody 0
  have := hp.length_eq
  match d, this, h with
  | [a, b, c], _, .inl ⟨_, h1⟩ => exact h1
  | [a, b, c], _, .inr ⟨h0, _⟩ => simp [crashes, moody] at h0

/-- one lone right item: no panic, it is rejected and stays -/
example : ∃ s' m', demo.retainUnpairedP moody 0 = .ok (.returned, s', m') ∧ m'.lenRight = 3 := by
  obtain ⟨d, m', hp, ⟨h0, _⟩ | ⟨_, h1, h2⟩⟩ := C93_retain_unpaired demo_reachable demo_shows moody 0
  · have := hp.length_eq
    match d, this with
    | [a], _ => simp [crashes, moody] at h0
  · have := hp.length_eq
    match d, this with
    | [a], _ => exact ⟨_, m', h1, h2.lenRight.trans rfl⟩

end Verif.GroupMap
