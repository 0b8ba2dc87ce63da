import Verif.CycleMap.Panics
/-
Closures that may panic, over any kind of element: `σ → α → Option Bool × σ`, where `none` is a panic and the captured
state survives it.  (`CycleMap.calm` and `CycleMap.crashes` are the same for closures of two arguments.)
-/
set_option linter.unusedSimpArgs false
namespace Verif
open CycleSpec (split)

variable {σ α : Type}

/-- a panic counted as `false` -/
def calm (f : σ → α → Option Bool × σ) (s : σ) (a : α) : Bool × σ := ((f s a).1 == some true, (f s a).2)

/-- whether the closure panics when it is run over these elements in this order -/
def crashes (f : σ → α → Option Bool × σ) : List α → σ → Bool
  | [], _ => false
  | a :: as, s => (f s a).1.isNone || crashes f as (f s a).2

/-- the captured state after the closure was run over these elements in this order, up to its first panic if any -/
def lastState (f : σ → α → Option Bool × σ) : List α → σ → σ
  | [], s => s
  | a :: as, s => if (f s a).1.isNone then (f s a).2 else lastState f as (f s a).2

/-- how often the closure panics when it is run over these elements in this order, each panic being caught -/
def panics (f : σ → α → Option Bool × σ) : List α → σ → Nat
  | [], _ => 0
  | a :: as, s => (if (f s a).1.isNone then 1 else 0) + panics f as (f s a).2

/-- the closure made total: after a panic it answers `false` without running (used in proofs only) -/
def once (f : σ → α → Option Bool × σ) : σ × Bool → α → Bool × (σ × Bool)
  | (s, true), _ => (false, (s, true))
  | (s, false), a =>
    match f s a with
    | (none, s') => (false, (s', true))
    | (some b, s') => (b, (s', false))

theorem split_once_true (f : σ → α → Option Bool × σ) (as : List α) (s : σ) :
    split (once f) as (s, true) = ([], as, (s, true)) := by
  induction as with
  | nil => rfl
  | cons a as ih => simp [split, once, ih]

theorem split_once (f : σ → α → Option Bool × σ) (as : List α) (s : σ) :
    (crashes f as s = true ∧ (split (once f) as (s, false)).2.2 = (lastState f as s, true)) ∨
    (crashes f as s = false ∧ split (once f) as (s, false) =
      ((split (calm f) as s).1, (split (calm f) as s).2.1, ((split (calm f) as s).2.2, false))) := by
  induction as generalizing s with
  | nil => exact .inr ⟨rfl, rfl⟩
  | cons a as ih =>
    simp only [crashes, split, once, calm, lastState]
    cases hf : f s a with
    | mk b s' =>
      match b with
      | none => exact .inl (by simp [split_once_true, lastState])
      | some true =>
        rcases ih s' with ⟨h1, h2⟩ | ⟨h1, h2⟩
        · exact .inl (by simp [h1, h2])
        · exact .inr (by simp [h1, h2, split])
      | some false =>
        rcases ih s' with ⟨h1, h2⟩ | ⟨h1, h2⟩
        · exact .inl (by simp [h1, h2])
        · exact .inr (by simp [h1, h2, split])

theorem crashes_append (f : σ → α → Option Bool × σ) (a b : List α) (s : σ) :
    crashes f (a ++ b) s = (crashes f a s || crashes f b (split (calm f) a s).2.2) := by
  induction a generalizing s with
  | nil => simp [crashes, split]
  | cons p a ih =>
    have : (split (calm f) (p :: a) s).2.2 = (split (calm f) a (f s p).2).2.2 := by
      simp only [split, calm]
      cases (f s p).1 == some true <;> rfl
    rw [this]
    simp only [List.cons_append, crashes, ih, Bool.or_assoc]

end Verif
