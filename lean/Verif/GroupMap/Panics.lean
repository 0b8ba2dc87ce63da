import Verif.GroupMap.Torn
import Verif.Panics
import Verif.CycleMap.Counter
/-
Closures that may panic inside `retain_paired` and `retain_unpaired` of `GroupMap`: `σ → α → Option Bool × σ`, where `none` is
a panic and the captured state survives it.
-/
set_option linter.unusedSectionVars false
set_option linter.unusedSimpArgs false
namespace Verif.GroupMap
open GroupSpec
open CycleSpec (split)
open CycleMap (Ending bind_ok)

section
variable [RawImpl] {L R : Type} [BEq L] [BEq R]

/-- first loop of `retain_paired` (978-984) with a closure that may panic: a panic leaves the loop -/
def retainPairedScanP {σ : Type} (m : GroupMap L R) (f : σ → L × R → Option Bool × σ) :
    List (L × R) → σ → Res (Option (List (UInt64 × Nat)) × σ)
  | [], st => .ok (some [], st)
  | (l, r) :: rest, st =>
    match f st (l, r) with
    | (none, st') => .ok (none, st')
    | (some true, st') =>
      match m.getLeftInnerWithHash l (m.hb.hl l) with
      | none => .error .unwrapNone
      | some item => do
        let (d, st'') ← retainPairedScanP m f rest st'
        return (d.map ((m.hb.hl l, item.id) :: ·), st'')
    | (some false, st') => retainPairedScanP m f rest st'

/-- `retain_paired` (972-988) with a closure that may panic: nothing has been removed when the first loop panics -/
def retainPairedP {σ : Type} (m : GroupMap L R) (f : σ → L × R → Option Bool × σ) (st : σ) :
    Res (Ending × σ × GroupMap L R) := do
  let ps ← m.iterPairedList
  match ← retainPairedScanP m f ps st with
  | (none, st) => return (.panicked, st, m)
  | (some toDrop, st) => return (.returned, st, { m with left := retainPairedDrop m.left toDrop })

/-- first loop of `retain_unpaired` (1011-1017) with a closure that may panic: a panic leaves the loop -/
def retainUnpairedScanP {σ : Type} (m : GroupMap L R) (f : σ → R → Option Bool × σ) :
    List R → σ → Res (Option (List (UInt64 × Nat)) × σ)
  | [], st => .ok (some [], st)
  | r :: rest, st =>
    match f st r with
    | (none, st') => .ok (none, st')
    | (some true, st') =>
      match m.getRightInnerWithHash r (m.hb.hr r) with
      | none => .error .unwrapNone
      | some item => do
        let (d, st'') ← retainUnpairedScanP m f rest st'
        return (d.map ((m.hb.hr r, item.id) :: ·), st'')
    | (some false, st') => retainUnpairedScanP m f rest st'

/-- `retain_unpaired` (1005-1021) with a closure that may panic: nothing has been removed when the first loop panics -/
def retainUnpairedP {σ : Type} (m : GroupMap L R) (f : σ → R → Option Bool × σ) (st : σ) :
    Res (Ending × σ × GroupMap L R) := do
  match ← retainUnpairedScanP m f m.iterUnpairedList st with
  | (none, st) => return (.panicked, st, m)
  | (some toDrop, st) => return (.returned, st, ← retainUnpairedDrop m toDrop)

end

variable [RawImpl] [LawfulRaw] {L R : Type} [BEq L] [BEq R] [EquivBEq L] [EquivBEq R]
variable {m : GroupMap L R} {c : Contents L R}

theorem retainPairedScan_stuck {σ : Type} (f : σ → L × R → Option Bool × σ) (ls : List (L × R)) (s : σ) {d s'}
    (e : m.retainPairedScan (fun s a b => once f s (a, b)) ls (s, true) = .ok (d, s')) : s' = (s, true) := by
  induction ls with
  | nil => cases e; rfl
  | cons l ls ih => exact ih e

theorem retainPairedScanP_eq {σ : Type} (f : σ → L × R → Option Bool × σ) (ls : List (L × R)) (s : σ) {d s' b}
    (e : m.retainPairedScan (fun s a b => once f s (a, b)) ls (s, false) = .ok (d, (s', b))) :
    m.retainPairedScanP f ls s = .ok (if b then none else some d, s') := by
  induction ls generalizing s d s' b with
  | nil => cases e; rfl
  | cons l ls ih =>
    obtain ⟨left, right⟩ := l
    simp only [retainPairedScan] at e
    simp only [retainPairedScanP]
    cases hf : f s (left, right) with
    | mk x t =>
      match x with
      | none =>
        have ho : once f (s, false) (left, right) = (false, (t, true)) := by simp [once, hf]
        simp only [ho] at e
        cases retainPairedScan_stuck f ls t e
        rfl
      | some false =>
        have ho : once f (s, false) (left, right) = (false, (t, false)) := by simp [once, hf]
        simp only [ho] at e; exact ih _ e
      | some true =>
        have ho : once f (s, false) (left, right) = (true, (t, false)) := by simp [once, hf]
        simp only [ho] at e
        simp only [bind, Except.bind, pure, Except.pure] at e ⊢
        cases hg : m.getLeftInnerWithHash left (m.hb.hl left) with
        | none => rw [hg] at e; cases e
        | some p =>
          rw [hg] at e
          cases hs : m.retainPairedScan (fun s a b => once f s (a, b)) ls (t, false) with
          | error err => simp only [hs] at e; cases e
          | ok v =>
            obtain ⟨d', s'', b'⟩ := v
            simp only [hs] at e
            cases e
            simp only [ih _ hs]
            cases b <;> rfl

/-- without a panic, `retain_paired` is what it is for the closure that never panics; with one, nothing has happened -/
theorem retainPairedP_eq {σ : Type} (h : Repr m c) (f : σ → L × R → Option Bool × σ) (s : σ) :
    ∃ (d : List (L × R)) (m' : GroupMap L R), d.Perm c.pairs ∧
      ((crashes f d s = true ∧ m.retainPairedP f s = .ok (.panicked, lastState f d s, m)) ∨
       (crashes f d s = false ∧ m.retainPairedP f s = .ok (.returned, (split (calm f) d s).2.2, m') ∧
        ShowsTorn m' c.rights (split (calm f) d s).2.1 c.pairs ∧
        (∀ r p, p ∈ (split (calm f) d s).1 → (r == p.2) = true → m'.removeRight r = .error .unwrapNone) ∧ m'.hb = m.hb)) := by
  obtain ⟨d, m', h1, e, h4, h5, hb'⟩ := retainPaired_torn h (fun s a b => once f s (a, b)) (s, false)
  obtain ⟨ps, e0, e⟩ := bind_ok e
  obtain ⟨⟨toDrop, s', b⟩, e1, e⟩ := bind_ok e
  have eP := retainPairedScanP_eq f _ s e1
  refine ⟨d, m', h1, ?_⟩
  rcases split_once f d s with ⟨c1, c2⟩ | ⟨c1, c2⟩
  · have hb : (s', b) = (lastState f d s, true) := by
      have := congrArg (fun x => x.map (fun x => x.1)) e
      simp only [pure, Except.pure, Except.map, c2] at this
      cases this; rfl
    cases hb
    exact .inl ⟨c1, by simp only [retainPairedP, e0, eP, bind, Except.bind]; rfl⟩
  · simp only [c2] at e h4 h5
    cases e
    exact .inr ⟨c1, by simp [retainPairedP, e0, eP, bind, Except.bind, pure, Except.pure], h4, h5, hb'⟩

theorem retainUnpairedScan_stuck {σ : Type} (f : σ → R → Option Bool × σ) (ls : List R) (s : σ) {d s'}
    (e : m.retainUnpairedScan (once f) ls (s, true) = .ok (d, s')) : s' = (s, true) := by
  induction ls with
  | nil => cases e; rfl
  | cons l ls ih => exact ih e

theorem retainUnpairedScanP_eq {σ : Type} (f : σ → R → Option Bool × σ) (ls : List R) (s : σ) {d s' b}
    (e : m.retainUnpairedScan (once f) ls (s, false) = .ok (d, (s', b))) :
    m.retainUnpairedScanP f ls s = .ok (if b then none else some d, s') := by
  induction ls generalizing s d s' b with
  | nil => cases e; rfl
  | cons right ls ih =>
    simp only [retainUnpairedScan] at e
    simp only [retainUnpairedScanP]
    cases hf : f s right with
    | mk x t =>
      match x with
      | none =>
        have ho : once f (s, false) right = (false, (t, true)) := by simp [once, hf]
        simp only [ho] at e
        cases retainUnpairedScan_stuck f ls t e
        rfl
      | some false =>
        have ho : once f (s, false) right = (false, (t, false)) := by simp [once, hf]
        simp only [ho] at e; exact ih _ e
      | some true =>
        have ho : once f (s, false) right = (true, (t, false)) := by simp [once, hf]
        simp only [ho] at e
        simp only [bind, Except.bind, pure, Except.pure] at e ⊢
        cases hg : m.getRightInnerWithHash right (m.hb.hr right) with
        | none => rw [hg] at e; cases e
        | some p =>
          rw [hg] at e
          cases hs : m.retainUnpairedScan (once f) ls (t, false) with
          | error err => simp only [hs] at e; cases e
          | ok v =>
            obtain ⟨d', s'', b'⟩ := v
            simp only [hs] at e
            cases e
            simp only [ih _ hs]
            cases b <;> rfl

theorem retainUnpairedP_refines {G : Prop} {σ : Type} (h : ReprG G m c) (f : σ → R → Option Bool × σ) (s : σ) :
    ∃ (d : List R) (m' : GroupMap L R), d.Perm (lone c) ∧
      ((crashes f d s = true ∧ m.retainUnpairedP f s = .ok (.panicked, lastState f d s, m)) ∨
       (crashes f d s = false ∧ m.retainUnpairedP f s = .ok (.returned, (split (calm f) d s).2.2, m') ∧
        ReprG G m' ⟨(split (calm f) d s).2.1 ++ c.rights.filter (hasGroup c), c.pairs⟩ ∧ m'.hb = m.hb)) := by
  obtain ⟨d, m', h1, e, h4, hb', -⟩ := retainUnpaired_refines h (once f) (s, false)
  obtain ⟨⟨toDrop, s', b⟩, e1, e⟩ := bind_ok e
  obtain ⟨m1, e2, e⟩ := bind_ok e
  have eP := retainUnpairedScanP_eq f _ s e1
  refine ⟨d, m', h1, ?_⟩
  rcases split_once f d s with ⟨c1, c2⟩ | ⟨c1, c2⟩
  · have hb : (s', b) = (lastState f d s, true) := by
      have := congrArg (fun x => x.map (fun x => x.1)) e
      simp only [pure, Except.pure, Except.map, c2] at this
      cases this; rfl
    cases hb
    exact .inl ⟨c1, by simp only [retainUnpairedP, eP, bind, Except.bind]; rfl⟩
  · rw [c2] at e h4
    cases e
    exact .inr ⟨c1, by simp [retainUnpairedP, eP, bind, Except.bind, e2, pure, Except.pure], h4, hb'⟩

end Verif.GroupMap
