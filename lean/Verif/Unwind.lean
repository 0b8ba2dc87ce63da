import Verif.Keyed
/-
Panics that unwind through a call: the items' own `Hash` and `Eq` may panic, and so may the crate itself (`unwrap`,
`unreachable!`).  The caller may catch the panic (`catch_unwind`, or another thread joining) and go on with the map as
the interrupted call left it.  The main model gives up such a map; here a call is a computation that keeps it.

A panic of `Hash` while a table moves its elements is handled by the table (hashbrown 0.12, not part of /repo, written
from the published design): elements that are being moved to new memory stay where they were; elements that are
being moved within the table and have not been moved yet are dropped.
-/
namespace Verif

/-- What happens to the items' own code during one call. -/
structure Fate where
  /-- `Hash` or `Eq` runs at that many places before it panics.  (All comparisons of one probe count as one place: the map
  does not change in between.  A table that moves its elements hashes each of them.) -/
  fuse : Nat
  /-- If it is `Hash` that panics while a table moves its elements: `none` if the elements were being moved to new
  memory, otherwise which elements of the table survive. -/
  survive : Option (List Bool)

/-- How a call ends: with a value, with a panic, or with the process aborted. -/
inductive Halt (M α : Type) where
  | done (a : α) (f : Fate) (m : M)
  /-- a panic that leaves the map `m`; `why` is `none` if it came from the items' own code or from a closure -/
  | panic (why : Option Panic) (m : M)
  | abort

/-- A call on a map of type `M`. -/
def Unw (M α : Type) := Fate → M → Halt M α

namespace Unw
variable {M α β : Type}

instance : Monad (Unw M) where
  pure a := fun f m => .done a f m
  bind x g := fun f m =>
    match x f m with
    | .done a f' m' => g a f' m'
    | .panic why m' => .panic why m'
    | .abort => .abort

/-- a place at which the items' own code runs -/
def user : Unw M Unit := fun f m =>
  match f.fuse with
  | 0 => .panic none m
  | k + 1 => .done () { f with fuse := k } m

/-- the crate itself panics -/
def fail (p : Panic) : Unw M α := fun _ m => .panic (some p) m

/-- the map -/
def get : Unw M M := fun f m => .done m f m

/-- from here on the map is this one -/
def set (m : M) : Unw M Unit := fun f _ => .done () f m

end Unw

namespace RawTable
variable [RawImpl] {T : Type}

/-- `shrink_to` moves the elements to new memory always, the other calls do so or move them within the table -/
def _root_.Verif.TableOp.survivors : TableOp → Option (List Bool) → Option (List Bool)
  | .shrink _, _ => none
  | _, s => s

/-- the table after `Hash` panicked while it moved its elements -/
def interrupted (survive : Option (List Bool)) (hasher : T → UInt64) (t : RawTable T) : RawTable T :=
  match survive with
  | none => t
  | some s => RawImpl.touch (.erase s)
      { t with entries := (t.entries.zip s).filterMap fun x => if x.2 then some (hasher x.1.2, x.1.2) else none }

/-- a call of the table that runs the hasher if it moves elements; what it leaves is put into the map by `put` -/
def grow {M : Type} (op : TableOp) (t : RawTable T) (hasher : T → UInt64) (put : RawTable T → M) (after : RawTable T) :
    Unw M Unit := fun f m =>
  if RawImpl.rehashes op t then
    if f.fuse < t.entries.length then .panic none (put (t.interrupted (op.survivors f.survive) hasher))
    else (Unw.set (put after)) { f with fuse := f.fuse - t.entries.length } m
  else (Unw.set (put after)) f m

/-- `RawTable::insert` -/
def insertU {M : Type} (t : RawTable T) (h : UInt64) (v : T) (hasher : T → UInt64) (put : RawTable T → M) : Unw M Unit :=
  t.grow (.insert h) hasher put (t.insert h v hasher)

/-- `RawTable::reserve` -/
def reserveU {M : Type} (t : RawTable T) (n : Nat) (hasher : T → UInt64) (put : RawTable T → M) : Unw M Unit :=
  t.grow (.reserve n) hasher put (t.reserve n hasher)

/-- `RawTable::shrink_to` -/
def shrinkToU {M : Type} (t : RawTable T) (n : Nat) (hasher : T → UInt64) (put : RawTable T → M) : Unw M Unit :=
  t.grow (.shrink n) hasher put (t.shrinkTo n hasher)

end RawTable

/-! ### Reasoning -/

/-- the outcome of a call that was not interrupted is the one the main model says -/
def Halt.agrees {M α : Type} : Halt M α → Res (α × M) → Prop
  | .done a _ m, r => r = .ok (a, m)
  | .panic (some p) _, r => r = .error p
  | .panic none _, _ => True
  | .abort, r => ∃ p, r = .error p

/-- the items' own code panicked -/
def Halt.interrupted {M α : Type} : Halt M α → Bool
  | .panic none _ => true
  | _ => false

/-- how much of the fuse is left -/
def Halt.rest {M α : Type} : Halt M α → Nat → Nat
  | .done _ f _, _ => f.fuse
  | _, n => n

namespace Unw
variable {M α β : Type}

/-- A call does what the main model says, unless the items' own code panics, and it does not panic if it has that
many places to go. -/
structure Follows (x : Unw M α) (m : M) (r : Res (α × M)) : Prop where
  agrees : ∀ f, (x f m).agrees r
  calm : ∃ k, ∀ f, k ≤ f.fuse → (x f m).interrupted = false ∧ f.fuse ≤ (x f m).rest f.fuse + k

/-- Every way a call can end: `J` if it returns, `I` if it panics.  (`S` restricts what `Fate.survive` may be.) -/
def Ends (x : Unw M α) (m : M) (J : α → M → Prop) (I : Option Panic → M → Prop)
    (S : Option (List Bool) → Prop := fun _ => True) : Prop :=
  ∀ f, S f.survive → match x f m with
    | .done a f' m' => f'.survive = f.survive ∧ J a m'
    | .panic why m' => I why m'
    | .abort => True

variable {S : Option (List Bool) → Prop} {I I' : Option Panic → M → Prop} {K J : α → M → Prop} {J' : β → M → Prop} {m n : M}

theorem Ends.bind {x : Unw M α} {g : α → Unw M β} (h : Ends x m K I S) (h' : ∀ a m', K a m' → Ends (g a) m' J' I S) :
    Ends (x >>= g) m J' I S := by
  intro f hf
  have h1 := h f hf
  show match (match x f m with
    | .done a f' m' => g a f' m'
    | .panic why m' => Halt.panic why m'
    | .abort => .abort) with
    | .done a f' m' => f'.survive = f.survive ∧ J' a m'
    | .panic why m' => I why m'
    | .abort => True
  cases e : x f m with
  | done a f' m' =>
    rw [e] at h1
    have h2 := h' a m' h1.2 f' (by rw [h1.1]; exact hf)
    rw [h1.1] at h2
    exact h2
  | panic why m' => rw [e] at h1; exact h1
  | abort => trivial

theorem Ends.mono {x : Unw M α} (h : Ends x m K I S)
    (hJ : ∀ a m', K a m' → J a m') (hI : ∀ w m', I w m' → I' w m') : Ends x m J I' S := by
  intro f hf
  have h1 := h f hf
  cases e : x f m with
  | done a f' m' => rw [e] at h1; exact ⟨h1.1, hJ _ _ h1.2⟩
  | panic why m' => rw [e] at h1; exact hI _ _ h1
  | abort => trivial

theorem Ends.pure {a : α} (h : J a m) : Ends (Pure.pure a : Unw M α) m J I S := fun _ _ => ⟨rfl, h⟩

theorem Ends.user (h : I none m) : Ends (Unw.user : Unw M Unit) m (fun _ m' => m' = m) I S := by
  rintro ⟨k, s⟩ _
  cases k with
  | zero => exact h
  | succ k => exact ⟨rfl, rfl⟩

theorem Ends.fail {p : Panic} (h : I (some p) m) : Ends (Unw.fail p : Unw M α) m J I S := fun _ _ => h

theorem Ends.user_bind {g : Unit → Unw M α} (h : I none m) (h' : Ends (g ()) m J I S) : Ends (Unw.user >>= g) m J I S :=
  (Ends.user h).bind fun _ _ e => e ▸ h'

theorem Ends.get_bind {g : M → Unw M α} (h : Ends (g m) m J I S) : Ends (Unw.get >>= g) m J I S := fun f hf => h f hf

theorem Ends.set_bind {g : Unit → Unw M α} (h : Ends (g ()) n J I S) : Ends (Unw.set n >>= g) m J I S := fun f hf => h f hf

/-- what a call does when it is not interrupted is known from the main model -/
theorem Follows.ends {x : Unw M α} {r : Res (α × M)} (h : Follows x m r) (h' : Ends x m J I S) :
    Ends x m (fun a m' => r = .ok (a, m') ∧ J a m') I S := by
  intro f hf
  have h1 := h.agrees f
  have h2 := h' f hf
  cases e : x f m with
  | done a f' m' => rw [e] at h1 h2; exact ⟨h2.1, h1, h2.2⟩
  | panic why m' => rw [e] at h2; exact h2
  | abort => trivial

/-- what holds however a call ends holds of the result of the main model -/
theorem Follows.result {x : Unw M α} {r : Res (α × M)} (h : Follows x m r) (h' : Ends x m J I) {a : α} {m' : M}
    (e : r = .ok (a, m')) : J a m' := by
  subst e
  obtain ⟨k, hk⟩ := h.calm
  have h1 := h.agrees ⟨k, none⟩
  have h2 := h' ⟨k, none⟩ trivial
  have h3 := (hk ⟨k, none⟩ (Nat.le_refl _)).1
  cases hx : x ⟨k, none⟩ m with
  | done b f n => rw [hx] at h1 h2; cases h1; exact h2.2
  | panic why n =>
    cases why with
    | none => rw [hx] at h3; cases h3
    | some p => rw [hx] at h1; cases h1
  | abort => rw [hx] at h1; obtain ⟨p, h1⟩ := h1; cases h1

theorem Follows.bind {x : Unw M α} {g : α → Unw M β} {m : M} {r : Res (α × M)} {r' : α × M → Res (β × M)}
    (h : Follows x m r) (h' : ∀ a m', r = .ok (a, m') → Follows (g a) m' (r' (a, m'))) :
    Follows (x >>= g) m (r >>= r') where
  agrees f := by
    have h1 := h.agrees f
    show Halt.agrees (match x f m with
      | .done a f' m' => g a f' m'
      | .panic why m' => Halt.panic why m'
      | .abort => .abort) _
    cases e : x f m with
    | done a f' m' =>
      rw [e] at h1
      have := (h' a m' h1).agrees f'
      rw [show r = .ok (a, m') from h1]; exact this
    | panic why m' =>
      rw [e] at h1
      cases why with
      | none => trivial
      | some p => rw [show r = .error p from h1]; rfl
    | abort => rw [e] at h1; obtain ⟨p, rfl⟩ := h1; exact ⟨p, rfl⟩
  calm := by
    obtain ⟨k, hk⟩ := h.calm
    match r, h, h' with
    | .error p, h, _ =>
      refine ⟨k, fun f hf => ?_⟩
      have h1 := h.agrees f
      obtain ⟨h2, h3⟩ := hk f hf
      show Halt.interrupted (match x f m with
          | .done a f' m' => g a f' m'
          | .panic why m' => Halt.panic why m'
          | .abort => .abort) = false ∧ f.fuse ≤ Halt.rest (match x f m with
          | .done a f' m' => g a f' m'
          | .panic why m' => Halt.panic why m'
          | .abort => .abort) f.fuse + k
      cases e : x f m with
      | done a f' m' => rw [e] at h1; cases h1
      | panic why m' => rw [e] at h2; exact ⟨by cases why <;> simp_all [Halt.interrupted], by simp [Halt.rest]⟩
      | abort => exact ⟨rfl, by simp [Halt.rest]⟩
    | .ok (a, m'), h, h' =>
      obtain ⟨k', hk'⟩ := (h' a m' rfl).calm
      refine ⟨k + k', fun f hf => ?_⟩
      have h1 := h.agrees f
      obtain ⟨h2, h3⟩ := hk f (by omega)
      show Halt.interrupted (match x f m with
          | .done a f' m' => g a f' m'
          | .panic why m' => Halt.panic why m'
          | .abort => .abort) = false ∧ f.fuse ≤ Halt.rest (match x f m with
          | .done a f' m' => g a f' m'
          | .panic why m' => Halt.panic why m'
          | .abort => .abort) f.fuse + (k + k')
      cases e : x f m with
      | done b f' m'' =>
        rw [e] at h1; cases h1
        rw [e] at h3
        simp only [Halt.rest] at h3
        obtain ⟨h4, h5⟩ := hk' f' (by omega)
        refine ⟨h4, ?_⟩
        revert h5
        show _ → f.fuse ≤ Halt.rest (g a f' m') f.fuse + (k + k')
        cases g a f' m' with
        | done => simp only [Halt.rest]; omega
        | panic => simp only [Halt.rest]; omega
        | abort => simp only [Halt.rest]; omega
      | panic why m' => rw [e] at h2; exact ⟨by cases why <;> simp_all [Halt.interrupted], by simp [Halt.rest]⟩
      | abort => exact ⟨rfl, by simp [Halt.rest]⟩

/-- the items' own code runs, then the call goes on as the main model says -/
theorem Follows.user {g : Unit → Unw M α} {m : M} {r : Res (α × M)} (h : Follows (g ()) m r) : Follows (Unw.user >>= g) m r := by
  have := Follows.bind (x := Unw.user) (m := m) (r := .ok ((), m)) (g := g) (r' := fun _ => r) ⟨?_, 1, ?_⟩ (by rintro a m' ⟨⟩; exact h)
  · exact this
  · rintro ⟨k, s⟩; cases k <;> first | rfl | trivial
  · rintro ⟨k, s⟩ hk; cases k
    · cases hk
    · exact ⟨rfl, by simp [Unw.user, Halt.rest]⟩

theorem Follows.get {g : M → Unw M α} {m : M} {r : Res (α × M)} (h : Follows (g m) m r) : Follows (Unw.get >>= g) m r :=
  ⟨fun f => h.agrees f, h.calm⟩

theorem Follows.set {g : Unit → Unw M α} {m n : M} {r : Res (α × M)} (h : Follows (g ()) n r) :
    Follows (Unw.set n >>= g) m r := ⟨fun f => h.agrees f, h.calm⟩

theorem Follows.pure {a : α} {m : M} : Follows (Pure.pure a : Unw M α) m (.ok (a, m)) :=
  ⟨fun _ => rfl, 0, fun _ _ => ⟨rfl, by simp [Pure.pure, Halt.rest]⟩⟩

theorem Follows.fail {p : Panic} {m : M} : Follows (Unw.fail p : Unw M α) m (.error p) :=
  ⟨fun _ => rfl, 0, fun _ _ => ⟨rfl, by simp [Unw.fail, Halt.rest]⟩⟩

/-- As `Follows`, for calls that run a closure: `none` in the result of the main model says that the closure panicked. -/
structure Obeys (x : Unw M α) (m : M) (r : Res (Option α × M)) : Prop where
  returns : ∀ f a f' m', x f m = .done a f' m' → r = .ok (some a, m')
  fails : ∀ f p m', x f m = .panic (some p) m' → r = .error p
  aborts : ∀ f, x f m = .abort → ∃ p, r = .error p
  calm : ∃ k, ∀ f, k ≤ f.fuse → (∀ m', x f m = .panic none m' → r = .ok (none, m')) ∧ f.fuse ≤ (x f m).rest f.fuse + k

/-- a call without a closure -/
theorem Follows.obeys {x : Unw M α} {m : M} {r : Res (α × M)} (h : Follows x m r) :
    Obeys x m (r >>= fun y => .ok (some y.1, y.2)) where
  returns f a f' m' e := by have := h.agrees f; rw [e] at this; rw [show r = .ok (a, m') from this]; rfl
  fails f p m' e := by have := h.agrees f; rw [e] at this; rw [show r = .error p from this]; rfl
  aborts f e := by have := h.agrees f; rw [e] at this; obtain ⟨p, rfl⟩ := this; exact ⟨p, rfl⟩
  calm := by
    obtain ⟨k, hk⟩ := h.calm
    refine ⟨k, fun f hf => ⟨fun m' e => ?_, (hk f hf).2⟩⟩
    have := (hk f hf).1
    rw [e] at this; cases this

theorem Obeys.bind {x : Unw M α} {g : α → Unw M β} {m : M} {r : Res (Option α × M)} {r' : α × M → Res (Option β × M)}
    (h : Obeys x m r) (h' : ∀ a m', r = .ok (some a, m') → Obeys (g a) m' (r' (a, m'))) :
    Obeys (x >>= g) m (r >>= fun y => match y.1 with | none => .ok (none, y.2) | some a => r' (a, y.2)) := by
  have run : ∀ f, (x >>= g) f m = match x f m with
      | .done a f' m' => g a f' m'
      | .panic why m' => Halt.panic why m'
      | .abort => .abort := fun _ => rfl
  refine ⟨fun f b f' m' e => ?_, fun f p m' e => ?_, fun f e => ?_, ?_⟩
  · rw [run] at e
    cases hx : x f m with
    | done a f1 m1 =>
      rw [hx] at e
      have h1 := h.returns f a f1 m1 hx
      rw [h1]; exact (h' a m1 h1).returns _ _ _ _ e
    | panic why m1 => rw [hx] at e; cases e
    | abort => rw [hx] at e; cases e
  · rw [run] at e
    cases hx : x f m with
    | done a f1 m1 =>
      rw [hx] at e
      have h1 := h.returns f a f1 m1 hx
      rw [h1]; exact (h' a m1 h1).fails _ _ _ e
    | panic why m1 => rw [hx] at e; cases e; rw [h.fails f p _ hx]; rfl
    | abort => rw [hx] at e; cases e
  · rw [run] at e
    cases hx : x f m with
    | done a f1 m1 =>
      rw [hx] at e
      have h1 := h.returns f a f1 m1 hx
      rw [h1]; exact (h' a m1 h1).aborts _ e
    | panic why m1 => rw [hx] at e; cases e
    | abort => obtain ⟨p, rfl⟩ := h.aborts f hx; exact ⟨p, rfl⟩
  · obtain ⟨k, hk⟩ := h.calm
    have hk' : ∃ k', ∀ a m1, r = .ok (some a, m1) → ∀ f, k' ≤ f.fuse →
        (∀ m', g a f m1 = .panic none m' → r' (a, m1) = .ok (none, m')) ∧ f.fuse ≤ (g a f m1).rest f.fuse + k' := by
      match r, h' with
      | .ok (some a, m1), h' =>
        obtain ⟨k', hk'⟩ := (h' a m1 rfl).calm
        refine ⟨k', ?_⟩
        rintro _ _ ⟨⟩
        exact hk'
      | .ok (none, m1), _ => exact ⟨0, by rintro _ _ ⟨⟩⟩
      | .error p, _ => exact ⟨0, by rintro _ _ ⟨⟩⟩
    obtain ⟨k', hk'⟩ := hk'
    refine ⟨k + k', fun f hf => ?_⟩
    obtain ⟨h2, h3⟩ := hk f (by omega)
    rw [run]
    cases hx : x f m with
    | done a f1 m1 =>
      rw [hx] at h3
      simp only [Halt.rest] at h3
      have h1 := h.returns f a f1 m1 hx
      obtain ⟨h4, h5⟩ := hk' a m1 h1 f1 (by omega)
      refine ⟨fun m' e => by rw [h1]; exact h4 m' e, ?_⟩
      revert h5
      show _ → f.fuse ≤ Halt.rest (g a f1 m1) f.fuse + (k + k')
      cases g a f1 m1 with
      | done => simp only [Halt.rest]; omega
      | panic => simp only [Halt.rest]; omega
      | abort => simp only [Halt.rest]; omega
    | panic why m1 =>
      refine ⟨fun m' e => ?_, by simp [Halt.rest]⟩
      cases e
      rw [h2 _ hx]; rfl
    | abort => exact ⟨fun m' e => (by cases e), by simp [Halt.rest]⟩

theorem Obeys.user {g : Unit → Unw M α} {m : M} {r : Res (Option α × M)} (h : Obeys (g ()) m r) : Obeys (Unw.user >>= g) m r := by
  have h0 : Follows (Unw.user : Unw M Unit) m (.ok ((), m)) := by
    refine ⟨?_, 1, ?_⟩
    · rintro ⟨k, s⟩; cases k <;> first | rfl | trivial
    · rintro ⟨k, s⟩ hk; cases k
      · cases hk
      · exact ⟨rfl, by simp [Unw.user, Halt.rest]⟩
  exact h0.obeys.bind (r' := fun _ => r) (by rintro a m' ⟨⟩; exact h)

theorem Obeys.get {g : M → Unw M α} {m : M} {r : Res (Option α × M)} (h : Obeys (g m) m r) : Obeys (Unw.get >>= g) m r :=
  ⟨fun f => h.returns f, fun f => h.fails f, fun f => h.aborts f, h.calm⟩

theorem Obeys.pure {a : α} {m : M} : Obeys (Pure.pure a : Unw M α) m (.ok (some a, m)) := Follows.pure.obeys

theorem Obeys.fail {p : Panic} {m : M} : Obeys (Unw.fail p : Unw M α) m (.error p) := Follows.fail.obeys

/-- the closure panics -/
theorem Obeys.closure {m : M} : Obeys (fun _ m => .panic none m : Unw M α) m (.ok (none, m)) :=
  ⟨by rintro _ _ _ _ ⟨⟩, by rintro _ _ _ ⟨⟩, by rintro _ ⟨⟩, 0, fun f _ => ⟨by rintro _ ⟨⟩; rfl, by simp [Halt.rest]⟩⟩

end Unw

namespace RawTable
variable [RawImpl] {T M α : Type}

theorem follows_grow {op : TableOp} {t : RawTable T} {hasher : T → UInt64} {put : RawTable T → M} {after : RawTable T} {m : M} :
    (t.grow op hasher put after).Follows m (.ok ((), put after)) := by
  refine ⟨?_, t.entries.length, ?_⟩
  · rintro ⟨k, s⟩
    simp only [grow]
    split
    · split
      · trivial
      · rfl
    · rfl
  · rintro ⟨k, s⟩ hk
    simp only [grow]
    split
    · rw [if_neg (Nat.not_lt.2 hk)]
      exact ⟨rfl, by simp only [Unw.set, Halt.rest]; omega⟩
    · exact ⟨rfl, by simp [Unw.set, Halt.rest]⟩

theorem follows_grow_bind {op : TableOp} {t : RawTable T} {hasher : T → UInt64} {put : RawTable T → M} {after : RawTable T} {m : M}
    {g : Unit → Unw M α} {r : Res (α × M)} (h : (g ()).Follows (put after) r) :
    (t.grow op hasher put after >>= g).Follows m r :=
  Unw.Follows.bind (r' := fun _ => r) follows_grow (by rintro a m' ⟨⟩; exact h)

theorem ends_grow {op : TableOp} {t : RawTable T} {hasher : T → UInt64} {put : RawTable T → M} {after : RawTable T} {m : M}
    {I : Option Panic → M → Prop} {S : Option (List Bool) → Prop}
    (h : RawImpl.rehashes op t = true → ∀ s, S s → I none (put (t.interrupted (op.survivors s) hasher))) :
    (t.grow op hasher put after).Ends m (fun _ m' => m' = put after) I S := by
  rintro ⟨k, s⟩ hs
  simp only [grow]
  by_cases e : RawImpl.rehashes op t = true
  · rw [if_pos e]
    by_cases hk : k < t.entries.length
    · rw [if_pos hk]; exact h e s hs
    · rw [if_neg hk]; exact ⟨rfl, rfl⟩
  · rw [if_neg e]; exact ⟨rfl, rfl⟩

theorem ends_grow_bind {op : TableOp} {t : RawTable T} {hasher : T → UInt64} {put : RawTable T → M} {after : RawTable T} {m : M}
    {g : Unit → Unw M α} {J : α → M → Prop} {I : Option Panic → M → Prop} {S : Option (List Bool) → Prop}
    (h : RawImpl.rehashes op t = true → ∀ s, S s → I none (put (t.interrupted (op.survivors s) hasher)))
    (h' : (g ()).Ends (put after) J I S) : (t.grow op hasher put after >>= g).Ends m J I S :=
  (ends_grow h).bind fun _ _ e => e ▸ h'

variable [LawfulRaw]

omit [RawImpl] [LawfulRaw] in
theorem filterMap_zip_sublist {α β : Type} (as : List α) (s : List Bool) (g : α → β) :
    ((as.zip s).filterMap fun x => if x.2 then some (g x.1) else none).Sublist (as.map g) := by
  induction as generalizing s with
  | nil => simp
  | cons a as ih =>
    cases s with
    | nil => simp
    | cons b s =>
      cases b
      · simpa using (ih s).cons _
      · simpa using (ih s)

/-- an interrupted table holds a part of what it held -/
theorem interrupted_sub {t : RawTable T} {hasher : T → UInt64} (hh : ∀ e ∈ t.entries, hasher e.2 = e.1)
    (s : Option (List Bool)) : ∃ es, es.Sublist t.entries ∧ (t.interrupted s hasher).entries.Perm es := by
  cases s with
  | none => exact ⟨_, .refl _, .refl _⟩
  | some s =>
    have h1 : t.entries.map (fun e => (hasher e.2, e.2)) = t.entries := by
      refine (List.map_congr_left (g := id) fun e he => ?_).trans (List.map_id _)
      rw [hh e he]; rfl
    refine ⟨_, ?_, LawfulRaw.touch_perm _ _⟩
    have := filterMap_zip_sublist t.entries s (fun e => (hasher e.2, e.2))
    rwa [h1] at this

theorem Keyed.interrupted {hash : T → UInt64} {P : T → T → Prop} {Q : T → Prop} {t : RawTable T}
    (hP : ∀ a b, P a b → P b a) (h : Keyed hash P Q t) (s : Option (List Bool)) : Keyed hash P Q (t.interrupted s hash) := by
  obtain ⟨es, h1, h2⟩ := interrupted_sub h.hash s
  exact Keyed.of_perm (t := ⟨es, 0⟩) hP
    ⟨fun e he => h.hash e (h1.subset he), h.apart.sublist h1, fun e he => h.all e (h1.subset he)⟩ h2

end RawTable
end Verif
