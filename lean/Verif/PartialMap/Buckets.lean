import Verif.Buckets
import Verif.Instances
import Verif.PartialMap.Panics
/-
`drain_filter` of `PartialCycleMap`, bucket by bucket (see `Verif/Buckets.lean`).
-/
set_option linter.unusedSectionVars false
set_option linter.unusedSimpArgs false
namespace Verif.PartialMap
open PartialSpec OptionalPair
open CycleMap (Ending)

/-- `DrainFilterInner` (2402-2408): `todoL` and `todoR` are the buckets `left_iter` and `right_iter` have still to yield; `st` is the captured
state of the closure -/
structure DrainFilterB (σ L R : Type) where
  todoL : List Nat
  todoR : List Nat
  left : Buckets (MappingPair L)
  right : Buckets (MappingPair R)
  reset : Bool
  st : σ

section
variable [BucketImpl] {L R σ : Type}

/-- `drain_filter` (1401-1417) -/
def DrainFilterB.start (left : Buckets (MappingPair L)) (right : Buckets (MappingPair R)) (st : σ) : DrainFilterB σ L R :=
  ⟨left.iter, right.iter, left, right, true, st⟩

/-- first loop of `DrainFilterInner::next` (2415-2433).  `none` is undefined behaviour; `.panic` is a panic of the closure, or of the `unwrap`
of 2419. -/
def DrainFilterB.nextLB (f : σ → OptionalPair L R → Option Bool × σ) (left : Buckets (MappingPair L)) (right : Buckets (MappingPair R)) :
    List Nat → σ → Option (Next L R × List Nat × Buckets (MappingPair L) × Buckets (MappingPair R) × σ)
  | [], st => some (.done, [], left, right, st)
  | i :: rest, st => do
    let l ← left.read i
    match l.2.hash with
    | some hash =>
      match BucketImpl.find right hash (justId l.2.id) with
      | none => some (.panic, rest, left, right, st)
      | some j => do
        let r ← right.read j
        match f st (someBoth l.2.value r.2.value) with
        | (none, st) => some (.panic, rest, left, right, st)
        | (some true, st) => do
          let (l, left) ← left.remove i
          let (r, right) ← right.remove j
          some (.item (someBoth l.value r.value), rest, left, right, st)
        | (some false, st) => DrainFilterB.nextLB f left right rest st
    | none =>
      match f st (someLeft l.2.value) with
      | (none, st) => some (.panic, rest, left, right, st)
      | (some true, st) => do
        let (l, left) ← left.remove i
        some (.item (someLeft l.value), rest, left, right, st)
      | (some false, st) => DrainFilterB.nextLB f left right rest st

/-- second loop of `DrainFilterInner::next` (2438-2444) -/
def DrainFilterB.nextRB (f : σ → OptionalPair L R → Option Bool × σ) (right : Buckets (MappingPair R)) :
    List Nat → σ → Option (Next L R × List Nat × Buckets (MappingPair R) × σ)
  | [], st => some (.done, [], right, st)
  | i :: rest, st => do
    let r ← right.read i
    match f st (someRight r.2.value) with
    | (none, st) => some (.panic, rest, right, st)
    | (some true, st) => do
      let (r, right) ← right.remove i
      some (.item (someRight r.value), rest, right, st)
    | (some false, st) => DrainFilterB.nextRB f right rest st

/-- `DrainFilterInner::next` (2411-2446): the right iterator is made anew when the left one is done for the first time -/
def DrainFilterB.next (f : σ → OptionalPair L R → Option Bool × σ) (it : DrainFilterB σ L R) : Option (Next L R × DrainFilterB σ L R) := do
  match ← DrainFilterB.nextLB f it.left it.right it.todoL it.st with
  | (.done, todoL, left, right, st) =>
    let todoR := if it.reset then right.iter else it.todoR
    let (o, todoR, right, st) ← DrainFilterB.nextRB f right todoR st
    some (o, ⟨todoL, todoR, left, right, false, st⟩)
  | (o, todoL, left, right, st) => some (o, { it with todoL := todoL, left := left, right := right, st := st })

/-- `next` called `n` times, whatever it returns: a caller may catch a panic and go on; `Drop` (2365-2378) and `ConsumeAllOnDrop`
(cycle_map.rs 1377-1383) only call `next`, so all they do is a number of further calls; an iterator that is forgotten gets none. -/
def DrainFilterB.calls (f : σ → OptionalPair L R → Option Bool × σ) :
    Nat → DrainFilterB σ L R → Option (List (Next L R) × DrainFilterB σ L R)
  | 0, it => some ([], it)
  | n + 1, it => do
    let (o, it) ← it.next f
    let (os, it) ← DrainFilterB.calls f n it
    some (o :: os, it)

/-- calling `next` at most `n` times, until it returns `None` or panics (as `DrainFilter.takeP`) -/
def DrainFilterB.take (f : σ → OptionalPair L R → Option Bool × σ) :
    Nat → DrainFilterB σ L R → Option (List (OptionalPair L R) × Bool × DrainFilterB σ L R)
  | 0, it => some ([], false, it)
  | n + 1, it => do
    match ← it.next f with
    | (.done, it) => some ([], false, it)
    | (.panic, it) => some ([], true, it)
    | (.item p, it) => do
      let (ps, b, it) ← DrainFilterB.take f n it
      some (p :: ps, b, it)

/-- `drain_filter(f)`, at most `n` calls of `next`, then `Drop` (as `drainFilterP`): each `Some` takes an element of one of the tables -/
def drainFilterB (left : Buckets (MappingPair L)) (right : Buckets (MappingPair R)) (f : σ → OptionalPair L R → Option Bool × σ) (st : σ)
    (n : Nat) : Option (Ending × List (OptionalPair L R) × σ × Buckets (MappingPair L) × Buckets (MappingPair R)) := do
  let (ps, b, it) ← DrainFilterB.take f n (.start left right st)
  let (_, b', it) ← DrainFilterB.take f (it.left.elems.length + it.right.elems.length + 1) it
  let e := if b then (if b' then .aborted else .panicked) else (if b' then .panicked else .returned)
  some (e, ps, it.st, it.left, it.right)

end

/-! ### Only full buckets are used -/

section
variable [BucketImpl] [LawfulBuckets] {L R σ : Type}

/-- buckets that are distinct and full -/
def Ready {T : Type} (b : Buckets T) (is : List Nat) : Prop := is.Nodup ∧ ∀ i ∈ is, (b.read i).isSome = true

theorem Ready.start {T : Type} (b : Buckets T) : Ready b b.iter := ⟨b.iter_nodup, fun _ hi => Buckets.mem_iter.1 hi⟩

theorem Ready.cons {T : Type} {b : Buckets T} {i : Nat} {is : List Nat} (h : Ready b (i :: is)) :
    ∃ e, b.read i = some e ∧ Ready b is ∧ Ready ⟨b.slots.set i none⟩ is := by
  have hn := List.nodup_cons.1 h.1
  have hf : ∀ k ∈ is, (b.read k).isSome = true := fun k hk => h.2 k (List.mem_cons_of_mem _ hk)
  obtain ⟨e, he⟩ := Option.isSome_iff_exists.1 (h.2 i List.mem_cons_self)
  refine ⟨e, he, ⟨hn.2, hf⟩, hn.2, fun k hk => ?_⟩
  rw [Buckets.read_set, if_neg fun (h : k = i) => hn.1 (h ▸ hk)]
  exact hf k hk

/-- the buckets to come are distinct and full; the right iterator made at the start is not used -/
structure DrainFilterB.Sound (it : DrainFilterB σ L R) : Prop where
  left : Ready it.left it.todoL
  right : it.reset = false → it.todoL = [] ∧ Ready it.right it.todoR

/-- the entries among the results -/
def handed : List (Next L R) → List (OptionalPair L R)
  | [] => []
  | .item p :: os => p :: handed os
  | _ :: os => handed os

/-- what the buckets hold -/
def held {T : Type} (b : Buckets (MappingPair T)) : List T := b.elems.map fun e => e.2.value

theorem held_set {T : Type} {b : Buckets (MappingPair T)} {i : Nat} {e : UInt64 × MappingPair T} (h : b.read i = some e) :
    (e.2.value :: held ⟨b.slots.set i none⟩).Perm (held b) :=
  (Buckets.elems_set_perm h).map fun e : UInt64 × MappingPair T => e.2.value

theorem nextLB_sound (f : σ → OptionalPair L R → Option Bool × σ) {left : Buckets (MappingPair L)} {right : Buckets (MappingPair R)}
    {todo : List Nat} {st : σ} (h : Ready left todo) :
    ∃ o todo' left' right' st', DrainFilterB.nextLB f left right todo st = some (o, todo', left', right', st') ∧ Ready left' todo' ∧
      ((handed [o]).filterMap leftOf ++ held left').Perm (held left) ∧ ((handed [o]).filterMap rightOf ++ held right').Perm (held right) := by
  induction todo generalizing st with
  | nil => exact ⟨_, _, _, _, _, rfl, h, .refl _, .refl _⟩
  | cons i rest ih =>
    obtain ⟨l, hl, h1, h2⟩ := h.cons
    simp only [DrainFilterB.nextLB, hl, Option.bind_eq_bind, Option.bind_some]
    cases l.2.hash with
    | none =>
      cases h : f st (someLeft l.2.value) with
      | mk b st' =>
        match b with
        | none => exact ⟨_, _, _, _, _, by simp only [h]; rfl, h1, .refl _, .refl _⟩
        | some false => simp only [h]; exact ih h1
        | some true =>
          simp only [h, Buckets.remove_of_read hl, Option.bind_some]
          exact ⟨_, _, _, _, _, rfl, h2, held_set hl, .refl _⟩
    | some hash =>
      cases hj : BucketImpl.find right hash (justId l.2.id) with
      | none => simp only [hj]; exact ⟨_, _, _, _, _, rfl, h1, .refl _, .refl _⟩
      | some j =>
        obtain ⟨r, hr, -⟩ := LawfulBuckets.find_sound _ _ _ _ hj
        simp only [hj, hr, Option.bind_some]
        cases h : f st (someBoth l.2.value r.2.value) with
        | mk b st' =>
          match b with
          | none => exact ⟨_, _, _, _, _, by simp only [h]; rfl, h1, .refl _, .refl _⟩
          | some false => simp only [h]; exact ih h1
          | some true =>
            simp only [h, Buckets.remove_of_read hl, Buckets.remove_of_read hr, Option.bind_some]
            exact ⟨_, _, _, _, _, rfl, h2, held_set hl, held_set hr⟩

theorem nextRB_sound (f : σ → OptionalPair L R → Option Bool × σ) {right : Buckets (MappingPair R)} {todo : List Nat} {st : σ}
    (h : Ready right todo) :
    ∃ o todo' right' st', DrainFilterB.nextRB f right todo st = some (o, todo', right', st') ∧ Ready right' todo' ∧
      (handed [o]).filterMap leftOf = [] ∧ ((handed [o]).filterMap rightOf ++ held right').Perm (held right) := by
  induction todo generalizing st with
  | nil => exact ⟨_, _, _, _, rfl, h, rfl, .refl _⟩
  | cons i rest ih =>
    obtain ⟨r, hr, h1, h2⟩ := h.cons
    simp only [DrainFilterB.nextRB, hr, Option.bind_eq_bind, Option.bind_some]
    cases h : f st (someRight r.2.value) with
    | mk b st' =>
      match b with
      | none => exact ⟨_, _, _, _, by simp only [h]; rfl, h1, rfl, .refl _⟩
      | some false => simp only [h]; exact ih h1
      | some true =>
        simp only [h, Buckets.remove_of_read hr, Option.bind_some]
        exact ⟨_, _, _, _, rfl, h2, rfl, held_set hr⟩

theorem nextLB_done (f : σ → OptionalPair L R → Option Bool × σ) {left : Buckets (MappingPair L)} {right : Buckets (MappingPair R)}
    {todo : List Nat} {st : σ} {todo' left' right' st'} (h : DrainFilterB.nextLB f left right todo st = some (.done, todo', left', right', st')) :
    todo' = [] ∧ right' = right := by
  induction todo generalizing st with
  | nil => cases h; exact ⟨rfl, rfl⟩
  | cons i rest ih =>
    simp only [DrainFilterB.nextLB, Option.bind_eq_bind, Option.bind_eq_some_iff] at h
    obtain ⟨l, -, h⟩ := h
    split at h
    · split at h
      · cases h
      · simp only [Option.bind_eq_some_iff] at h
        obtain ⟨r, -, h⟩ := h
        split at h
        · cases h
        · simp only [Option.bind_eq_some_iff] at h
          obtain ⟨_, -, _, -, h⟩ := h
          cases h
        · exact ih h
    · split at h
      · cases h
      · simp only [Option.bind_eq_some_iff] at h
        obtain ⟨_, -, h⟩ := h
        cases h
      · exact ih h

theorem next_sound (f : σ → OptionalPair L R → Option Bool × σ) {it : DrainFilterB σ L R} (h : it.Sound) :
    ∃ o it', it.next f = some (o, it') ∧ it'.Sound ∧ ((handed [o]).filterMap leftOf ++ held it'.left).Perm (held it.left) ∧
      ((handed [o]).filterMap rightOf ++ held it'.right).Perm (held it.right) := by
  obtain ⟨o, todoL, left, right, st, e, hr, p, q⟩ := nextLB_sound f h.left (right := it.right) (st := it.st)
  by_cases ho : o = .done
  · subst ho
    have hnil := (nextLB_done f e).1
    have hr' : Ready right (if it.reset then right.iter else it.todoR) := by
      cases hb : it.reset with
      | true => exact .start right
      | false =>
        obtain ⟨h1, h2⟩ := h.right hb
        rw [h1] at e
        cases e
        exact h2
    obtain ⟨o, todoR, right', st', e2, hr2, p2, q2⟩ := nextRB_sound f hr' (st := st)
    refine ⟨o, ⟨todoL, todoR, left, right', false, st'⟩, ?_, ⟨hr, fun _ => ⟨hnil, hr2⟩⟩, ?_, q2.trans q⟩
    · simp only [DrainFilterB.next, e, e2, Option.bind_eq_bind, Option.bind_some]
    · rw [p2]; exact p
  · refine ⟨o, { it with todoL := todoL, left := left, right := right, st := st }, ?_, ⟨hr, fun hb => ?_⟩, p, q⟩
    · simp only [DrainFilterB.next, e, Option.bind_eq_bind, Option.bind_some]
    · rw [(h.right hb).1] at e
      cases e
      exact absurd rfl ho

theorem handed_cons (o : Next L R) (os : List (Next L R)) : handed (o :: os) = handed [o] ++ handed os := by
  cases o <;> rfl

theorem calls_sound (f : σ → OptionalPair L R → Option Bool × σ) (n : Nat) {it : DrainFilterB σ L R} (h : it.Sound) :
    ∃ os it', DrainFilterB.calls f n it = some (os, it') ∧ it'.Sound ∧ ((handed os).filterMap leftOf ++ held it'.left).Perm (held it.left) ∧
      ((handed os).filterMap rightOf ++ held it'.right).Perm (held it.right) := by
  induction n generalizing it with
  | zero => exact ⟨_, _, rfl, h, .refl _, .refl _⟩
  | succ n ih =>
    obtain ⟨o, it1, e1, h1, p1, q1⟩ := next_sound f h
    obtain ⟨os, it2, e2, h2, p2, q2⟩ := ih h1
    refine ⟨o :: os, it2, ?_, h2, ?_, ?_⟩
    · simp [DrainFilterB.calls, e1, e2]
    · rw [handed_cons, List.filterMap_append, List.append_assoc]; exact (p2.append_left _).trans p1
    · rw [handed_cons, List.filterMap_append, List.append_assoc]; exact (q2.append_left _).trans q1

theorem start_sound (left : Buckets (MappingPair L)) (right : Buckets (MappingPair R)) (st : σ) :
    (DrainFilterB.start left right st).Sound := ⟨.start left, fun h => by cases h⟩

theorem take_sound (f : σ → OptionalPair L R → Option Bool × σ) (n : Nat) {it : DrainFilterB σ L R} (h : it.Sound) :
    ∃ ps v it', DrainFilterB.take f n it = some (ps, v, it') ∧ it'.Sound := by
  induction n generalizing it with
  | zero => exact ⟨_, _, _, rfl, h⟩
  | succ n ih =>
    obtain ⟨o, it1, e1, h1, -⟩ := next_sound f h
    cases o with
    | done => exact ⟨[], false, it1, by simp [DrainFilterB.take, e1], h1⟩
    | panic => exact ⟨[], true, it1, by simp [DrainFilterB.take, e1], h1⟩
    | item p =>
      obtain ⟨ps, v, it2, e2, h2⟩ := ih h1
      exact ⟨p :: ps, v, it2, by simp [DrainFilterB.take, e1, e2], h2⟩

theorem drainFilterB_sound (left : Buckets (MappingPair L)) (right : Buckets (MappingPair R)) (f : σ → OptionalPair L R → Option Bool × σ) (st : σ) (n : Nat) :
    (drainFilterB left right f st n).isSome = true := by
  obtain ⟨ps, v, it1, e1, h1⟩ := take_sound f n (start_sound left right st)
  obtain ⟨qs, v', it2, e2, -⟩ := take_sound f (it1.left.elems.length + it1.right.elems.length + 1) h1
  simp [drainFilterB, e1, e2]

theorem length_remove {T : Type} {b b' : Buckets T} {i : Nat} {x : T} (h : b.remove i = some (x, b')) : b'.elems.length < b.elems.length := by
  simp only [Buckets.remove] at h
  split at h
  · cases h
  · rename_i e he
    cases h
    have := (Buckets.elems_set_perm he).length_eq
    rw [List.length_cons] at this
    omega

theorem nextLB_item (f : σ → OptionalPair L R → Option Bool × σ) {left : Buckets (MappingPair L)} {right : Buckets (MappingPair R)}
    {todo : List Nat} {st : σ} {p todo' left' right' st'}
    (h : DrainFilterB.nextLB f left right todo st = some (.item p, todo', left', right', st')) :
    todo'.length < todo.length ∧ right'.elems.length ≤ right.elems.length := by
  induction todo generalizing st with
  | nil => cases h
  | cons i rest ih =>
    simp only [DrainFilterB.nextLB, Option.bind_eq_bind, Option.bind_eq_some_iff] at h
    obtain ⟨l, -, h⟩ := h
    have ih' := fun st h => ih (st := st) h
    split at h
    · split at h
      · cases h
      · simp only [Option.bind_eq_some_iff] at h
        obtain ⟨r, -, h⟩ := h
        split at h
        · cases h
        · simp only [Option.bind_eq_some_iff] at h
          obtain ⟨⟨_, _⟩, -, ⟨_, _⟩, h1, h⟩ := h
          cases h
          exact ⟨Nat.lt_succ_self _, Nat.le_of_lt (length_remove h1)⟩
        · have := ih h; rw [List.length_cons]; omega
    · split at h
      · cases h
      · simp only [Option.bind_eq_some_iff] at h
        obtain ⟨_, -, h⟩ := h
        cases h
        exact ⟨Nat.lt_succ_self _, Nat.le_refl _⟩
      · have := ih h; rw [List.length_cons]; omega

theorem nextRB_item (f : σ → OptionalPair L R → Option Bool × σ) {right : Buckets (MappingPair R)} {todo : List Nat} {st : σ}
    {p todo' right' st'} (h : DrainFilterB.nextRB f right todo st = some (.item p, todo', right', st')) : todo'.length < todo.length := by
  induction todo generalizing st with
  | nil => cases h
  | cons i rest ih =>
    simp only [DrainFilterB.nextRB, Option.bind_eq_bind, Option.bind_eq_some_iff] at h
    obtain ⟨l, -, h⟩ := h
    split at h
    · cases h
    · simp only [Option.bind_eq_some_iff] at h
      obtain ⟨_, -, h⟩ := h
      cases h
      exact Nat.lt_succ_self _
    · have := ih h; rw [List.length_cons]; omega

/-- how many entries an iterator can still yield -/
def DrainFilterB.size (it : DrainFilterB σ L R) : Nat := it.todoL.length + if it.reset then it.right.elems.length else it.todoR.length

theorem iter_length {T : Type} (b : Buckets T) : b.iter.length = b.elems.length := by
  simpa using congrArg List.length b.iter_map_read

theorem next_item (f : σ → OptionalPair L R → Option Bool × σ) {it it' : DrainFilterB σ L R} {p} (h : it.next f = some (.item p, it')) :
    it'.size < it.size := by
  simp only [DrainFilterB.next, Option.bind_eq_bind, Option.bind_eq_some_iff] at h
  obtain ⟨x, h1, h⟩ := h
  split at h
  · obtain ⟨-, rfl⟩ := nextLB_done f h1
    simp only [Option.bind_eq_some_iff] at h
    obtain ⟨⟨_, _⟩, h2, h⟩ := h
    cases h
    have := nextRB_item f h2
    have e := nextLB_done f h1
    simp only [DrainFilterB.size, e.1]
    cases hb : it.reset <;> simp only [hb, if_true, if_false, Bool.false_eq_true, iter_length, List.length_nil] at this ⊢ <;> omega
  · rename_i hne
    cases h
    have := nextLB_item f h1
    simp only [DrainFilterB.size]
    split <;> omega

/-- calls beyond the last one change nothing -/
theorem take_fuel (f : σ → OptionalPair L R → Option Bool × σ) {n k : Nat} {it : DrainFilterB σ L R} (hn : it.size < n) (hk : it.size < k) :
    DrainFilterB.take f n it = DrainFilterB.take f k it := by
  induction n generalizing k it with
  | zero => omega
  | succ n ih =>
    cases k with
    | zero => omega
    | succ k =>
      simp only [DrainFilterB.take]
      cases h : it.next f with
      | none => rfl
      | some x =>
        obtain ⟨o, it'⟩ := x
        cases o with
        | done => rfl
        | panic => rfl
        | item p =>
          have := next_item f h
          simp only [Option.bind_eq_bind, Option.bind_some]
          rw [ih (k := k) (by omega) (by omega)]

end

/-! ### It does what the main model says -/

/-- Removing an element leaves the others where they are. -/
class StableErase [RawImpl] : Prop where
  erase : ∀ {T : Type} (s : List Bool) (t : RawTable T), (RawImpl.touch (.erase s) t).entries = t.entries

theorem tidyRaw_stable : @StableErase tidyRaw := @StableErase.mk tidyRaw fun _ _ => rfl

section
variable [BucketImpl] [LawfulBuckets] [RawImpl] [LawfulRaw] [StableErase] {L R σ : Type}

/-- each entry to come that is paired has its partner; ids are unique -/
structure Partnered (todo : List (UInt64 × MappingPair L)) (right : List (UInt64 × MappingPair R)) : Prop where
  partner : ∀ e ∈ todo, ∀ hash, e.2.hash = some hash → ∃ r ∈ right, r.1 = hash ∧ r.2.id = e.2.id
  leftIds : todo.Pairwise fun x y => x.2.id ≠ y.2.id
  rightIds : right.Pairwise fun x y => x.2.id ≠ y.2.id

/-- the two models of an iterator agree -/
structure Agree (b : DrainFilterB σ L R) (it : DrainFilter σ L R) : Prop where
  left : b.left.At b.todoL it.keptL it.todoL
  st : b.st = it.st
  reset : b.reset = it.reset
  first : it.reset = true → b.right.elems = it.right.entries ∧ Partnered it.todoL it.right.entries
  second : it.reset = false → it.todoL = [] ∧ b.right.At b.todoR it.keptR it.todoR

theorem same_of_id {T : Type} {l : List (UInt64 × MappingPair T)} (h : l.Pairwise fun x y => x.2.id ≠ y.2.id) {x y} (hx : x ∈ l) (hy : y ∈ l)
    (e : x.2.id = y.2.id) : x = y := by
  induction l with
  | nil => cases hx
  | cons a l ih =>
    have h := List.pairwise_cons.1 h
    rcases List.mem_cons.1 hx with hx | hx <;> rcases List.mem_cons.1 hy with hy | hy
    · rw [hx, hy]
    · exact absurd (hx ▸ e) (h.1 y hy)
    · exact absurd (hy ▸ e).symm (h.1 x hx)
    · exact ih h.2 hx hy

theorem justId_iff {T : Type} {x : MappingPair T} {i : Nat} : justId i x = true ↔ x.id = i := by
  rw [justId, beq_iff_eq]; exact eq_comm

theorem erase_at {T : Type} {xs ys : List (UInt64 × MappingPair T)} {r : UInt64 × MappingPair T} {k : Nat}
    (h : (xs ++ r :: ys).Pairwise fun x y => x.2.id ≠ y.2.id) (hk : (xs ++ r :: ys)[k]? = some r) : (xs ++ r :: ys).eraseIdx k = xs ++ ys := by
  induction xs generalizing k with
  | nil =>
    have h := List.pairwise_cons.1 h
    cases k with
    | zero => rfl
    | succ k =>
      have : r ∈ ys := List.mem_of_getElem? hk
      exact absurd rfl (h.1 r this)
  | cons x xs ih =>
    have h := List.pairwise_cons.1 h
    cases k with
    | zero =>
      cases hk
      exact absurd rfl (h.1 r (by simp))
    | succ k =>
      have := ih h.2 hk
      simpa using this

/-- both models find the same partner -/
theorem find_partner {b : Buckets (MappingPair R)} {t : RawTable (MappingPair R)} (he : b.elems = t.entries)
    (hids : t.entries.Pairwise fun x y => x.2.id ≠ y.2.id) {r : UInt64 × MappingPair R} (hr : r ∈ t.entries) :
    ∃ j t', BucketImpl.find b r.1 (justId r.2.id) = some j ∧ b.read j = some r ∧
      t.removeEntry r.1 (justId r.2.id) = some (r.2, t') ∧ (Buckets.mk (b.slots.set j none)).elems = t'.entries ∧
      t'.entries.Sublist t.entries ∧ ∀ x ∈ t.entries, x.2.id ≠ r.2.id → x ∈ t'.entries := by
  have hj : ∃ j, BucketImpl.find b r.1 (justId r.2.id) = some j ∧ b.read j = some r := by
    cases hj : BucketImpl.find b r.1 (justId r.2.id) with
    | none => exact absurd hj (LawfulBuckets.find_complete _ _ _ r (he ▸ hr) rfl (justId_iff.2 rfl))
    | some j =>
      obtain ⟨r', h5, h6⟩ := LawfulBuckets.find_sound _ _ _ _ hj
      exact ⟨j, rfl, by rw [h5, same_of_id hids (he ▸ Buckets.read_mem h5) hr (justId_iff.1 h6)]⟩
  have hk : ∃ k, RawImpl.find t r.1 (justId r.2.id) = some k ∧ t.entries[k]? = some r := by
    cases hk : RawImpl.find t r.1 (justId r.2.id) with
    | none => exact absurd hk (LawfulRaw.find_complete _ _ _ r hr rfl (justId_iff.2 rfl))
    | some k =>
      obtain ⟨r', h5, h6⟩ := LawfulRaw.find_sound _ _ _ _ hk
      exact ⟨k, rfl, by rw [h5, same_of_id hids (List.mem_of_getElem? h5) hr (justId_iff.1 h6)]⟩
  obtain ⟨j, hj, hrj⟩ := hj
  obtain ⟨k, hk, hrk⟩ := hk
  obtain ⟨xs, ys, hx, hy⟩ := Buckets.elems_set hrj
  have ht : (RawImpl.touch (.erase (RawTable.allBut t.len k)) { t with entries := t.entries.eraseIdx k }).entries = xs ++ ys := by
    rw [StableErase.erase]
    have e : t.entries = xs ++ r :: ys := he.symm.trans hx
    rw [e] at hids hrk ⊢
    exact erase_at hids hrk
  refine ⟨j, _, hj, hrj, by simp only [RawTable.removeEntry, hk, hrk, Option.map_some], hy.trans ht.symm, ?_, ?_⟩
  · rw [ht, ← he, hx]; exact (List.sublist_cons_self _ _).append_left _
  · intro x hxm hne
    rw [← he, hx] at hxm
    rw [ht]
    rcases List.mem_append.1 hxm with h | h
    · exact List.mem_append_left _ h
    · rcases List.mem_cons.1 h with rfl | h
      · exact absurd rfl hne
      · exact List.mem_append_right _ h

theorem nextL_agrees [BEq L] [BEq R] (f : σ → OptionalPair L R → Option Bool × σ) {is : List Nat} {left : Buckets (MappingPair L)}
    {rightB : Buckets (MappingPair R)} {kept todo right st} (h : left.At is kept todo) (hr : rightB.elems = right.entries)
    (hp : Partnered todo right.entries) :
    ∃ o kept' todo' right' st' is' left' rightB', DrainFilter.nextLP f kept todo right st = .ok (o, kept', todo', right', st') ∧
      DrainFilterB.nextLB f left rightB is st = some (o, is', left', rightB', st') ∧ left'.At is' kept' todo' ∧
      rightB'.elems = right'.entries ∧ Partnered todo' right'.entries := by
  induction todo generalizing kept is st with
  | nil => cases h.done; exact ⟨_, _, _, _, _, _, _, _, rfl, rfl, h, hr, hp⟩
  | cons e rest ih =>
    obtain ⟨i, is, rfl, h3, h4, h5⟩ := h.next
    have hp' : Partnered rest right.entries :=
      ⟨fun x hx => hp.partner x (List.mem_cons_of_mem _ hx), (List.pairwise_cons.1 hp.leftIds).2, hp.rightIds⟩
    simp only [DrainFilter.nextLP, DrainFilterB.nextLB, h3, Option.bind_eq_bind, Option.bind_some]
    cases he : e.2.hash with
    | none =>
      cases hf : f st (someLeft e.2.value) with
      | mk v st' =>
        match v with
        | none => simp only [hf]; exact ⟨_, _, _, _, _, _, _, _, rfl, rfl, h4, hr, hp'⟩
        | some false => simp only [hf]; exact ih h4 hp'
        | some true =>
          simp only [hf, Buckets.remove_of_read h3, Option.bind_some]
          exact ⟨_, _, _, _, _, _, _, _, rfl, rfl, h5, hr, hp'⟩
    | some hash =>
      obtain ⟨r, hrm, rfl, hid⟩ := hp.partner e List.mem_cons_self hash he
      obtain ⟨j, t', k1, k2, k3, k4, k5, k6⟩ := find_partner hr hp.rightIds hrm
      rw [hid] at k1 k3 k6
      simp only [k1, k2, k3, Option.bind_some]
      cases hf : f st (someBoth e.2.value r.2.value) with
      | mk v st' =>
        match v with
        | none => simp only [hf]; exact ⟨_, _, _, _, _, _, _, _, rfl, rfl, h4, hr, hp'⟩
        | some false => simp only [hf]; exact ih h4 hp'
        | some true =>
          simp only [hf, Buckets.remove_of_read h3, Buckets.remove_of_read k2, Option.bind_some]
          refine ⟨_, _, _, _, _, _, _, _, rfl, rfl, h5, k4, fun x hx hash hh => ?_, (List.pairwise_cons.1 hp.leftIds).2, hp.rightIds.sublist k5⟩
          obtain ⟨r', h6, h7, h8⟩ := hp'.partner x hx hash hh
          exact ⟨r', k6 r' h6 (by rw [h8]; exact ((List.pairwise_cons.1 hp.leftIds).1 x hx).symm), h7, h8⟩

theorem nextR_agrees (f : σ → OptionalPair L R → Option Bool × σ) {is : List Nat} {right : Buckets (MappingPair R)} {kept todo st}
    (h : right.At is kept todo) :
    ∃ o kept' todo' st' is' right', DrainFilter.nextRP f kept todo st = (o, kept', todo', st') ∧
      DrainFilterB.nextRB f right is st = some (o, is', right', st') ∧ right'.At is' kept' todo' := by
  induction todo generalizing kept is st with
  | nil => cases h.done; exact ⟨_, _, _, _, _, _, rfl, rfl, h⟩
  | cons e rest ih =>
    obtain ⟨i, is, rfl, h3, h4, h5⟩ := h.next
    simp only [DrainFilter.nextRP, DrainFilterB.nextRB, h3, Option.bind_eq_bind, Option.bind_some]
    cases hf : f st (someRight e.2.value) with
    | mk v st' =>
      match v with
      | none => simp only [hf]; exact ⟨_, _, _, _, _, _, rfl, rfl, h4⟩
      | some false => simp only [hf]; exact ih h4
      | some true =>
        simp only [hf, Buckets.remove_of_read h3, Option.bind_some]
        exact ⟨_, _, _, _, _, _, rfl, rfl, h5⟩

theorem next_agrees [BEq L] [BEq R] (f : σ → OptionalPair L R → Option Bool × σ) {b : DrainFilterB σ L R} {it : DrainFilter σ L R}
    (h : Agree b it) : ∃ o it' b', DrainFilter.nextP f it = .ok (o, it') ∧ b.next f = some (o, b') ∧ Agree b' it' := by
  obtain ⟨bl, br, left, right, reset, st⟩ := b
  obtain ⟨keptL, todoL, tab, reset', keptR, todoR, st'⟩ := it
  obtain rfl : reset = reset' := h.reset
  obtain rfl : st = st' := h.st
  cases reset with
  | false =>
    obtain ⟨h1, h2⟩ := h.second rfl
    cases h1
    have h0 := h.left
    cases h0.done
    obtain ⟨o, kept', todo', st', is', right', e1, e2, h3⟩ := nextR_agrees f h2 (st := st)
    exact ⟨o, ⟨keptL, [], tab, false, kept', todo', st'⟩, ⟨[], is', left, right', false, st'⟩,
      by simp [DrainFilter.nextP, DrainFilter.nextLP, e1, bind, Except.bind, pure, Except.pure],
      by simp [DrainFilterB.next, DrainFilterB.nextLB, e2], ⟨h0, rfl, rfl, fun h => (by cases h), fun _ => ⟨rfl, h3⟩⟩⟩
  | true =>
    obtain ⟨h1, h2⟩ := h.first rfl
    obtain ⟨o, kept', todo', right', st', is', left', rightB', e1, e2, k1, k2, k3⟩ := nextL_agrees f h.left h1 h2 (st := st)
    cases o with
    | done =>
      have hnil := (nextLB_done f e2).1
      subst hnil
      have ht : todo' = [] := List.length_eq_zero_iff.1 k1.length.symm
      subst ht
      obtain ⟨o, keptR', todoR', st2, is2, right2, e3, e4, k4⟩ := nextR_agrees f (Buckets.At.start rightB') (st := st')
      rw [k2] at e3
      exact ⟨o, ⟨kept', [], right', false, keptR', todoR', st2⟩, ⟨[], is2, left', right2, false, st2⟩,
        by simp [DrainFilter.nextP, e1, e3, bind, Except.bind, pure, Except.pure],
        by simp [DrainFilterB.next, e2, e4], ⟨k1, rfl, rfl, fun h => (by cases h), fun _ => ⟨rfl, k4⟩⟩⟩
    | panic =>
      exact ⟨.panic, ⟨kept', todo', right', true, keptR, todoR, st'⟩, ⟨is', br, left', rightB', true, st'⟩,
        by simp [DrainFilter.nextP, e1, bind, Except.bind, pure, Except.pure],
        by simp [DrainFilterB.next, e2], ⟨k1, rfl, rfl, fun _ => ⟨k2, k3⟩, fun h => by cases h⟩⟩
    | item p =>
      exact ⟨.item p, ⟨kept', todo', right', true, keptR, todoR, st'⟩, ⟨is', br, left', rightB', true, st'⟩,
        by simp [DrainFilter.nextP, e1, bind, Except.bind, pure, Except.pure],
        by simp [DrainFilterB.next, e2], ⟨k1, rfl, rfl, fun _ => ⟨k2, k3⟩, fun h => by cases h⟩⟩

theorem take_agrees [BEq L] [BEq R] (f : σ → OptionalPair L R → Option Bool × σ) (n : Nat) {b : DrainFilterB σ L R} {it : DrainFilter σ L R}
    (h : Agree b it) :
    ∃ ps v it' b', DrainFilter.takeP f n it = .ok (ps, v, it') ∧ DrainFilterB.take f n b = some (ps, v, b') ∧ Agree b' it' := by
  induction n generalizing b it with
  | zero => exact ⟨_, _, _, _, rfl, rfl, h⟩
  | succ n ih =>
    obtain ⟨o, it1, b1, e1, e2, h1⟩ := next_agrees f h
    cases o with
    | done => exact ⟨[], false, it1, b1, by simp [DrainFilter.takeP, e1, bind, Except.bind, pure, Except.pure], by simp [DrainFilterB.take, e2], h1⟩
    | panic => exact ⟨[], true, it1, b1, by simp [DrainFilter.takeP, e1, bind, Except.bind, pure, Except.pure], by simp [DrainFilterB.take, e2], h1⟩
    | item p =>
      obtain ⟨ps, v, it2, b2, e3, e4, h2⟩ := ih h1
      exact ⟨p :: ps, v, it2, b2, by simp [DrainFilter.takeP, e1, e3, bind, Except.bind, pure, Except.pure],
        by simp [DrainFilterB.take, e2, e4], h2⟩

theorem Agree.right_elems {b : DrainFilterB σ L R} {it : DrainFilter σ L R} (h : Agree b it) : b.right.elems = it.rightEntries := by
  rw [DrainFilter.rightEntries]
  cases hr : it.reset with
  | true => exact (h.first hr).1
  | false => exact (h.second hr).2.elems

theorem Agree.fuel {b : DrainFilterB σ L R} {it : DrainFilter σ L R} (h : Agree b it) :
    b.size < it.todoL.length + it.right.len + it.todoR.length + 1 ∧ b.size < b.left.elems.length + b.right.elems.length + 1 := by
  have h1 := h.left.length
  have h2 := congrArg List.length h.left.elems
  rw [List.length_append] at h2
  rw [DrainFilterB.size, h.reset]
  cases hr : it.reset with
  | true =>
    have := congrArg List.length (h.first hr).1
    simp only [if_true, RawTable.len]
    omega
  | false =>
    have h3 := (h.second hr).2.length
    have h4 := congrArg List.length (h.second hr).2.elems
    rw [List.length_append] at h4
    simp only [if_false, Bool.false_eq_true]
    omega

variable [BEq L] [BEq R] [EquivBEq L] [EquivBEq R] {m : PartialMap L R} {c : List (OptionalPair L R)}

theorem start_agrees (h : Repr m c) {left : Buckets (MappingPair L)} {right : Buckets (MappingPair R)} (hl : left.elems = m.left.entries)
    (hr : right.elems = m.right.entries) (st : σ) :
    Agree (.start left right st) ⟨[], m.left.entries, m.right, true, [], [], st⟩ := by
  obtain ⟨ps, hp, -⟩ := h
  refine ⟨hl ▸ .start left, rfl, rfl, fun _ => ⟨hr, ?_⟩, fun h => by cases h⟩
  have ids : ∀ {T : Type} (g : Rec L R → Option (UInt64 × MappingPair T)), (∀ p x, g p = some x → x.2.id = p.id) →
      (ps.filterMap g).Pairwise fun x y => x.2.id ≠ y.2.id := fun g hg =>
    List.pairwise_filterMap.2 (hp.apart.imp fun hab x hx y hy => by
      rw [hg _ _ hx, hg _ _ hy]; exact hab.1)
  refine ⟨fun e he hash hh => ?_, (hp.left.pairwise_iff fun hh => Ne.symm hh).2 (ids _ ?_), (hp.right.pairwise_iff fun hh => Ne.symm hh).2 (ids _ ?_)⟩
  · obtain ⟨⟨p, i⟩, hpm, hx⟩ := List.mem_filterMap.1 (hp.left.mem_iff.1 he)
    cases p with
    | neither => cases hx
    | someRight r => cases hx
    | someLeft l => cases hx; cases hh
    | someBoth l r =>
      cases hx; cases hh
      exact ⟨_, hp.right.mem_iff.2 (List.mem_filterMap.2 ⟨_, hpm, rfl⟩), rfl, rfl⟩
  · rintro ⟨p, i⟩ x hx
    cases p <;> cases hx <;> rfl
  · rintro ⟨p, i⟩ x hx
    cases p <;> cases hx <;> rfl

theorem drainFilterB_agrees (h : Repr m c) {left : Buckets (MappingPair L)} {right : Buckets (MappingPair R)} (hl : left.elems = m.left.entries)
    (hr : right.elems = m.right.entries) (f : σ → OptionalPair L R → Option Bool × σ) (st : σ) (n : Nat) :
    ∃ e ps st' m' left' right', m.drainFilterP f st n = .ok (e, ps, st', m') ∧
      drainFilterB left right f st n = some (e, ps, st', left', right') ∧
      left'.elems = m'.left.entries ∧ right'.elems = m'.right.entries := by
  obtain ⟨ps, v, it1, b1, e1, e2, h1⟩ := take_agrees f n (start_agrees h hl hr st)
  obtain ⟨qs, v', it2, b2, e3, e4, h2⟩ := take_agrees f (it1.todoL.length + it1.right.len + it1.todoR.length + 1) h1
  rw [take_fuel f h1.fuel.1 h1.fuel.2] at e4
  refine ⟨if v then (if v' then .aborted else .panicked) else (if v' then .panicked else .returned), ps, it2.st, { m with
    left := RawImpl.touch (.erase (stays m.left (it2.keptL ++ it2.todoL))) { m.left with entries := it2.keptL ++ it2.todoL },
    right := RawImpl.touch (.erase (stays it2.right it2.rightEntries)) { it2.right with entries := it2.rightEntries } },
    b2.left, b2.right, ?_, ?_, ?_, ?_⟩
  · simp only [drainFilterP, e1, e3, bind, Except.bind, pure, Except.pure]
  · simp only [drainFilterB, e2, e4, Option.bind_eq_bind, Option.bind_some, h2.st]
  · rw [h2.left.elems]
    exact (StableErase.erase _ { m.left with entries := it2.keptL ++ it2.todoL }).symm
  · rw [h2.right_elems]
    exact (StableErase.erase _ { it2.right with entries := it2.rightEntries }).symm

end
end Verif.PartialMap
