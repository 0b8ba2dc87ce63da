import Verif.Buckets
import Verif.CycleMap.Panics
/-
`drain_filter` of `CycleMap`, bucket by bucket (see `Verif/Buckets.lean`).
-/
set_option linter.unusedSectionVars false
set_option linter.unusedSimpArgs false
namespace Verif.CycleMap
open CycleSpec OptionalPair

/-- `DrainFilterInner` (1404-1408): `todo` are the buckets `left_iter` has still to yield; `st` is the captured state of the closure -/
structure DrainFilterB (σ L R : Type) where
  todo : List Nat
  left : Buckets (MappingPair L)
  right : Buckets (MappingPair R)
  st : σ

section
variable [BucketImpl] {L R σ : Type}

/-- `drain_filter` (830-842) -/
def DrainFilterB.start (left : Buckets (MappingPair L)) (right : Buckets (MappingPair R)) (st : σ) : DrainFilterB σ L R :=
  ⟨left.iter, left, right, st⟩

/-- `DrainFilterInner::next` (1411-1430).  `none` is undefined behaviour; `.panic` is a panic of the closure, or of the `unwrap` of 1421. -/
def DrainFilterB.nextB (f : σ → L → R → Option Bool × σ) (left : Buckets (MappingPair L)) (right : Buckets (MappingPair R)) :
    List Nat → σ → Option (Next L R × DrainFilterB σ L R)
  | [], st => some (.done, ⟨[], left, right, st⟩)
  | i :: rest, st => do
    let l ← left.read i
    match BucketImpl.find right l.2.hash (justId l.2.id) with
    | none => some (.panic, ⟨rest, left, right, st⟩)
    | some j => do
      let r ← right.read j
      match f st l.2.value r.2.value with
      | (none, st) => some (.panic, ⟨rest, left, right, st⟩)
      | (some true, st) => do
        let (l, left) ← left.remove i
        let (r, right) ← right.remove j
        some (.item (l.value, r.value), ⟨rest, left, right, st⟩)
      | (some false, st) => DrainFilterB.nextB f left right rest st

/-- `DrainFilterIter::next` (1391-1393) -/
def DrainFilterB.next (f : σ → L → R → Option Bool × σ) (it : DrainFilterB σ L R) : Option (Next L R × DrainFilterB σ L R) :=
  DrainFilterB.nextB f it.left it.right it.todo it.st

/-- `next` called `n` times, whatever it returns: a caller may catch a panic and go on; `Drop` (1368-1374) and `ConsumeAllOnDrop` (1377-1383)
only call `next`, so all they do is a number of further calls; an iterator that is forgotten gets none. -/
def DrainFilterB.calls (f : σ → L → R → Option Bool × σ) : Nat → DrainFilterB σ L R → Option (List (Next L R) × DrainFilterB σ L R)
  | 0, it => some ([], it)
  | n + 1, it => do
    let (o, it) ← it.next f
    let (os, it) ← DrainFilterB.calls f n it
    some (o :: os, it)

/-- calling `next` at most `n` times, until it returns `None` or panics (as `DrainFilter.takeP`) -/
def DrainFilterB.take (f : σ → L → R → Option Bool × σ) : Nat → DrainFilterB σ L R → Option (List (L × R) × Bool × DrainFilterB σ L R)
  | 0, it => some ([], false, it)
  | n + 1, it => do
    match ← it.next f with
    | (.done, it) => some ([], false, it)
    | (.panic, it) => some ([], true, it)
    | (.item p, it) => do
      let (ps, b, it) ← DrainFilterB.take f n it
      some (p :: ps, b, it)

/-- `drain_filter(f)`, at most `n` calls of `next`, then `Drop` (as `drainFilterP`) -/
def drainFilterB (left : Buckets (MappingPair L)) (right : Buckets (MappingPair R)) (f : σ → L → R → Option Bool × σ) (st : σ) (n : Nat) :
    Option (Ending × List (L × R) × σ × Buckets (MappingPair L) × Buckets (MappingPair R)) := do
  let (ps, b, it) ← DrainFilterB.take f n (.start left right st)
  let (_, b', it) ← DrainFilterB.take f (it.todo.length + 1) it
  let e := if b then (if b' then .aborted else .panicked) else (if b' then .panicked else .returned)
  some (e, ps, it.st, it.left, it.right)

end

/-! ### Only full buckets are used -/

section
variable [BucketImpl] [LawfulBuckets] {L R σ : Type}

/-- the iterator yields each bucket once, and those to come are full -/
structure DrainFilterB.Sound (it : DrainFilterB σ L R) : Prop where
  nodup : it.todo.Nodup
  full : ∀ i ∈ it.todo, (it.left.read i).isSome = true

/-- the pairs among the results -/
def handed : List (Next L R) → List (L × R)
  | [] => []
  | .item p :: os => p :: handed os
  | _ :: os => handed os

/-- what the buckets hold -/
def held {T : Type} (b : Buckets (MappingPair T)) : List T := b.elems.map fun e => e.2.value

theorem nextB_sound (f : σ → L → R → Option Bool × σ) {left : Buckets (MappingPair L)} {right : Buckets (MappingPair R)} {todo : List Nat} {st : σ}
    (hn : todo.Nodup) (hf : ∀ i ∈ todo, (left.read i).isSome = true) :
    ∃ o it', DrainFilterB.nextB f left right todo st = some (o, it') ∧ it'.Sound ∧
      ((handed [o]).map (·.1) ++ held it'.left).Perm (held left) ∧ ((handed [o]).map (·.2) ++ held it'.right).Perm (held right) := by
  induction todo generalizing st with
  | nil => exact ⟨_, _, rfl, ⟨hn, hf⟩, .refl _, .refl _⟩
  | cons i rest ih =>
    have hn' := List.nodup_cons.1 hn
    have hf' : ∀ k ∈ rest, (left.read k).isSome = true := fun k hk => hf k (List.mem_cons_of_mem _ hk)
    obtain ⟨l, hl⟩ := Option.isSome_iff_exists.1 (hf i List.mem_cons_self)
    simp only [DrainFilterB.nextB, hl, Option.bind_eq_bind, Option.bind_some]
    cases hj : BucketImpl.find right l.2.hash (justId l.2.id) with
    | none => exact ⟨_, _, rfl, ⟨hn'.2, hf'⟩, .refl _, .refl _⟩
    | some j =>
      obtain ⟨r, hr, -⟩ := LawfulBuckets.find_sound _ _ _ _ hj
      simp only [hr, Option.bind_some]
      cases h : f st l.2.value r.2.value with
      | mk b st' =>
        match b with
        | none => exact ⟨_, _, rfl, ⟨hn'.2, hf'⟩, .refl _, .refl _⟩
        | some false => exact ih hn'.2 hf'
        | some true =>
          simp only [Buckets.remove_of_read hl, Buckets.remove_of_read hr, Option.bind_some]
          refine ⟨_, _, rfl, ⟨hn'.2, fun k hk => ?_⟩, (Buckets.elems_set_perm hl).map fun e : UInt64 × MappingPair L => e.2.value,
            (Buckets.elems_set_perm hr).map fun e : UInt64 × MappingPair R => e.2.value⟩
          show ((Buckets.mk _).read k).isSome = true
          rw [Buckets.read_set, if_neg fun (h : k = i) => hn'.1 (h ▸ hk)]
          exact hf' k hk

theorem handed_cons (o : Next L R) (os : List (Next L R)) : handed (o :: os) = handed [o] ++ handed os := by
  cases o <;> rfl

theorem calls_sound (f : σ → L → R → Option Bool × σ) (n : Nat) {it : DrainFilterB σ L R} (h : it.Sound) :
    ∃ os it', DrainFilterB.calls f n it = some (os, it') ∧ it'.Sound ∧
      ((handed os).map (·.1) ++ held it'.left).Perm (held it.left) ∧ ((handed os).map (·.2) ++ held it'.right).Perm (held it.right) := by
  induction n generalizing it with
  | zero => exact ⟨_, _, rfl, h, .refl _, .refl _⟩
  | succ n ih =>
    obtain ⟨o, it1, e1, h1, p1, q1⟩ := nextB_sound f h.nodup h.full (right := it.right) (st := it.st)
    obtain ⟨os, it2, e2, h2, p2, q2⟩ := ih h1
    refine ⟨o :: os, it2, ?_, h2, ?_, ?_⟩
    · simp [DrainFilterB.calls, DrainFilterB.next, e1, e2]
    · rw [handed_cons, List.map_append, List.append_assoc]; exact (p2.append_left _).trans p1
    · rw [handed_cons, List.map_append, List.append_assoc]; exact (q2.append_left _).trans q1

theorem start_sound (left : Buckets (MappingPair L)) (right : Buckets (MappingPair R)) (st : σ) :
    (DrainFilterB.start left right st).Sound :=
  ⟨left.iter_nodup, fun _ hi => Buckets.mem_iter.1 hi⟩

theorem take_sound (f : σ → L → R → Option Bool × σ) (n : Nat) {it : DrainFilterB σ L R} (h : it.Sound) :
    ∃ ps v it', DrainFilterB.take f n it = some (ps, v, it') ∧ it'.Sound := by
  induction n generalizing it with
  | zero => exact ⟨_, _, _, rfl, h⟩
  | succ n ih =>
    obtain ⟨o, it1, e1, h1, -⟩ := nextB_sound f h.nodup h.full (right := it.right) (st := it.st)
    cases o with
    | done => exact ⟨[], false, it1, by simp [DrainFilterB.take, DrainFilterB.next, e1], h1⟩
    | panic => exact ⟨[], true, it1, by simp [DrainFilterB.take, DrainFilterB.next, e1], h1⟩
    | item p =>
      obtain ⟨ps, v, it2, e2, h2⟩ := ih h1
      exact ⟨p :: ps, v, it2, by simp [DrainFilterB.take, DrainFilterB.next, e1, e2], h2⟩

theorem drainFilterB_sound (left : Buckets (MappingPair L)) (right : Buckets (MappingPair R)) (f : σ → L → R → Option Bool × σ) (st : σ) (n : Nat) :
    (drainFilterB left right f st n).isSome = true := by
  obtain ⟨ps, v, it1, e1, h1⟩ := take_sound f n (start_sound left right st)
  obtain ⟨qs, v', it2, e2, -⟩ := take_sound f (it1.todo.length + 1) h1
  simp [drainFilterB, e1, e2]

end

/-! ### It does what the main model says -/

section
variable [BucketImpl] [LawfulBuckets] [RawImpl] [LawfulRaw] {L R σ : Type}

/-- the two models of an iterator agree -/
structure Agree (b : DrainFilterB σ L R) (it : DrainFilter σ L R) : Prop where
  /-- the entries the left iterator has passed and those to come, in the order of the buckets -/
  left : b.left.At b.todo it.kept it.todo
  right : b.right.elems.Perm it.right.entries
  st : b.st = it.st
  /-- each entry to come has its partner -/
  partner : ∀ e ∈ it.todo, ∃ r ∈ b.right.elems, r.1 = e.2.hash ∧ r.2.id = e.2.id
  leftIds : it.todo.Pairwise fun x y => x.2.id ≠ y.2.id
  rightIds : b.right.elems.Pairwise fun x y => x.2.id ≠ y.2.id

theorem same_of_id {T : Type} {l : List (UInt64 × MappingPair T)} (h : l.Pairwise fun x y => x.2.id ≠ y.2.id) {x y} (hx : x ∈ l) (hy : y ∈ l)
    (e : x.2.id = y.2.id) : x = y := by
  induction l with
  | nil => cases hx
  | cons a l ih =>
    have h := List.pairwise_cons.1 h
    rcases List.mem_cons.1 hx with hx | hx <;> rcases List.mem_cons.1 hy with hy | hy
    · rw [hx, hy]
    · exact absurd (hx ▸ e) (h.1 y hy)
    · exact absurd (hy ▸ e).symm (h.1 x hx)
    · exact ih h.2 hx hy

theorem justId_iff {T : Type} {x : MappingPair T} {i : Nat} : justId i x = true ↔ x.id = i := by
  rw [justId, beq_iff_eq]; exact eq_comm

theorem next_agrees [BEq L] [BEq R] (f : σ → L → R → Option Bool × σ) {b : DrainFilterB σ L R} {kept todo right st}
    (h : Agree b ⟨kept, todo, right, st⟩) :
    ∃ o it' b', DrainFilter.nextP f kept todo right st = .ok (o, it') ∧ b.next f = some (o, b') ∧ Agree b' it' := by
  obtain ⟨bt, bl, br, bs⟩ := b
  obtain rfl : bs = st := h.st
  induction todo generalizing kept bt bs with
  | nil =>
    cases h.left.done
    exact ⟨_, _, _, rfl, rfl, h⟩
  | cons e rest ih =>
    obtain ⟨i, bt, hbt, h3, h4, h5⟩ := h.left.next
    cases hbt
    obtain ⟨r, hr, hr1, hr2⟩ := h.partner e List.mem_cons_self
    -- both models find the partner
    have hj : ∃ j, BucketImpl.find br e.2.hash (justId e.2.id) = some j ∧ br.read j = some r := by
      cases hj : BucketImpl.find br e.2.hash (justId e.2.id) with
      | none => exact absurd hj (LawfulBuckets.find_complete _ _ _ r hr hr1 (justId_iff.2 hr2))
      | some j =>
        obtain ⟨r', h5, h6⟩ := LawfulBuckets.find_sound _ _ _ _ hj
        have h6 : r'.2.id = e.2.id := justId_iff.1 h6
        exact ⟨j, rfl, by rw [h5, same_of_id h.rightIds (Buckets.read_mem h5) hr (h6.trans hr2.symm)]⟩
    obtain ⟨j, hj, hrj⟩ := hj
    obtain ⟨xs, ys, hx, hy⟩ := Buckets.elems_set hrj
    obtain ⟨right', hrem, hperm⟩ : ∃ right', right.removeEntry e.2.hash (justId e.2.id) = some (r.2, right') ∧
        right'.entries.Perm (xs ++ ys) := by
      have hp : right.entries.Perm (r :: (xs ++ ys)) := h.right.symm.trans (by rw [hx]; exact List.perm_middle)
      have hids := h.rightIds
      rw [hx] at hids
      have hids := List.pairwise_cons.1 ((List.perm_middle.pairwise_iff fun hh => Ne.symm hh).1 hids)
      exact RawTable.removeEntry_some hp hr1 (justId_iff.2 hr2) fun z hz => Bool.eq_false_iff.2 fun hj =>
          hids.1 z hz (hr2.trans (justId_iff.1 hj).symm)
    have step : Agree ⟨bt, bl, br, bs⟩ ⟨kept ++ [e], rest, right, bs⟩ :=
      { left := h4
        right := h.right, st := rfl
        partner := fun x hx => h.partner x (List.mem_cons_of_mem _ hx)
        leftIds := (List.pairwise_cons.1 h.leftIds).2, rightIds := h.rightIds }
    simp only [DrainFilter.nextP, hrem, DrainFilterB.next, DrainFilterB.nextB, h3, hj, hrj, Option.bind_eq_bind, Option.bind_some]
    cases hf : f bs e.2.value r.2.value with
    | mk v st' =>
      have step' : Agree ⟨bt, bl, br, st'⟩ ⟨kept ++ [e], rest, right, st'⟩ :=
        { left := step.left, right := step.right, st := rfl, partner := step.partner, leftIds := step.leftIds, rightIds := step.rightIds }
      match v with
      | none => exact ⟨_, _, _, rfl, rfl, step'⟩
      | some false => exact ih _ _ step'
      | some true =>
        simp only [Buckets.remove_of_read h3, Buckets.remove_of_read hrj, Option.bind_some]
        refine ⟨_, _, _, rfl, rfl, h5, ?_, rfl, ?_, (List.pairwise_cons.1 h.leftIds).2, ?_⟩
        · rw [hy]; exact hperm.symm
        · intro x hxr
          obtain ⟨r', hr', h5, h6⟩ := h.partner x (List.mem_cons_of_mem _ hxr)
          refine ⟨r', ?_, h5, h6⟩
          rw [hx] at hr'
          rw [hy]
          rcases List.mem_append.1 hr' with h7 | h7
          · exact List.mem_append_left _ h7
          · rcases List.mem_cons.1 h7 with rfl | h7
            · exact absurd (hr2.symm.trans h6) ((List.pairwise_cons.1 h.leftIds).1 x hxr)
            · exact List.mem_append_right _ h7
        · have := h.rightIds
          rw [hx] at this
          rw [hy]
          exact this.sublist ((List.sublist_cons_self _ _).append_left _)

theorem take_agrees [BEq L] [BEq R] (f : σ → L → R → Option Bool × σ) (n : Nat) {b : DrainFilterB σ L R} {it : DrainFilter σ L R} (h : Agree b it) :
    ∃ ps v it' b', DrainFilter.takeP f n it = .ok (ps, v, it') ∧ DrainFilterB.take f n b = some (ps, v, b') ∧ Agree b' it' := by
  induction n generalizing b it with
  | zero => exact ⟨_, _, _, _, rfl, rfl, h⟩
  | succ n ih =>
    obtain ⟨o, it1, b1, e1, e2, h1⟩ := next_agrees f (kept := it.kept) (todo := it.todo) (right := it.right) (st := it.st) h
    cases o with
    | done => exact ⟨[], false, it1, b1, by simp [DrainFilter.takeP, e1, bind, Except.bind, pure, Except.pure], by simp [DrainFilterB.take, e2], h1⟩
    | panic => exact ⟨[], true, it1, b1, by simp [DrainFilter.takeP, e1, bind, Except.bind, pure, Except.pure], by simp [DrainFilterB.take, e2], h1⟩
    | item p =>
      obtain ⟨ps, v, it2, b2, e3, e4, h2⟩ := ih h1
      exact ⟨p :: ps, v, it2, b2, by simp [DrainFilter.takeP, e1, e3, bind, Except.bind, pure, Except.pure],
        by simp [DrainFilterB.take, e2, e4], h2⟩

theorem Agree.todo_length {b : DrainFilterB σ L R} {it : DrainFilter σ L R} (h : Agree b it) : b.todo.length = it.todo.length := h.left.length

theorem Agree.left_elems {b : DrainFilterB σ L R} {it : DrainFilter σ L R} (h : Agree b it) : b.left.elems = it.kept ++ it.todo := h.left.elems

variable [BEq L] [BEq R] [EquivBEq L] [EquivBEq R] {m : CycleMap L R} {c : List (L × R)}

theorem start_agrees (h : Repr m c) {left : Buckets (MappingPair L)} {right : Buckets (MappingPair R)} (hl : left.elems = m.left.entries)
    (hr : right.elems.Perm m.right.entries) (st : σ) :
    Agree (.start left right st) ⟨[], m.left.entries, m.right, st⟩ := by
  obtain ⟨ps, hp, -⟩ := h
  have ids : ∀ {T : Type} (g : Rec L R → UInt64 × MappingPair T), (∀ p, (g p).2.id = p.id) →
      (ps.map g).Pairwise fun x y => x.2.id ≠ y.2.id := fun g hg =>
    List.pairwise_map.2 (hp.apart.imp fun hab => by rw [hg, hg]; exact hab.1)
  refine ⟨hl ▸ .start left, hr, rfl, ?_, ?_, ?_⟩
  · intro e he
    obtain ⟨p, hpm, rfl⟩ := List.mem_map.1 (hp.left.mem_iff.1 he)
    exact ⟨toR m.hb p, hr.mem_iff.2 (hp.right.mem_iff.2 (List.mem_map_of_mem hpm)), rfl, rfl⟩
  · exact (hp.left.pairwise_iff fun hh => Ne.symm hh).2 (ids _ fun _ => rfl)
  · exact ((hr.trans hp.right).pairwise_iff fun hh => Ne.symm hh).2 (ids _ fun _ => rfl)

theorem drainFilterB_agrees (h : Repr m c) {left : Buckets (MappingPair L)} {right : Buckets (MappingPair R)} (hl : left.elems = m.left.entries)
    (hr : right.elems.Perm m.right.entries) (f : σ → L → R → Option Bool × σ) (st : σ) (n : Nat) :
    ∃ e ps st' m' left' right', m.drainFilterP f st n = .ok (e, ps, st', m') ∧
      drainFilterB left right f st n = some (e, ps, st', left', right') ∧
      left'.elems.Perm m'.left.entries ∧ right'.elems.Perm m'.right.entries := by
  obtain ⟨ps, v, it1, b1, e1, e2, h1⟩ := take_agrees f n (start_agrees h hl hr st)
  obtain ⟨qs, v', it2, b2, e3, e4, h2⟩ := take_agrees f (it1.todo.length + 1) h1
  rw [← h1.todo_length] at e4
  refine ⟨if v then (if v' then .aborted else .panicked) else (if v' then .panicked else .returned), ps, it2.st, { m with
    left := RawImpl.touch (.erase (stays m.left (it2.kept ++ it2.todo))) { m.left with entries := it2.kept ++ it2.todo }, right := it2.right },
    b2.left, b2.right, ?_, ?_, ?_, h2.right⟩
  · simp only [drainFilterP, e1, e3, bind, Except.bind, pure, Except.pure]
  · simp only [drainFilterB, e2, e4, Option.bind_eq_bind, Option.bind_some, h2.st]
  · rw [h2.left_elems]
    exact (LawfulRaw.touch_perm (.erase _) { m.left with entries := it2.kept ++ it2.todo }).symm

end
end Verif.CycleMap
