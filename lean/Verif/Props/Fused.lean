import Verif.Fused
import Verif.Props.Always
import Verif.Props.Pretty
/-!
Property C128: the iterators are fused, as their `FusedIterator` implementations promise: once `next` has returned `None`, it returns `None`
for ever.  The theorems hold for every map and every state of an iterator, also if the map is broken and calls of `next` panic.
-/
set_option linter.unusedSectionVars false
set_option linter.unusedSimpArgs false

namespace Verif

/-- what calls of `next` return: after a `None` there is nothing but `None` -/
def Fused {α : Type} (rs : List (Res (Option α))) : Prop :=
  ∀ a b, rs = a ++ .ok none :: b → ∀ r ∈ b, r = .ok none

section
variable {α σ : Type} {step : σ → Res (Option α) × σ} {done : σ → Prop}

theorem results_done (hd : ∀ s, done s → (step s).1 = .ok none ∧ done (step s).2) (n : Nat) :
    ∀ s, done s → results step n s = List.replicate n (.ok none) := by
  induction n with
  | zero => intro s _; rfl
  | succ n ih =>
    intro s h
    rw [results, (hd s h).1, ih _ (hd s h).2]; rfl

theorem results_fused (P : σ → Prop) (hP : ∀ s, P s → P (step s).2) (hn : ∀ s, P s → (step s).1 = .ok none → done (step s).2)
    (hd : ∀ s, done s → (step s).1 = .ok none ∧ done (step s).2) (n : Nat) : ∀ s, P s → Fused (results step n s) := by
  induction n with
  | zero => intro s _ a b h; simp [results] at h
  | succ n ih =>
    intro s hs a b h
    cases a with
    | nil =>
      simp only [results, List.nil_append, List.cons.injEq] at h
      intro r hr
      rw [← h.2, results_done hd n _ (hn s hs h.1)] at hr
      exact List.eq_of_mem_replicate hr
    | cons x a =>
      simp only [results, List.cons_append, List.cons.injEq] at h
      exact ih _ (hP s hs) a b h.2

theorem results_take {take : Nat → σ → Res (List α × σ)} (h0 : ∀ s, take 0 s = .ok ([], s))
    (h1 : ∀ n s ps s', take (n + 1) s = .ok (ps, s') → ((step s).1 = .ok none ∧ ps = []) ∨
      ∃ x ps', (step s).1 = .ok (some x) ∧ take n (step s).2 = .ok (ps', s') ∧ ps = x :: ps')
    (P : σ → Prop) (hP : ∀ s, P s → P (step s).2) (hn : ∀ s, P s → (step s).1 = .ok none → done (step s).2)
    (hd : ∀ s, done s → (step s).1 = .ok none ∧ done (step s).2) (n : Nat) :
    ∀ s ps s', P s → take n s = .ok (ps, s') →
      results step n s = ps.map (fun x => .ok (some x)) ++ List.replicate (n - ps.length) (.ok none) := by
  induction n with
  | zero => intro s ps s' _ h; rw [h0] at h; cases h; rfl
  | succ n ih =>
    intro s ps s' hs h
    rcases h1 n s ps s' h with ⟨hq, rfl⟩ | ⟨x, ps', hq, ht, rfl⟩
    · rw [results, hq, results_done hd n _ (hn s hs hq)]; rfl
    · rw [results, hq, ih _ _ _ (hP s hs) ht]; simp

end

/-- C128 for one kind of iterator: `next`, called any number of times, never returns anything but `None` after a `None`; and if `take n`
collects `ps`, then the results of `n` calls are `ps`, followed by `None`s only. -/
def IsFused {α σ : Type} (step : σ → Res (Option α) × σ) (take : Nat → σ → Res (List α × σ)) (s : σ) : Prop :=
  ∀ n, Fused (results step n s) ∧
    ∀ ps s', take n s = .ok (ps, s') →
      results step n s = ps.map (fun x => .ok (some x)) ++ List.replicate (n - ps.length) (.ok none)

theorem isFused {α σ : Type} {step : σ → Res (Option α) × σ} {take : Nat → σ → Res (List α × σ)}
    (h0 : ∀ s, take 0 s = .ok ([], s))
    (h1 : ∀ n s ps s', take (n + 1) s = .ok (ps, s') → ((step s).1 = .ok none ∧ ps = []) ∨
      ∃ x ps', (step s).1 = .ok (some x) ∧ take n (step s).2 = .ok (ps', s') ∧ ps = x :: ps')
    (P done : σ → Prop) (hP : ∀ s, P s → P (step s).2) (hn : ∀ s, P s → (step s).1 = .ok none → done (step s).2)
    (hd : ∀ s, done s → (step s).1 = .ok none ∧ done (step s).2) {s : σ} (hs : P s) : IsFused step take s :=
  fun n => ⟨results_fused P hP hn hd n s hs, fun ps s' h => results_take h0 h1 P hP hn hd n s ps s' hs h⟩

/-- for an iterator whose `next` returns the new state with the item -/
theorem isFused_of {α σ : Type} {next : σ → Res (Option (α × σ))} {none' p : σ → σ} {take : Nat → σ → Res (List α × σ)}
    (done : σ → Prop) (h0 : ∀ s, take 0 s = .ok ([], s))
    (h1 : ∀ n s, take (n + 1) s = next s >>= fun o => match o with
      | none => .ok ([], none' s)
      | some (x, s') => take n s' >>= fun q => .ok (x :: q.1, q.2))
    (hn : ∀ s, next s = .ok none → done (none' s)) (hd : ∀ s, done s → next s = .ok none) (s : σ) :
    IsFused (fun s => stepOf (none' s) (p s) (next s)) take s := by
  refine isFused h0 ?_ (fun _ => True) done (fun _ _ => trivial) ?_ ?_ trivial
  · intro n s ps s' h
    rw [h1] at h
    match e : next s with
    | .error _ => rw [e] at h; cases h
    | .ok none => rw [e] at h; cases h; exact .inl ⟨rfl, rfl⟩
    | .ok (some (x, s1)) =>
      rw [e] at h
      match e' : take n s1 with
      | .error _ => simp only [bind, Except.bind, e'] at h; cases h
      | .ok (qs, s2) =>
        simp only [bind, Except.bind, e'] at h
        cases h
        exact .inr ⟨x, qs, rfl, by simp only [stepOf, e'], rfl⟩
  · intro s _ h
    match e : next s with
    | .error _ => rw [e] at h; cases h
    | .ok none => exact hn s e
    | .ok (some (x, s1)) => rw [e] at h; cases h
  · intro s h
    have e := hd s h
    simp only [e, stepOf]
    exact ⟨trivial, hn s e⟩

/-- C128, the iterators over one side of a map -/
theorem C128_single {T E : Type} (value : E → T) (es : List E) (n : Nat) :
    results (singleStep value) n es = (es.take n).map (fun e => .ok (some (value e))) ++ List.replicate (n - es.length) (.ok none) := by
  induction n generalizing es with
  | zero => simp [results]
  | succ n ih =>
    cases es with
    | nil => simp [results, singleStep, ih, List.replicate_succ]
    | cons e es => simp [results, singleStep, ih]

example : results (singleStep (fun n : Nat => 10 * n)) 4 [7, 5] = [.ok (some 70), .ok (some 50), .ok none, .ok none] := C128_single _ _ _

namespace CycleMap
variable [RawImpl] {L R : Type} [BEq L] [BEq R]

/-- C128, `CycleMap::iter` -/
theorem C128_iter (m : CycleMap L R) (it : Iter L) : IsFused (Iter.step m) (Iter.take m) it := by
  refine isFused_of (next := fun it => Iter.next it m) (none' := id) (fun it => it.todo = []) (fun _ => rfl) (fun n it => ?_) ?_ ?_ it
  · rw [Iter.take]; congr; funext o; cases o <;> rfl
  · rintro ⟨_ | ⟨l, rest⟩⟩ h
    · rfl
    · simp only [Iter.next] at h
      split at h <;> cases h
  · rintro ⟨_⟩ rfl; rfl

/-- C128, `CycleMap::drain` -/
theorem C128_drain (it : DrainIter L R) : IsFused DrainIter.step DrainIter.take it := by
  refine isFused_of (next := DrainIter.next) (none' := id) (fun it => it.todo = []) (fun _ => rfl) (fun n it => ?_) ?_ ?_ it
  · rw [DrainIter.take]; congr; funext o; cases o <;> rfl
  · rintro ⟨_ | ⟨l, rest⟩, right⟩ h
    · rfl
    · simp only [DrainIter.next] at h
      split at h <;> cases h
  · rintro ⟨_⟩ rfl; rfl

theorem nextB_end [BucketImpl] {σ : Type} {f : σ → L → R → Option Bool × σ} {left right} : ∀ {todo : List Nat} {st : σ} {it : DrainFilterB σ L R},
    DrainFilterB.nextB f left right todo st = some (.done, it) → it.todo = []
  | [], st, it, h => by cases h; rfl
  | i :: rest, st, it, h => by
    simp only [DrainFilterB.nextB, Option.bind_eq_bind, Option.bind_eq_some_iff] at h
    obtain ⟨l, -, h⟩ := h
    split at h
    · cases h
    · obtain ⟨r, -, h⟩ := Option.bind_eq_some_iff.1 h
      split at h
      · cases h
      · obtain ⟨_, -, h⟩ := Option.bind_eq_some_iff.1 h
        obtain ⟨_, -, h⟩ := Option.bind_eq_some_iff.1 h
        cases h
      · exact nextB_end h

/-- C128, `CycleMap::drain_filter`, bucket by bucket, with a closure that may panic; that no call is undefined behaviour is C124. -/
theorem C128_drainFilter [BucketImpl] {σ : Type} (f : σ → L → R → Option Bool × σ) (n : Nat) (it it' : DrainFilterB σ L R) (os : List (Next L R))
    (h : DrainFilterB.calls f n it = some (os, it')) (a b : List (Next L R)) (e : os = a ++ .done :: b) : ∀ o ∈ b, o = .done := by
  have hd : ∀ n (it it' : DrainFilterB σ L R) os, it.todo = [] → DrainFilterB.calls f n it = some (os, it') → ∀ o ∈ os, o = .done := by
    intro n
    induction n with
    | zero => intro it it' os _ h; cases h; simp
    | succ n ih =>
      intro it it' os ht h
      simp only [DrainFilterB.calls, DrainFilterB.next, ht, DrainFilterB.nextB, Option.bind_eq_bind, Option.bind_some] at h
      obtain ⟨⟨os', it1⟩, h1, h⟩ := Option.bind_eq_some_iff.1 h
      cases h
      intro o ho
      rcases List.mem_cons.1 ho with rfl | ho
      · rfl
      · exact ih _ _ _ rfl h1 o ho
  induction n generalizing it os a with
  | zero => cases h; simp at e
  | succ n ih =>
    obtain ⟨⟨o, it1⟩, h1, h⟩ := Option.bind_eq_some_iff.1 h
    obtain ⟨⟨os', it2⟩, h2, h⟩ := Option.bind_eq_some_iff.1 h
    cases h
    cases a with
    | nil =>
      simp only [List.nil_append, List.cons.injEq] at e
      obtain ⟨rfl, rfl⟩ := e
      exact hd n it1 _ _ (nextB_end h1) h2
    | cons x a =>
      simp only [List.cons_append, List.cons.injEq] at e
      exact ih _ _ h2 a e.2

open Demo in
/-- five calls of `next` on an iterator over three pairs -/
example [LawfulRaw] : ∃ ps : List (Nat × Nat), ps.Perm [(3, 30), (2, 20), (1, 10)] ∧
    results (Iter.step demo) 5 demo.iter = ps.map (fun p => .ok (some p)) ++ [.ok none, .ok none] := by
  obtain ⟨ps, hp, -, -, ht⟩ := C126_pretty demo_reachable demo_shows toString toString
  obtain ⟨it, ht, -⟩ := ht 5
  have hl : ps.length = 3 := hp.length_eq
  refine ⟨ps, hp, ?_⟩
  rw [(C128_iter demo demo.iter 5).2 _ _ ht, List.take_of_length_le (by omega), hl]
  rfl

end CycleMap

namespace PartialMap
variable [RawImpl] {L R : Type} [BEq L] [BEq R]

/-- C128, `PartialCycleMap::iter` -/
theorem C128_iter (m : PartialMap L R) (it : Iter L) : IsFused (Iter.step m) (fun n it => .ok (Iter.take m n it)) it := by
  refine isFused_of (next := fun it => .ok (Iter.next it m)) (none' := id) (p := id) (fun it => it.todo = []) (fun _ => rfl) (fun n it => ?_) ?_ ?_ it
  · rw [Iter.take]; cases Iter.next it m <;> rfl
  · rintro ⟨_ | ⟨l, rest⟩⟩ h
    · rfl
    · cases h
  · rintro ⟨_⟩ rfl; rfl

theorem nextR_none {todoR : List (MappingPair R)} {o : OptionalPair L R × UnpairedIter L R} (h : UnpairedIter.nextR todoR = some o) : todoR ≠ [] := by
  rintro rfl; cases h

/-- C128, `PartialCycleMap::iter_unpaired` -/
theorem C128_iterUnpaired (it : UnpairedIter L R) : IsFused UnpairedIter.step (fun n it => .ok (UnpairedIter.take n it)) it := by
  refine isFused_of (next := fun it => .ok (UnpairedIter.next it.todoR it.todoL)) (none' := fun _ => ⟨[], []⟩) (p := id)
    (fun it => it.todoL = [] ∧ it.todoR = []) (fun _ => rfl) (fun n it => ?_) ?_ ?_ it
  · rw [UnpairedIter.take]; cases UnpairedIter.next it.todoR it.todoL <;> rfl
  · intro _ _; exact ⟨rfl, rfl⟩
  · rintro ⟨_, _⟩ ⟨rfl, rfl⟩; rfl

/-- C128, `PartialCycleMap::drain` -/
theorem C128_drain [LawfulRaw] (it : DrainIter L R) : IsFused DrainIter.step DrainIter.take it := by
  refine isFused (fun _ => rfl) ?_ (fun _ => True) (fun it => it.todo = [] ∧ it.right.toList = []) (fun _ _ => trivial) ?_ ?_ trivial
  · intro n s ps s' h
    rw [DrainIter.take] at h
    match e : s.next with
    | .error _ => rw [e] at h; cases h
    | .ok (none, s1) => rw [e] at h; cases h; exact .inl ⟨by simp only [DrainIter.step, e], rfl⟩
    | .ok (some x, s1) =>
      rw [e] at h
      match e' : DrainIter.take n s1 with
      | .error _ => simp only [bind, Except.bind, e'] at h; cases h
      | .ok (qs, s2) =>
        simp only [bind, Except.bind, e'] at h
        cases h
        exact .inr ⟨x, qs, by simp only [DrainIter.step, e], by simpa only [DrainIter.step, e] using e', rfl⟩
  · rintro ⟨_ | ⟨l, rest⟩, right⟩ - h
    · exact ⟨rfl, by simp [DrainIter.step, DrainIter.next, RawTable.toList, RawTable.clear_entries]⟩
    · simp only [DrainIter.step, DrainIter.next] at h
      split at h
      · cases h
      · rename_i e; split at e
        · split at e <;> cases e; cases h
        · cases e; cases h
  · rintro ⟨_, right⟩ ⟨rfl, h⟩
    change right.toList = [] at h
    refine ⟨by simp [DrainIter.step, DrainIter.next, h], rfl, ?_⟩
    simp [DrainIter.step, DrainIter.next, RawTable.toList, RawTable.clear_entries]

theorem nextLB_end [BucketImpl] {σ : Type} {f : σ → OptionalPair L R → Option Bool × σ} {left right} : ∀ {todo : List Nat} {st : σ} {q},
    DrainFilterB.nextLB f left right todo st = some (.done, q) → q.1 = []
  | [], st, q, h => by cases h; rfl
  | i :: rest, st, q, h => by
    simp only [DrainFilterB.nextLB, Option.bind_eq_bind, Option.bind_eq_some_iff] at h
    obtain ⟨l, -, h⟩ := h
    split at h
    · split at h
      · cases h
      · obtain ⟨r, -, h⟩ := Option.bind_eq_some_iff.1 h
        split at h
        · cases h
        · obtain ⟨_, -, h⟩ := Option.bind_eq_some_iff.1 h
          obtain ⟨_, -, h⟩ := Option.bind_eq_some_iff.1 h
          cases h
        · exact nextLB_end h
    · split at h
      · cases h
      · obtain ⟨_, -, h⟩ := Option.bind_eq_some_iff.1 h
        cases h
      · exact nextLB_end h

theorem nextRB_end [BucketImpl] {σ : Type} {f : σ → OptionalPair L R → Option Bool × σ} {right} : ∀ {todo : List Nat} {st : σ} {q},
    DrainFilterB.nextRB (L := L) f right todo st = some (.done, q) → q.1 = []
  | [], st, q, h => by cases h; rfl
  | i :: rest, st, q, h => by
    simp only [DrainFilterB.nextRB, Option.bind_eq_bind, Option.bind_eq_some_iff] at h
    obtain ⟨l, -, h⟩ := h
    split at h
    · cases h
    · obtain ⟨_, -, h⟩ := Option.bind_eq_some_iff.1 h
      cases h
    · exact nextRB_end h

/-- C128, `PartialCycleMap::drain_filter`, bucket by bucket, with a closure that may panic; that no call is undefined behaviour is C124. -/
theorem C128_drainFilter [BucketImpl] {σ : Type} (f : σ → OptionalPair L R → Option Bool × σ) (n : Nat) (it it' : DrainFilterB σ L R)
    (os : List (Next L R)) (h : DrainFilterB.calls f n it = some (os, it')) (a b : List (Next L R)) (e : os = a ++ .done :: b) :
    ∀ o ∈ b, o = .done := by
  have hd : ∀ n (it it' : DrainFilterB σ L R) os, it.todoL = [] → it.todoR = [] → it.reset = false →
      DrainFilterB.calls f n it = some (os, it') → ∀ o ∈ os, o = .done := by
    intro n
    induction n with
    | zero => intro it it' os _ _ _ h; cases h; simp
    | succ n ih =>
      intro it it' os ht hr hs h
      simp only [DrainFilterB.calls, DrainFilterB.next, ht, hr, hs, DrainFilterB.nextLB, DrainFilterB.nextRB, Option.bind_eq_bind,
        Option.bind_some, Bool.false_eq_true, if_false] at h
      obtain ⟨⟨os', it1⟩, h1, h⟩ := Option.bind_eq_some_iff.1 h
      cases h
      intro o ho
      rcases List.mem_cons.1 ho with rfl | ho
      · rfl
      · exact ih _ _ _ rfl rfl rfl h1 o ho
  induction n generalizing it os a with
  | zero => cases h; simp at e
  | succ n ih =>
    obtain ⟨⟨o, it1⟩, h1, h⟩ := Option.bind_eq_some_iff.1 h
    obtain ⟨⟨os', it2⟩, h2, h⟩ := Option.bind_eq_some_iff.1 h
    cases h
    cases a with
    | nil =>
      simp only [List.nil_append, List.cons.injEq] at e
      obtain ⟨rfl, rfl⟩ := e
      have : it1.todoL = [] ∧ it1.todoR = [] ∧ it1.reset = false := by
        simp only [DrainFilterB.next, Option.bind_eq_bind] at h1
        obtain ⟨q, hq, h1⟩ := Option.bind_eq_some_iff.1 h1
        split at h1
        · obtain ⟨q', hq', h1⟩ := Option.bind_eq_some_iff.1 h1
          obtain ⟨o', q'⟩ := q'
          cases h1
          exact ⟨nextLB_end hq, nextRB_end hq', rfl⟩
        · rename_i hn
          cases h1
          exact (hn rfl).elim
      exact hd n it1 _ _ this.1 this.2.1 this.2.2 h2
    | cons x a =>
      simp only [List.cons_append, List.cons.injEq] at e
      exact ih _ _ h2 a e.2

theorem dropWhile_subset {α : Type} (p : α → Bool) (l : List α) : ∀ x ∈ l.dropWhile p, x ∈ l :=
  fun _ h => (List.dropWhile_sublist p).subset h

theorem getViaHashesAndId_self [LawfulRaw] {m : PartialMap L R} (hs : ∀ e ∈ m.left.entries, e.1 = m.hb.hl e.2.value) {l : MappingPair L}
    (hl : l ∈ m.left.toList) {hash : UInt64} (h : l.hash = some hash) : m.getViaHashesAndId (m.hb.hl l.value) hash l.id ≠ .ok none := by
  obtain ⟨e, he, rfl⟩ := List.mem_map.1 hl
  have hf := LawfulRaw.find_complete m.left (m.hb.hl e.2.value) (hashAndId hash e.2.id) e he (hs e he) (by simp [hashAndId, h])
  intro h
  rw [getViaHashesAndId, RawTable.get] at h
  match hi : RawImpl.find m.left (m.hb.hl e.2.value) (hashAndId hash e.2.id) with
  | none => exact hf hi
  | some i =>
    obtain ⟨e', h', -⟩ := LawfulRaw.find_sound _ _ _ _ hi
    simp only [hi, h', Option.bind_some, Option.map_some] at h
    split at h <;> cases h

theorem PairedIter.next_spec [LawfulRaw] {m : PartialMap L R} (hs : ∀ e ∈ m.left.entries, e.1 = m.hb.hl e.2.value) :
    ∀ todo : List (MappingPair L), (∀ l ∈ todo, l ∈ m.left.toList) →
      (∀ o rest, PairedIter.next m todo = .ok (o, rest) → (o = none → rest = []) ∧ ∀ l ∈ rest, l ∈ todo)
  | [], _, o, rest, e => by cases e; simp
  | l :: todo, h, o, rest, e => by
    rw [PairedIter.next] at e
    split at e
    · have := PairedIter.next_spec hs todo (fun _ h' => h _ (.tail _ h')) o rest e
      exact ⟨this.1, fun _ h' => .tail _ (this.2 _ h')⟩
    · rename_i hash hh
      have hg := getViaHashesAndId_self hs (h l (.head _)) hh
      match eg : m.getViaHashesAndId (m.hb.hl l.value) hash l.id with
      | .error _ => rw [eg] at e; cases e
      | .ok none => exact absurd eg hg
      | .ok (some p) =>
        rw [eg] at e; cases e
        exact ⟨nofun, fun _ h' => .tail _ h'⟩

/-- C128, `PartialCycleMap::iter_paired`.  Its `next` would return `None` in the middle if a left item were not found under its own hash; in
every history all items are stored under their own hash (C95), also in maps that are broken. -/
theorem C128_iterPaired [LawfulRaw] [EquivBEq L] [EquivBEq R] {m : PartialMap L R} (n : Nat) (hb : BuildHasher L R) (ops : List (Op L R))
    (os : List (Out L R)) (hc : LawfulClones ops) (h : (withCapacityAndHasher n hb).run ops = .ok (os, m)) :
    IsFused (PairedIter.step m) (PairedIter.take m) m.iterPaired := by
  have hb' : m.hb = hb := C96_hasher n hb ops os hc h
  have hs : ∀ e ∈ m.left.entries, e.1 = m.hb.hl e.2.value := by rw [hb']; exact (C95_items n hb ops os hc h).1
  refine isFused (fun _ => rfl) ?_ (fun it => ∀ l ∈ it.todo, l ∈ m.left.toList) (fun it => it.todo = []) ?_ ?_ ?_ (fun _ h => h)
  · intro n s ps s' h
    rw [PairedIter.take] at h
    match e : PairedIter.next m s.todo with
    | .error _ => rw [e] at h; cases h
    | .ok (none, s1) => rw [e] at h; cases h; exact .inl ⟨by simp only [PairedIter.step, e], rfl⟩
    | .ok (some x, s1) =>
      rw [e] at h
      match e' : PairedIter.take m n ⟨s1⟩ with
      | .error _ => simp only [bind, Except.bind, e'] at h; cases h
      | .ok (qs, s2) =>
        simp only [bind, Except.bind, e'] at h
        cases h
        exact .inr ⟨x, qs, by simp only [PairedIter.step, e], by simpa only [PairedIter.step, e] using e', rfl⟩
  · intro it hi l hl
    simp only [PairedIter.step] at hl
    split at hl
    · exact hi _ (dropWhile_subset _ _ _ (List.mem_of_mem_tail hl))
    · rename_i e
      exact hi _ ((PairedIter.next_spec hs _ hi _ _ e).2 _ hl)
  · intro it hi h
    simp only [PairedIter.step] at h ⊢
    match e : PairedIter.next m it.todo with
    | .error _ => rw [e] at h; cases h
    | .ok (o, rest) =>
      rw [e] at h
      exact (PairedIter.next_spec hs _ hi _ _ e).1 (by injection h)
  · rintro ⟨_⟩ rfl
    exact ⟨rfl, rfl⟩

open Demo in
/-- an iterator over a broken map: `next` panics, then goes on, then returns `None` for ever -/
example : letI := swissRaw 4
    ∃ os m, (withCapacityAndHasher 4 spreadHash).run breaking = .ok (os, m) ∧ IsFused (PairedIter.step m) (PairedIter.take m) m.iterPaired ∧
      (results (PairedIter.step m) 6 m.iterPaired).map (fun r => match r with | .ok (some _) => 1 | .ok none => 0 | .error _ => 2) =
        [2, 1, 1, 1, 0, 0] := by
  let _ := swissRaw 4; have := swissRaw_lawful 4
  obtain ⟨x, e, h⟩ := ran (e := (withCapacityAndHasher 4 spreadHash).run breaking)
    (p := fun x => (results (PairedIter.step x.2) 6 x.2.iterPaired).map (fun r => match r with | .ok (some _) => 1 | .ok none => 0 | .error _ => 2) ==
      [2, 1, 1, 1, 0, 0])
    (by decide +kernel)
  exact ⟨_, _, e, C128_iterPaired _ _ _ _ (fun cl cr h => by simp [breaking] at h) e, by simpa using h⟩

end PartialMap

namespace GroupMap
variable [RawImpl] {L R : Type} [BEq L] [BEq R]

/-- C128, `GroupMap::iter` -/
theorem C128_iter (m : GroupMap L R) (it : Iter R) : IsFused (Iter.step m) (Iter.take m) it := by
  refine isFused_of (next := fun it => Iter.next it m) (none' := id) (fun it => it.todo = [] ∧ it.cur.getD [] = [])
    (fun _ => rfl) (fun n it => ?_) ?_ ?_ it
  · rw [Iter.take]; congr; funext o; cases o <;> rfl
  · rintro ⟨_ | ⟨r, rest⟩, _ | _ | ⟨c, cs⟩⟩ h
    · exact ⟨rfl, rfl⟩
    · exact ⟨rfl, rfl⟩
    · simp only [Iter.next] at h
      split at h
      · cases h
      · split at h <;> cases h
    · simp only [Iter.next, Iter.nextRight] at h
      split at h <;> cases h
    · simp only [Iter.next, Iter.nextRight] at h
      split at h <;> cases h
    · simp only [Iter.next] at h
      split at h
      · cases h
      · split at h <;> cases h
  · rintro ⟨_, _ | _ | ⟨c, cs⟩⟩ ⟨rfl, h⟩
    · rfl
    · rfl
    · cases h

/-- C128, `GroupMap::iter_paired` -/
theorem C128_iterPaired (m : GroupMap L R) (it : PairedIter L) : IsFused (PairedIter.step m) (PairedIter.take m) it := by
  refine isFused_of (next := fun it => PairedIter.next it m) (none' := id) (fun it => it.todo = []) (fun _ => rfl) (fun n it => ?_) ?_ ?_ it
  · rw [PairedIter.take]; congr; funext o; cases o <;> rfl
  · rintro ⟨_ | ⟨l, rest⟩⟩ h
    · rfl
    · simp only [PairedIter.next] at h
      split at h <;> cases h
  · rintro ⟨_⟩ rfl; rfl

/-- C128, `GroupMap::iter_unpaired` -/
theorem C128_iterUnpaired (it : UnpairedIter R) : IsFused UnpairedIter.step (fun n it => .ok (UnpairedIter.take n it)) it := by
  refine isFused_of (next := fun it => .ok (UnpairedIter.next it.todo)) (none' := fun _ => ⟨[]⟩) (p := id)
    (fun it => it.todo = []) (fun _ => rfl) (fun n it => ?_) ?_ ?_ it
  · rw [UnpairedIter.take]; cases UnpairedIter.next it.todo <;> rfl
  · intro _ _; rfl
  · rintro ⟨_⟩ rfl; rfl

/-- C128, `GroupMap::get_left_iter` -/
theorem C128_pairIter (m : GroupMap L R) (it : PairIter) : IsFused (PairIter.step m) (PairIter.take m) it := by
  refine isFused_of (next := fun it => PairIter.next it m) (none' := id) (fun it => it.todo = []) (fun _ => rfl) (fun n it => ?_) ?_ ?_ it
  · rw [PairIter.take]; congr; funext o; cases o <;> rfl
  · rintro ⟨_ | ⟨l, rest⟩⟩ h
    · rfl
    · simp only [PairIter.next] at h
      split at h <;> cases h
  · rintro ⟨_⟩ rfl; rfl

open Demo in
/-- an iterator over a broken map (the pair of 1 and 10 was inserted twice) -/
example : letI := tidyRaw
    ∃ os m, (withCapacityAndHasher 0 spreadHash).run [.insert 1 10, .insert 2 10, .insert 1 10, .insertRight 30] = .ok (os, m) ∧
      results (Iter.step m) 4 m.iter = [.ok (some (none, 30)), .ok (some (some 2, 10)), .ok none, .ok none] := by
  let _ := tidyRaw
  obtain ⟨x, e, h⟩ := ran
    (e := (withCapacityAndHasher 0 spreadHash).run [.insert 1 10, .insert 2 10, .insert 1 10, .insertRight 30])
    (p := fun x => (results (Iter.step x.2) 4 x.2.iter).map (·.toOption) == [some (some (none, 30)), some (some (some 2, 10)), some none, some none])
    (by decide +kernel)
  refine ⟨_, _, e, ?_⟩
  simp only [beq_iff_eq] at h
  match hr : results (Iter.step x.2) 4 x.2.iter with
  | [.ok a, .ok b, .ok c, .ok d] => rw [hr] at h; simp only [List.map, Except.toOption] at h; simp_all
  | [] | [_] | [_, _] | [_, _, _] | _ :: _ :: _ :: _ :: _ :: _ => rw [hr] at h; simp at h
  | [.error _, _, _, _] | [_, .error _, _, _] | [_, _, .error _, _] | [_, _, _, .error _] => rw [hr] at h; simp [Except.toOption] at h

end GroupMap
end Verif
