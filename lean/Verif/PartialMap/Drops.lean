import Verif.Drops
import Verif.PartialMap.Panics
/-
The calls of `PartialCycleMap` that drop items, with destructors that may panic (see `Verif/Drops.lean`).  The other calls
hand the items they remove to the caller.
-/
set_option linter.unusedSectionVars false
set_option linter.unusedSimpArgs false
namespace Verif.PartialMap
open PartialSpec OptionalPair
open CycleSpec (split)
open CycleMap (Ending split_perm bind_ok)

/-- the items of an entry, in the order in which they are dropped -/
def pieces {L R : Type} : OptionalPair L R → List (L ⊕ R)
  | neither => []
  | someLeft l => [.inl l]
  | someRight r => [.inr r]
  | someBoth l r => [.inl l, .inr r]

section
variable [RawImpl] {L R τ : Type} [BEq L] [BEq R]

/-- `clear` (1919-1922): `RawTable::clear` empties the table even if a destructor panics; the panic leaves the call -/
def clearD (m : PartialMap L R) (d : τ → L ⊕ R → Bool × τ) (t : τ) : Ending × τ × PartialMap L R :=
  match dropUntil d (m.left.toList.map fun x => .inl x.value) t with
  | (true, t) => (.panicked, t, { m with left := m.left.clear })
  | (false, t) =>
    match dropUntil d (m.right.toList.map fun x => .inr x.value) t with
    | (true, t) => (.panicked, t, { m with left := m.left.clear, right := m.right.clear })
    | (false, t) => (.returned, t, { m with left := m.left.clear, right := m.right.clear })

/-- one step of the second loop of `retain` (1453-1468): what is removed, and the map after it -/
def retainStep (m : PartialMap L R) : Option UInt64 × Option UInt64 × Nat → Res (OptionalPair L R × PartialMap L R)
  | (some l, some r, id) => .ok (m.removeViaHashesAndId l r id)
  | (some l, none, id) =>
    match m.left.removeEntry l (justId id) with
    | none => .ok (neither, m)
    | some (x, t) => .ok (someLeft x.value, { m with left := t })
  | (none, some r, id) =>
    match m.right.removeEntry r (justId id) with
    | none => .ok (neither, m)
    | some (x, t) => .ok (someRight x.value, { m with right := t })
  | (none, none, _) => .error .unreachable

/-- second loop of `retain` (1453-1468): what is removed is dropped at once; a panic leaves the loop -/
def retainDropD (m : PartialMap L R) (d : τ → L ⊕ R → Bool × τ) :
    List (Option UInt64 × Option UInt64 × Nat) → τ → Res (Ending × τ × PartialMap L R)
  | [], t => .ok (.returned, t, m)
  | k :: rest, t => do
    let (o, m) ← retainStep m k
    match dropAll d (pieces o) t with
    | (0, t) => retainDropD m d rest t
    | (n + 1, t) => return (endingOf (n + 1), t, m)

/-- `retain` (1434-1469) with destructors that may panic -/
def retainD {σ : Type} (m : PartialMap L R) (f : σ → OptionalPair L R → Bool × σ) (d : τ → L ⊕ R → Bool × τ) (st : σ) (t : τ) :
    Res (Ending × σ × τ × PartialMap L R) := do
  let (toDrop, st) ← retainScan m f m.iter.todo st
  let (e, t, m) ← retainDropD m d toDrop t
  return (e, st, t, m)

/-- second loop of `retain_paired` (1499-1501) -/
def retainPairedDropD (m : PartialMap L R) (d : τ → L ⊕ R → Bool × τ) : List (UInt64 × UInt64 × Nat) → τ → Ending × τ × PartialMap L R
  | [], t => (.returned, t, m)
  | (l, r, id) :: rest, t =>
    let (o, m) := m.removeViaHashesAndId l r id
    match dropAll d (pieces o) t with
    | (0, t) => retainPairedDropD m d rest t
    | (n + 1, t) => (endingOf (n + 1), t, m)

/-- `retain_paired` (1486-1502) with destructors that may panic -/
def retainPairedD {σ : Type} (m : PartialMap L R) (f : σ → L → R → Bool × σ) (d : τ → L ⊕ R → Bool × τ) (st : σ) (t : τ) :
    Res (Ending × σ × τ × PartialMap L R) := do
  let ps ← m.iterPairedList
  let (toDrop, st) ← retainPairedScan m f ps st
  let (e, t, m) := retainPairedDropD m d toDrop t
  return (e, st, t, m)

/-- second loop of `retain_unpaired` (1543-1556) -/
def retainUnpairedDropD (m : PartialMap L R) (d : τ → L ⊕ R → Bool × τ) :
    List (Option UInt64 × Option UInt64 × Nat) → τ → Res (Ending × τ × PartialMap L R)
  | [], t => .ok (.returned, t, m)
  | (some _, some _, _) :: _, _ => .error .unreachable
  | k :: rest, t => do
    let (o, m) ← retainStep m k
    match dropAll d (pieces o) t with
    | (0, t) => retainUnpairedDropD m d rest t
    | (n + 1, t) => return (endingOf (n + 1), t, m)

/-- `retain_unpaired` (1519-1557) with destructors that may panic -/
def retainUnpairedD {σ : Type} (m : PartialMap L R) (f : σ → OptionalPair L R → Bool × σ) (d : τ → L ⊕ R → Bool × τ) (st : σ) (t : τ) :
    Res (Ending × σ × τ × PartialMap L R) := do
  let (toDrop, st) ← retainUnpairedScan m f m.iterUnpairedList st
  let (e, t, m) ← retainUnpairedDropD m d toDrop t
  return (e, st, t, m)

/-- `Drop for DrainFilterIter` (2365-2378) and `Drop for ConsumeAllOnDrop` (2296-2300).  `unwinding`: a panic is being handled,
either because the iterator is dropped by one, or because dropping an item panicked: then the guard goes on
with the rest, and a further panic aborts.  A panic of the closure when none is being handled leaves the rest alone. -/
def DrainFilter.dropLoop {σ : Type} (f : σ → OptionalPair L R → Option Bool × σ) (d : τ → L ⊕ R → Bool × τ) :
    Nat → (unwinding : Bool) → DrainFilter σ L R → τ → Res (Ending × τ × DrainFilter σ L R)
  | 0, u, it, t => .ok (if u then .panicked else .returned, t, it)
  | n + 1, u, it, t => do
    match ← DrainFilter.nextP f it with
    | (.done, it) => return (if u then .panicked else .returned, t, it)
    | (.panic, it) => return (if u then .aborted else .panicked, t, it)
    | (.item p, it) =>
      match dropAll d (pieces p) t with
      | (0, t) => DrainFilter.dropLoop f d n u it t
      | (1, t) => if u then return (.aborted, t, it) else DrainFilter.dropLoop f d n true it t
      | (_, t) => return (.aborted, t, it)

/-- `drain_filter(f)` (1401-1418), at most `n` calls of `next`, then `Drop` — also when a `next` panicked -/
def drainFilterD {σ : Type} (m : PartialMap L R) (f : σ → OptionalPair L R → Option Bool × σ) (d : τ → L ⊕ R → Bool × τ)
    (st : σ) (t : τ) (n : Nat) : Res (Ending × List (OptionalPair L R) × σ × τ × PartialMap L R) := do
  let (ps, b, it) ← DrainFilter.takeP f n
    { keptL := [], todoL := m.left.entries, right := m.right, reset := true, keptR := [], todoR := [], st := st }
  let (e, t, it) ← DrainFilter.dropLoop f d (it.todoL.length + it.right.len + it.todoR.length + 1) b it t
  return (e, ps, it.st, t, { m with
    left := RawImpl.touch (.erase (stays m.left (it.keptL ++ it.todoL))) { m.left with entries := it.keptL ++ it.todoL },
    right := RawImpl.touch (.erase (stays it.right it.rightEntries)) { it.right with entries := it.rightEntries } })

/-- `Extend<OptionalPair<L, R>>` (1939-1962): what an insertion returns is dropped before the next entry is taken from the
iterator -/
def extendD (m : PartialMap L R) (d : τ → L ⊕ R → Bool × τ) : List (OptionalPair L R) → τ → Res (Ending × τ × PartialMap L R)
  | [], t => .ok (.returned, t, m)
  | x :: rest, t => do
    let (os, m) ← match x with
      | neither => .ok ([], m)
      | someLeft l => (m.insertLeft l).map fun (o, m) => ([o], m)
      | someRight r => (m.insertRight r).map fun (o, m) => ([o], m)
      | someBoth l r => (m.insert l r).map fun ((o, o'), m) => ([o, o'], m)
    match dropAll d (os.flatMap pieces) t with
    | (0, t) => extendD m d rest t
    | (n + 1, t) => return (endingOf (n + 1), t, m)

/-- `Extend<(L, R)>` (1925-1937) -/
def extendPairsD (m : PartialMap L R) (d : τ → L ⊕ R → Bool × τ) : List (L × R) → τ → Res (Ending × τ × PartialMap L R)
  | [], t => .ok (.returned, t, m)
  | (l, r) :: rest, t => do
    let ((o, o'), m) ← m.insert l r
    match dropAll d ([o, o'].flatMap pieces) t with
    | (0, t) => extendPairsD m d rest t
    | (n + 1, t) => return (endingOf (n + 1), t, m)

/-- destructors change nothing but how the call ends, unless the process is aborted -/
theorem dropLoop_of_takeP {σ : Type} {f : σ → OptionalPair L R → Option Bool × σ} (d : τ → L ⊕ R → Bool × τ) {n : Nat}
    {it it' : DrainFilter σ L R} {ps : List (OptionalPair L R)} {b : Bool} (h : DrainFilter.takeP f n it = .ok (ps, b, it'))
    (u : Bool) (t : τ) :
    ∃ e t' it'', DrainFilter.dropLoop f d n u it t = .ok (e, t', it'') ∧
      e = endingOf ((if u then 1 else 0) + (if b then 1 else 0) + (dropAll d (ps.flatMap pieces) t).1) ∧
      (e ≠ .aborted → it'' = it' ∧ t' = (dropAll d (ps.flatMap pieces) t).2) := by
  induction n generalizing it ps b u t with
  | zero =>
    cases h
    refine ⟨_, _, _, rfl, ?_, fun _ => ⟨rfl, rfl⟩⟩
    cases u <;> rfl
  | succ n ih =>
    rw [DrainFilter.takeP] at h
    obtain ⟨⟨o, it1⟩, h1, h⟩ := bind_ok h
    simp only [DrainFilter.dropLoop, h1, bind, Except.bind]
    cases o with
    | done =>
      cases h
      refine ⟨_, _, _, rfl, ?_, fun _ => ⟨rfl, rfl⟩⟩
      cases u <;> rfl
    | panic =>
      cases h
      refine ⟨_, _, _, rfl, ?_, fun _ => ⟨rfl, rfl⟩⟩
      cases u <;> rfl
    | item p =>
      obtain ⟨⟨ps', b', it2⟩, h2, h⟩ := bind_ok h
      cases h
      simp only [List.flatMap_cons, dropAll_append]
      rcases hk : dropAll d (pieces p) t with ⟨_ | _ | k, t1⟩
      · obtain ⟨e, t', it3, e1, e2, e3⟩ := ih h2 u t1
        refine ⟨e, t', it3, e1, ?_, e3⟩
        rw [e2]; simp
      · cases u with
        | true =>
          refine ⟨_, _, _, rfl, ?_, fun h => absurd rfl h⟩
          exact (endingOf_aborted (by simp only [if_true]; omega)).symm
        | false =>
          obtain ⟨e, t', it3, e1, e2, e3⟩ := ih h2 true t1
          refine ⟨e, t', it3, e1, ?_, e3⟩
          rw [e2]; congr 1; simp; omega
      · refine ⟨_, _, _, rfl, ?_, fun h => absurd rfl h⟩
        exact (endingOf_aborted (by omega)).symm

end

variable [RawImpl] [LawfulRaw] {L R τ : Type} [BEq L] [BEq R] [EquivBEq L] [EquivBEq R]
variable {m : PartialMap L R} {c : List (OptionalPair L R)}

theorem drainFilterD_refines {σ : Type} (h : Repr m c) (f : σ → OptionalPair L R → Option Bool × σ) (d : τ → L ⊕ R → Bool × τ)
    (s : σ) (t : τ) (n : Nat) (hsafe : ∀ s l r, someBoth l r ∈ c → (f s (someRight r)).1 ≠ some true) :
    ∃ (e e0 : Ending) (v1 w1 us v2 w2 ps dropped : List (OptionalPair L R)) (s' : σ) (t' : τ) (m' : PartialMap L R),
      (v1 ++ w1 ++ us).Perm c ∧ (∀ x ∈ v1 ++ w1, (leftOf x).isSome = true) ∧ (∀ x ∈ us, leftOf x = none) ∧
      (v2 ++ w2 ++ ((split (calm f) v1 s).2.1 ++ w1).filter fun e => (rightOf e).isNone).Perm
        ((split (calm f) v1 s).2.1 ++ w1 ++ us) ∧
      (∀ x ∈ v2 ++ w2, (rightOf x).isSome = true) ∧
      m.drainFilterD f d s t n = .ok (e, ps, s', t', m') ∧ ps.length ≤ n ∧
      (split (calm f) v1 s).1 ++ (split (calm fun s x => f s (asRight x)) v2 (split (calm f) v1 s).2.2).1.map asRight =
        ps ++ dropped ∧
      panicsOf e0 = panics f v1 s + panics (fun s x => f s (asRight x)) v2 (split (calm f) v1 s).2.2 ∧
      e = endingOf (panicsOf e0 + (dropAll d (dropped.flatMap pieces) t).1) ∧
      (e0 = .returned → w1 = [] ∧ w2 = [] ∧ ps = ((split (calm f) v1 s).1 ++
        (split (calm fun s x => f s (asRight x)) v2 (split (calm f) v1 s).2.2).1.map asRight).take n) ∧
      (e ≠ .aborted →
        s' = (split (calm fun s x => f s (asRight x)) v2 (split (calm f) v1 s).2.2).2.2 ∧
        t' = (dropAll d (dropped.flatMap pieces) t).2 ∧
        Repr m' ((split (calm fun s x => f s (asRight x)) v2 (split (calm f) v1 s).2.2).2.1 ++ w2 ++
          ((split (calm f) v1 s).2.1 ++ w1).filter fun e => (rightOf e).isNone)) := by
  obtain ⟨e0, v1, w1, us, v2, w2, ps, m', g1, g2, g3, g4, g5, g6, -, g8, g9, -, g11, g12, -, -, -, dr, b, it, b', it', t1, t2, t3⟩ :=
    drainFilterP_takes h f s n hsafe
  obtain ⟨e, t', it'', e1, e2, e3⟩ := dropLoop_of_takeP d t2 b t
  simp only [drainFilterP, t1, bind, Except.bind, t2, pure, Except.pure, Except.ok.injEq, Prod.mk.injEq, true_and] at g6
  obtain ⟨q1, q2, q3⟩ := g6
  have hn : panicsOf e0 = (if b then 1 else 0) + (if b' then 1 else 0) := by
    rw [← q1]; cases b <;> cases b' <;> rfl
  refine ⟨e, e0, v1, w1, us, v2, w2, ps, dr, it''.st, t', { m with
    left := RawImpl.touch (.erase (stays m.left (it''.keptL ++ it''.todoL))) { m.left with entries := it''.keptL ++ it''.todoL },
    right := RawImpl.touch (.erase (stays it''.right it''.rightEntries)) { it''.right with entries := it''.rightEntries } },
    g1, g2, g3, g4, g5, ?_, g8, t3, g11, ?_, g12, ?_⟩
  · simp only [drainFilterD, t1, bind, Except.bind, e1]; rfl
  · rw [hn]; exact e2
  · intro he
    obtain ⟨rfl, rfl⟩ := e3 he
    refine ⟨q2, rfl, ?_⟩
    rw [q3]; exact g9

/-- one step of the second loop, on a record of the map -/
theorem retainStep_rep {p : Rec L R} {ks : List (Rec L R)} (h : Rep m (p :: ks)) :
    ∃ m', m.retainStep (keyOf m.hb p) = .ok (p.e, m') ∧ Rep m' ks ∧ m'.hb = m.hb := by
  obtain ⟨e, i⟩ := p
  cases e with
  | neither => exact absurd rfl (h.nonempty ⟨neither, i⟩ (by simp))
  | someBoth a b =>
    obtain ⟨t1, e1, h1⟩ := RawTable.removeEntry_some (p := hashAndId (m.hb.hr b) i) (h := m.hb.hl a) (h.consL rfl) rfl
      (hashAndId_self _ _ _) (hidsL _ h.ids)
    obtain ⟨t2, e2, h2⟩ := RawTable.removeEntry_some (p := hashAndId (m.hb.hl a) i) (h := m.hb.hr b) (h.consR rfl) rfl
      (hashAndId_self _ _ _) (hidsR _ h.ids)
    exact ⟨_, by simp only [keyOf, leftOf, rightOf, Option.map_some, retainStep, removeViaHashesAndId, e1, e2]; rfl,
      h.tail h1 h2, rfl⟩
  | someLeft a =>
    obtain ⟨t, e1, h1⟩ := removeLoneL_rep h
    exact ⟨_, by simp only [keyOf, leftOf, rightOf, Option.map_some, Option.map_none, retainStep, e1], h1, rfl⟩
  | someRight b =>
    obtain ⟨t, e1, h1⟩ := removeLoneR_rep h
    exact ⟨_, by simp only [keyOf, leftOf, rightOf, Option.map_some, Option.map_none, retainStep, e1], h1, rfl⟩

theorem retainDropD_rep (d : τ → L ⊕ R → Bool × τ) {ps ks : List (Rec L R)} (h : Rep m (ps ++ ks)) (t : τ) {x}
    (hx : sweep d (fun p => pieces (Rec.e p)) ps t = x) :
    ∃ m', m.retainDropD d (ps.map (keyOf m.hb)) t = .ok (endingOf x.1, x.2.2, m') ∧ Rep m' (x.2.1 ++ ks) := by
  subst hx
  induction ps generalizing m t with
  | nil => exact ⟨m, rfl, h⟩
  | cons p ps ih =>
    obtain ⟨m1, e1, h1, hb1⟩ := retainStep_rep h
    simp only [List.map_cons, retainDropD, e1, bind, Except.bind, sweep]
    rcases hk : dropAll d (pieces p.e) t with ⟨_ | k, t1⟩
    · obtain ⟨m2, e2, h2⟩ := ih h1 t1
      rw [hb1] at e2
      exact ⟨m2, e2, h2⟩
    · exact ⟨m1, rfl, h1⟩

theorem retainUnpairedDropD_rep (d : τ → L ⊕ R → Bool × τ) {ps ks : List (Rec L R)} (h : Rep m (ps ++ ks))
    (hs : ∀ q ∈ ps, isPair q.e = false) (t : τ) {x} (hx : sweep d (fun p => pieces (Rec.e p)) ps t = x) :
    ∃ m', m.retainUnpairedDropD d (ps.map (keyOf m.hb)) t = .ok (endingOf x.1, x.2.2, m') ∧ Rep m' (x.2.1 ++ ks) := by
  subst hx
  induction ps generalizing m t with
  | nil => exact ⟨m, rfl, h⟩
  | cons p ps ih =>
    obtain ⟨m1, e1, h1, hb1⟩ := retainStep_rep h
    have hps := hs p (by simp)
    have unf : ∀ rest, m.retainUnpairedDropD d (keyOf m.hb p :: rest) t =
        (do let (o, m) ← retainStep m (keyOf m.hb p)
            match dropAll d (pieces o) t with
            | (0, t) => retainUnpairedDropD m d rest t
            | (n + 1, t) => return (endingOf (n + 1), t, m)) := by
      intro rest
      have hne := h.nonempty p (by simp)
      obtain ⟨e, i⟩ := p
      cases e with
      | neither => exact absurd rfl hne
      | someBoth => cases hps
      | someLeft => rfl
      | someRight => rfl
    simp only [List.map_cons, unf, e1, bind, Except.bind, sweep]
    rcases hk : dropAll d (pieces p.e) t with ⟨_ | k, t1⟩
    · obtain ⟨m2, e2, h2⟩ := ih h1 (fun x hx => hs x (List.mem_cons_of_mem _ hx)) t1
      rw [hb1] at e2
      exact ⟨m2, e2, h2⟩
    · exact ⟨m1, rfl, h1⟩

theorem retainPairedDropD_rep (d : τ → L ⊕ R → Bool × τ) {ps ks : List (Rec L R)} (h : Rep m (ps ++ ks))
    (hs : ∀ q ∈ ps, isPair q.e = true) (t : τ) {x} (hx : sweep d (fun p => pieces (Rec.e p)) ps t = x) :
    ∃ m', m.retainPairedDropD d ((recPairs ps).map fun p => (m.hb.hl p.1, m.hb.hr p.2.1, p.2.2)) t = (endingOf x.1, x.2.2, m') ∧
      Rep m' (x.2.1 ++ ks) := by
  subst hx
  induction ps generalizing m t with
  | nil => exact ⟨m, rfl, h⟩
  | cons p ps ih =>
    obtain ⟨m1, e1, h1, hb1⟩ := retainStep_rep h
    have hps := hs p (by simp)
    have ih := fun t => ih h1 (fun x hx => hs x (List.mem_cons_of_mem _ hx)) t
    obtain ⟨e, i⟩ := p
    cases e with
    | neither => cases hps
    | someLeft => cases hps
    | someRight => cases hps
    | someBoth a b =>
      have e1 : m.removeViaHashesAndId (m.hb.hl a) (m.hb.hr b) i = (someBoth a b, m1) := Except.ok.inj e1
      have hrec : recPairs (⟨someBoth a b, i⟩ :: ps) = (a, b, i) :: recPairs ps := rfl
      simp only [hrec, List.map_cons, retainPairedDropD, e1, sweep]
      rcases hk : dropAll d (pieces (someBoth a b)) t with ⟨_ | k, t1⟩
      · obtain ⟨m2, e2, h2⟩ := ih t1
        rw [hb1] at e2
        exact ⟨m2, e2, h2⟩
      · exact ⟨m1, rfl, h1⟩

theorem retainD_refines {σ : Type} (h : Repr m c) (f : σ → OptionalPair L R → Bool × σ) (d : τ → L ⊕ R → Bool × τ) (s : σ) (t : τ) :
    ∃ (v us : List (OptionalPair L R)) (x : Nat × List (OptionalPair L R) × τ) (m' : PartialMap L R),
      (v ++ us).Perm c ∧ (∀ e ∈ v, (leftOf e).isSome = true) ∧ (∀ e ∈ us, leftOf e = none) ∧
      sweep d pieces (split f v s).1 t = x ∧ m.retainD f d s t = .ok (endingOf x.1, (split f v s).2.2, x.2.2, m') ∧
      Repr m' (x.2.1 ++ ((split f v s).2.1 ++ us)) := by
  obtain ⟨qs, us, hp, hr, he, hs, hn⟩ := h.ordered
  have e1 := retainScan_eq hr f s (fun q hq => List.mem_append_left _ hq) hs
  obtain ⟨m', e2, h2⟩ := retainDropD_rep d (ps := (split (onE f) qs s).1) (ks := (split (onE f) qs s).2.1 ++ us)
    (hr.perm (by rw [← List.append_assoc]; exact (split_perm (onE f) qs s).append_right _)) t rfl
  have hm : split f (qs.map Rec.e) s = ((split (onE f) qs s).1.map Rec.e, (split (onE f) qs s).2.1.map Rec.e,
      (split (onE f) qs s).2.2) := split_mapped f Rec.e qs s
  refine ⟨qs.map Rec.e, us.map Rec.e, _, m', by simpa using hp, ?_, ?_, rfl, ?_, ?_⟩
  · intro e he'; obtain ⟨q, hq, rfl⟩ := List.mem_map.1 he'; exact hs q hq
  · intro e he'; obtain ⟨q, hq, rfl⟩ := List.mem_map.1 he'; exact hn q hq
  · rw [hm, retainD, iter_todo he, e1]
    simp only [bind, Except.bind, e2, sweep_map]; rfl
  · rw [hm]
    simp only [sweep_map, ← List.map_append]; exact h2.repr

theorem retainUnpairedD_refines {σ : Type} (h : Repr m c) (f : σ → OptionalPair L R → Bool × σ) (d : τ → L ⊕ R → Bool × τ) (s : σ)
    (t : τ) :
    ∃ (v : List (OptionalPair L R)) (x : Nat × List (OptionalPair L R) × τ) (m' : PartialMap L R), v.Perm (c.filter fun e => !isPair e) ∧
      sweep d pieces (split f v s).1 t = x ∧ m.retainUnpairedD f d s t = .ok (endingOf x.1, (split f v s).2.2, x.2.2, m') ∧
      Repr m' (x.2.1 ++ ((split f v s).2.1 ++ c.filter isPair)) := by
  obtain ⟨qs, us, hr, hp, he, hs, hn⟩ := h.lones
  have e1 := retainUnpairedScan_eq hr f s (fun q hq => List.mem_append_left _ hq) hs
  have hsp := split_perm (onE f) qs s
  obtain ⟨m', e2, h2⟩ := retainUnpairedDropD_rep d (ps := (split (onE f) qs s).1) (ks := (split (onE f) qs s).2.1 ++ us)
    (hr.perm (by rw [← List.append_assoc]; exact hsp.append_right _)) (fun q hq => hs q (hsp.mem_iff.2 (List.mem_append_left _ hq))) t rfl
  have hm : split f (qs.map Rec.e) s = ((split (onE f) qs s).1.map Rec.e, (split (onE f) qs s).2.1.map Rec.e,
      (split (onE f) qs s).2.2) := split_mapped f Rec.e qs s
  have hfq : (qs.map Rec.e).filter isPair = [] := by
    rw [List.filter_eq_nil_iff]; intro e he'; obtain ⟨q, hq, rfl⟩ := List.mem_map.1 he'; simp [hs q hq]
  have hfu : (us.map Rec.e).filter isPair = us.map Rec.e := by
    rw [List.filter_eq_self]; intro e he'; obtain ⟨q, hq, rfl⟩ := List.mem_map.1 he'; exact hn q hq
  refine ⟨qs.map Rec.e, _, m', by rw [← he]; exact iterUnpairedList_refines h, rfl, ?_, ?_⟩
  · rw [hm, retainUnpairedD, he, e1]
    simp only [bind, Except.bind, e2, sweep_map]; rfl
  · rw [hm]
    have h4 := h2.repr
    rw [List.map_append, List.map_append] at h4
    simp only [sweep_map]
    refine h4.perm (List.Perm.append_left _ (List.Perm.append_left _ ?_))
    have := hp.filter isPair
    rw [List.map_append, List.filter_append, hfq, hfu] at this
    exact this

theorem retainPairedD_refines {σ : Type} (h : Repr m c) (f : σ → L → R → Bool × σ) (d : τ → L ⊕ R → Bool × τ) (s : σ) (t : τ) :
    ∃ (v : List (L × R)) (x : Nat × List (L × R) × τ) (m' : PartialMap L R), v.Perm (c.filterMap pairOf) ∧
      sweep d (fun p => [.inl p.1, .inr p.2]) (split (fun s p => f s p.1 p.2) v s).1 t = x ∧
      m.retainPairedD f d s t = .ok (endingOf x.1, (split (fun s p => f s p.1 p.2) v s).2.2, x.2.2, m') ∧
      Repr m' ((x.2.1 ++ (split (fun s p => f s p.1 p.2) v s).2.1).map (fun p => someBoth p.1 p.2) ++ c.filter fun e => !isPair e) := by
  obtain ⟨qs, us, hp, hr, he, hs, hn⟩ := h.ordered
  have hpairs : ∀ q ∈ qs.filter (fun q => isPair q.e), isPair q.e = true := fun q hq => (List.mem_filter.1 hq).2
  obtain ⟨x, k, h1, h2, h3⟩ := retainPairedScan_eq (qs := qs.filter fun q => isPair q.e) hr f s
    (fun q hq => List.mem_append_left _ (List.mem_filter.1 hq).1) hpairs
  have hk : ∀ q ∈ k, isPair q.e = true := fun q hq => hpairs q (h1.mem_iff.2 (List.mem_append_right _ hq))
  have hd : ∀ q ∈ x, isPair q.e = true := fun q hq => hpairs q (h1.mem_iff.2 (List.mem_append_left _ hq))
  have hfull : (qs ++ us).Perm (x ++ (k ++ ((qs ++ us).filter fun q => !isPair q.e))) := by
    have e1 : us.filter (fun q => isPair q.e) = [] := by
      rw [List.filter_eq_nil_iff]; intro u hu
      have := hn u hu
      revert this; cases u.e <;> simp [leftOf, isPair]
    have e2 := List.filter_append_perm (fun q : Rec L R => isPair q.e) (qs ++ us)
    have e3 : (qs ++ us).filter (fun q => isPair q.e) = qs.filter (fun q => isPair q.e) := by
      rw [List.filter_append, e1, List.append_nil]
    rw [e3] at e2
    rw [← List.append_assoc]
    exact e2.symm.trans (h1.append_right _)
  obtain ⟨m', e2, h5⟩ := retainPairedDropD_rep d (hr.perm hfull) hd t rfl
  rw [pairsOf_filter] at h2 h3
  have hsw : sweep d (fun p => [Sum.inl p.1, Sum.inr p.2]) (pairsOf x) t =
      ((sweep d (fun p => pieces (Rec.e p)) x t).1, pairsOf (sweep d (fun p => pieces (Rec.e p)) x t).2.1,
        (sweep d (fun p => pieces (Rec.e p)) x t).2.2) := by
    have e4 := sweep_map d pieces (fun p : L × R => someBoth p.1 p.2) (pairsOf x) t
    rw [pairsOf_both hd, sweep_map] at e4
    simp only [Prod.mk.injEq] at e4
    have e5 : ∀ p : L × R, pieces (someBoth p.1 p.2) = [.inl p.1, .inr p.2] := fun _ => rfl
    simp only [e5] at e4
    have e6 := congrArg (List.filterMap pairOf) e4.2.1
    have e7 : ∀ l : List (L × R), (l.map fun p => someBoth p.1 p.2).filterMap pairOf = l := by
      intro l; rw [List.filterMap_map]; exact List.filterMap_some
    rw [e7, List.filterMap_map] at e6
    exact Prod.ext e4.1.symm (Prod.ext e6.symm e4.2.2.symm)
  obtain ⟨g, h4, -⟩ := sweep_spec d (fun p => pieces (Rec.e p)) x t
  have hk' : ∀ q ∈ (sweep d (fun p => pieces (Rec.e p)) x t).2.1, isPair q.e = true :=
    fun q hq => hd q (by rw [h4]; exact List.mem_append_right _ hq)
  refine ⟨pairsOf qs, _, m', pairsOf_perm hp hn, rfl, ?_, ?_⟩
  · rw [retainPairedD, iterPairedList_eq hr he hs]
    have h2' := congrArg Prod.fst h2
    simp only at h2'
    simp only [bind, Except.bind, h3, e2, h2', hsw]; rfl
  · refine ⟨_, h5, ?_⟩
    rw [h2]
    simp only [hsw, List.map_append, List.append_assoc]
    rw [pairsOf_both hk, pairsOf_both hk']
    refine List.Perm.append_left _ (List.Perm.append_left _ ?_)
    have := hp.filter fun e => !isPair e
    rw [List.filter_map] at this
    exact this

/-- the entries that are something -/
def present (xs : List (OptionalPair L R)) : List (OptionalPair L R) := xs.filter fun | neither => false | _ => true

/-- what a call of `extend` does with one element: the entries it drops, and the new contents -/
def step (c : List (OptionalPair L R)) : OptionalPair L R → List (OptionalPair L R) × List (OptionalPair L R)
  | neither => ([], c)
  | someLeft l => ((findL c l).toList, someLeft l :: eraseL c l)
  | someRight r => ((findR c r).toList, someRight r :: eraseR c r)
  | someBoth l r => ((findL c l).toList ++ (if hasPair c l r then [] else (findR c r).toList), someBoth l r :: others c l r)

theorem step_conserves (h : OneToOne c) (x : OptionalPair L R) : ((step c x).1 ++ (step c x).2).Perm (present [x] ++ c) := by
  have h1 : ∀ l, ((findL c l).toList ++ eraseL c l).Perm c := fun l => find_filter_perm (h.1.imp fun {a b} hpq hh => by
    have := hpq.1
    cases a <;> cases b <;> simp only [hasL, leftOf] at * <;> first | cases hh.1; done | cases hh.2; done | skip
    all_goals
      have h0 := this _ rfl
      rw [PartialEquivBEq.trans (PartialEquivBEq.symm hh.1) hh.2] at h0; cases h0)
  have h2 : ∀ c : List (OptionalPair L R), OneToOne c → ∀ r, ((findR c r).toList ++ eraseR c r).Perm c :=
      fun c h r => find_filter_perm (h.1.imp fun {a b} hpq hh => by
    have := hpq.2
    cases a <;> cases b <;> simp only [hasR, rightOf] at * <;> first | cases hh.1; done | cases hh.2; done | skip
    all_goals
      have h0 := this _ rfl
      rw [PartialEquivBEq.trans (PartialEquivBEq.symm hh.1) hh.2] at h0; cases h0)
  cases x with
  | neither => exact .refl _
  | someLeft l => exact List.perm_middle.trans ((h1 l).cons _)
  | someRight r => exact List.perm_middle.trans ((h2 c h r).cons _)
  | someBoth l r =>
    have h3 := h2 (eraseL c l) ⟨h.1.filter _, fun hm => h.2 (List.mem_filter.1 hm).1⟩ r
    rw [findR_eraseL h, eraseR_eraseL] at h3
    refine List.perm_middle.trans (.cons _ ?_)
    have : (if hasPair c l r then [] else (findR c r).toList) = (if hasPair c l r then none else findR c r).toList := by split <;> rfl
    simp only [step]
    rw [List.append_assoc, this]
    exact (h3.append_left _).trans (h1 l)

/-- one element of `extend` -/
theorem extendD_cons (h : Repr m c) (d : τ → L ⊕ R → Bool × τ) (x : OptionalPair L R) :
    ∃ m1, Repr m1 (step c x).2 ∧ (∀ xs, m.extend (x :: xs) = m1.extend xs) ∧
      ∀ xs t, m.extendD d (x :: xs) t = match dropAll d ((step c x).1.flatMap pieces) t with
        | (0, t) => extendD m1 d xs t
        | (n + 1, t) => .ok (endingOf (n + 1), t, m1) := by
  have hp : ∀ o : Option (OptionalPair L R), pieces (o.getD neither) = o.toList.flatMap pieces := by
    intro o; cases o with
    | none => rfl
    | some o => simp
  cases x with
  | neither => exact ⟨m, h, fun _ => rfl, fun _ _ => rfl⟩
  | someLeft l =>
    obtain ⟨m1, e1, h1, -⟩ := insertLeft_refines h l
    refine ⟨m1, h1, fun xs => by simp only [extend, e1, bind, Except.bind], fun xs t => ?_⟩
    simp only [extendD, e1, bind, Except.bind, Except.map, PartialSpec.insertLeft, List.flatMap_cons, List.flatMap_nil, List.append_nil,
      hp, step]
    rfl
  | someRight r =>
    obtain ⟨m1, e1, h1, -⟩ := insertRight_refines h r
    refine ⟨m1, h1, fun xs => by simp only [extend, e1, bind, Except.bind], fun xs t => ?_⟩
    simp only [extendD, e1, bind, Except.bind, Except.map, PartialSpec.insertRight, List.flatMap_cons, List.flatMap_nil, List.append_nil,
      hp, step]
    rfl
  | someBoth l r =>
    obtain ⟨m1, e1, h1, -⟩ := insert_refines h l r
    refine ⟨m1, h1, fun xs => by simp only [extend, e1, bind, Except.bind], fun xs t => ?_⟩
    have : pieces (if hasPair c l r then neither else (findR c r).getD neither) =
        (if hasPair c l r then [] else (findR c r).toList).flatMap pieces := by
      split
      · rfl
      · exact hp _
    simp only [extendD, e1, bind, Except.bind, Except.map, PartialSpec.insert, List.flatMap_cons, List.flatMap_nil, List.append_nil,
      hp, step, this, List.flatMap_append]
    rfl

theorem step_insertEntry (x : OptionalPair L R) : (step c x).2 = insertEntry c x := by cases x <;> rfl

theorem extendD_refines (h : Repr m c) (d : τ → L ⊕ R → Bool × τ) (xs : List (OptionalPair L R)) (t : τ) :
    ∃ e t' m' ys zs gone, xs = ys ++ zs ∧ m.extendD d xs t = .ok (e, t', m') ∧ m.extend ys = .ok m' ∧
      Repr m' (insertAll c ys) ∧ (gone ++ insertAll c ys).Perm (present ys ++ c) ∧ t' = (dropAll d (gone.flatMap pieces) t).2 ∧
      e = endingOf (dropAll d (gone.flatMap pieces) t).1 ∧
      (e = .returned → zs = []) ∧ ∃ t0 m0, m.extendD d ys.dropLast t = .ok (.returned, t0, m0) := by
  induction xs generalizing m c t with
  | nil => exact ⟨_, _, m, [], [], [], rfl, rfl, rfl, h, .refl _, rfl, rfl, fun _ => rfl, _, _, rfl⟩
  | cons x xs ih =>
    obtain ⟨m1, h1, hx1, hd1⟩ := extendD_cons h d x
    have hcons := step_conserves h.oneToOne x
    rw [step_insertEntry] at h1 hcons
    rcases hk : dropAll d ((step c x).1.flatMap pieces) t with ⟨_ | k, t1⟩
    · obtain ⟨e, t', m2, ys, zs, gone, hx, e2, e3, h2, h3, h4, h5, h6, t0, m0, h7⟩ := ih h1 t1
      refine ⟨e, t', m2, x :: ys, zs, (step c x).1 ++ gone, by rw [hx]; rfl, ?_, ?_, h2, ?_, ?_, ?_, h6, ?_⟩
      · rw [hd1, hk]; exact e2
      · rw [hx1]; exact e3
      · rw [List.append_assoc]
        refine (h3.append_left _).trans ?_
        rw [← List.append_assoc]
        refine (List.perm_append_comm.append_right _).trans ?_
        rw [List.append_assoc]
        refine (hcons.append_left _).trans ?_
        have : present (x :: ys) = present [x] ++ present ys := by rw [present, present, present, ← List.filter_append]; rfl
        rw [this, ← List.append_assoc]
        exact List.perm_append_comm.append_right _
      · rw [List.flatMap_append, dropAll_append, hk]; exact h4
      · rw [List.flatMap_append, dropAll_append, hk, Nat.zero_add]; exact h5
      · cases ys with
        | nil => exact ⟨t, m, rfl⟩
        | cons y ys => exact ⟨t0, m0, by rw [List.dropLast_cons_cons, hd1, hk]; exact h7⟩
    · refine ⟨endingOf (k + 1), t1, m1, [x], xs, (step c x).1, rfl, ?_, ?_, h1, hcons, ?_, ?_, ?_, t, m, rfl⟩
      · rw [hd1, hk]
      · rw [hx1]; rfl
      · rw [hk]
      · rw [hk]
      · intro h; cases k <;> cases h

theorem extendPairsD_eq (d : τ → L ⊕ R → Bool × τ) (xs : List (L × R)) (t : τ) :
    m.extendPairsD d xs t = m.extendD d (xs.map fun p => someBoth p.1 p.2) t := by
  induction xs generalizing m t with
  | nil => rfl
  | cons x xs ih =>
    cases e : m.insert x.1 x.2 with
    | error => simp only [extendPairsD, extendD, List.map_cons, e, bind, Except.bind, Except.map]
    | ok o => simp only [extendPairsD, extendD, List.map_cons, e, bind, Except.bind, Except.map, ih]

/-- a map whose left table is empty while its right table is not -/
theorem orphans {rs : List (Rec L R)} (hl : m.left.entries = []) (hr : m.right.entries.Perm (tabR m.hb rs)) (ha : rs.Pairwise Apart) :
    m.iterLeft = [] ∧ (∀ l, m.containsLeft l = false) ∧ m.iterRight.Perm ((rs.map Rec.e).filterMap rightOf) ∧
      ∀ l r, someBoth l r ∈ rs.map Rec.e →
        m.isRightPaired r = true ∧ m.getLeft r = none ∧ m.removeViaRight r = .error .unwrapNone := by
  have nl : ∀ x (P : MappingPair L → Bool), m.left.get x P = none := by
    intro x P; exact RawTable.get_none (by simp [hl])
  have nr : ∀ x (P : MappingPair L → Bool), m.left.removeEntry x P = none := by
    intro x P; exact RawTable.removeEntry_none (by simp [hl])
  refine ⟨by simp [iterLeft, RawTable.toList, hl], fun l => by simp [containsLeft, nl], ?_, fun l r hm => ?_⟩
  · rw [iterRight, RawTable.toList, List.map_map]
    refine (hr.map _).trans ?_
    rw [← tabR_values (hb := m.hb)]; rfl
  · obtain ⟨⟨e, i⟩, hq, heq⟩ := List.mem_map.1 hm
    have heq : e = someBoth l r := heq
    subst heq
    obtain ⟨ts, ht⟩ := perm_cons_of_mem hq
    have ha' := List.pairwise_cons.1 (pairwise_perm ha ht)
    have hperm : m.right.entries.Perm ((m.hb.hr r, ⟨r, some (m.hb.hl l), i⟩) :: tabR m.hb ts) := hr.trans (ht.filterMap _)
    have hkey : ∀ y ∈ tabR m.hb ts, equivalentKey r y.2 = false :=
      keysR fun q hq => hasR_false_of (x := someBoth l r) (by simp [hasR]) (ha'.1 q hq).2
    have g1 := RawTable.get_some (h := m.hb.hr r) (p := equivalentKey r) hperm rfl BEq.rfl hkey
    obtain ⟨t', g2, _⟩ := RawTable.removeEntry_some (h := m.hb.hr r) (p := equivalentKey r) hperm rfl BEq.rfl hkey
    have g3 := g1
    have e0 : (equivalentKey r) = fun x => r == x.value := rfl
    rw [e0] at g3
    refine ⟨?_, ?_, ?_⟩
    · simp only [isRightPaired, g1]; rfl
    · simp only [getLeft, getLeftBy, g3, nl]
    · simp only [removeViaRight, g2, nr]

end Verif.PartialMap
