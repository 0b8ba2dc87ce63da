import Verif.Drops
import Verif.CycleMap.Counter
/-
The calls of `CycleMap` that drop items, with destructors that may panic (see `Verif/Drops.lean`).  The other calls hand
the items they remove to the caller.
-/
set_option linter.unusedSectionVars false
set_option linter.unusedSimpArgs false
namespace Verif.CycleMap
open CycleSpec OptionalPair

section
variable [RawImpl] {L R τ : Type} [BEq L] [BEq R]

/-- the items of a pair, in the order in which they are dropped -/
def pieces (p : L × R) : List (L ⊕ R) := [.inl p.1, .inr p.2]

/-- `clear` (1094-1097): `RawTable::clear` empties the table even if a destructor panics; the panic leaves the call -/
def clearD (m : CycleMap L R) (d : τ → L ⊕ R → Bool × τ) (t : τ) : Ending × τ × CycleMap L R :=
  match dropUntil d (m.left.toList.map fun x => .inl x.value) t with
  | (true, t) => (.panicked, t, { m with left := m.left.clear })
  | (false, t) =>
    match dropUntil d (m.right.toList.map fun x => .inr x.value) t with
    | (true, t) => (.panicked, t, { m with left := m.left.clear, right := m.right.clear })
    | (false, t) => (.returned, t, { m with left := m.left.clear, right := m.right.clear })

/-- second loop of `retain` (874-876): the removed pair is dropped at once; a panic leaves the loop -/
def retainDropD (m : CycleMap L R) (d : τ → L ⊕ R → Bool × τ) : List (UInt64 × UInt64 × Nat) → τ → Res (Ending × τ × CycleMap L R)
  | [], t => .ok (.returned, t, m)
  | (lHash, rHash, id) :: rest, t => do
    let (o, m) ← m.removeViaHashesAndId lHash rHash id
    match dropAll d (o.toList.flatMap pieces) t with
    | (0, t) => retainDropD m d rest t
    | (n + 1, t) => return (endingOf (n + 1), t, m)

/-- `retain` (861-877), with a closure and destructors that may panic -/
def retainD {σ : Type} (m : CycleMap L R) (f : σ → L → R → Option Bool × σ) (d : τ → L ⊕ R → Bool × τ) (st : σ) (t : τ) :
    Res (Ending × σ × τ × CycleMap L R) := do
  match ← retainScanP m f m.iter.todo st with
  | (none, st) => return (.panicked, st, t, m)
  | (some toDrop, st) =>
    let (e, t, m) ← retainDropD m d toDrop t
    return (e, st, t, m)

/-- `Drop for DrainFilterIter` (1368-1374) and `Drop for ConsumeAllOnDrop` (1379-1383).  `unwinding`: a panic is being handled,
either because the iterator is dropped by one, or because dropping an item panicked: then the guard goes on
with the rest, and a further panic aborts.  A panic of the closure when none is being handled leaves the rest alone. -/
def DrainFilter.dropLoop {σ : Type} (f : σ → L → R → Option Bool × σ) (d : τ → L ⊕ R → Bool × τ) :
    Nat → (unwinding : Bool) → DrainFilter σ L R → τ → Res (Ending × τ × DrainFilter σ L R)
  | 0, u, it, t => .ok (if u then .panicked else .returned, t, it)
  | n + 1, u, it, t => do
    match ← DrainFilter.nextP f it.kept it.todo it.right it.st with
    | (.done, it) => return (if u then .panicked else .returned, t, it)
    | (.panic, it) => return (if u then .aborted else .panicked, t, it)
    | (.item p, it) =>
      match dropAll d (pieces p) t with
      | (0, t) => DrainFilter.dropLoop f d n u it t
      | (1, t) => if u then return (.aborted, t, it) else DrainFilter.dropLoop f d n true it t
      | (_, t) => return (.aborted, t, it)

/-- `drain_filter(f)`, at most `n` calls of `next`, then `Drop` — also when a `next` panicked -/
def drainFilterD {σ : Type} (m : CycleMap L R) (f : σ → L → R → Option Bool × σ) (d : τ → L ⊕ R → Bool × τ) (st : σ) (t : τ)
    (n : Nat) : Res (Ending × List (L × R) × σ × τ × CycleMap L R) := do
  let (ps, b, it) ← DrainFilter.takeP f n { kept := [], todo := m.left.entries, right := m.right, st := st }
  let (e, t, it) ← DrainFilter.dropLoop f d (it.todo.length + 1) b it t
  return (e, ps, it.st, t, { m with
    left := RawImpl.touch (.erase (stays m.left (it.kept ++ it.todo))) { m.left with entries := it.kept ++ it.todo },
    right := it.right })

/-- the pairs an `insert` hands back, in the order of the fields of `InsertOptional` — optionals.rs -/
def given : InsertOptional L R → List (L × R)
  | .neither => []
  | .someLeft p => [p]
  | .someRight p => [p]
  | .someBoth p q => [p, q]

/-- `extend` (1165-1169): what `insert` returns is dropped before the next pair is taken from the iterator -/
def extendD (m : CycleMap L R) (d : τ → L ⊕ R → Bool × τ) : List (L × R) → τ → Res (Ending × τ × CycleMap L R)
  | [], t => .ok (.returned, t, m)
  | (l, r) :: rest, t => do
    let (o, m) ← m.insert l r
    match dropAll d ((given o).flatMap pieces) t with
    | (0, t) => extendD m d rest t
    | (n + 1, t) => return (endingOf (n + 1), t, m)

/-- destructors change nothing but how the call ends, unless the process is aborted -/
theorem dropLoop_of_takeP {σ : Type} {f : σ → L → R → Option Bool × σ} (d : τ → L ⊕ R → Bool × τ) {n : Nat}
    {it it' : DrainFilter σ L R} {ps : List (L × R)} {b : Bool} (h : DrainFilter.takeP f n it = .ok (ps, b, it')) (u : Bool) (t : τ) :
    ∃ e t' it'', DrainFilter.dropLoop f d n u it t = .ok (e, t', it'') ∧
      e = endingOf ((if u then 1 else 0) + (if b then 1 else 0) + (dropAll d (ps.flatMap pieces) t).1) ∧
      (e ≠ .aborted → it'' = it' ∧ t' = (dropAll d (ps.flatMap pieces) t).2) := by
  induction n generalizing it ps b u t with
  | zero =>
    cases h
    refine ⟨_, _, _, rfl, ?_, fun _ => ⟨rfl, rfl⟩⟩
    cases u <;> rfl
  | succ n ih =>
    rw [DrainFilter.takeP] at h
    obtain ⟨⟨o, it1⟩, h1, h⟩ := bind_ok h
    simp only [DrainFilter.dropLoop, h1, bind, Except.bind]
    cases o with
    | done =>
      cases h
      refine ⟨_, _, _, rfl, ?_, fun _ => ⟨rfl, rfl⟩⟩
      cases u <;> rfl
    | panic =>
      cases h
      refine ⟨_, _, _, rfl, ?_, fun _ => ⟨rfl, rfl⟩⟩
      cases u <;> rfl
    | item p =>
      obtain ⟨⟨ps', b', it2⟩, h2, h⟩ := bind_ok h
      cases h
      simp only [List.flatMap_cons, dropAll_append]
      rcases hk : dropAll d (pieces p) t with ⟨_ | _ | k, t1⟩
      · obtain ⟨e, t', it3, e1, e2, e3⟩ := ih h2 u t1
        refine ⟨e, t', it3, e1, ?_, e3⟩
        rw [e2]; simp
      · cases u with
        | true =>
          refine ⟨_, _, _, rfl, ?_, fun h => absurd rfl h⟩
          exact (endingOf_aborted (by simp only [if_true]; omega)).symm
        | false =>
          obtain ⟨e, t', it3, e1, e2, e3⟩ := ih h2 true t1
          refine ⟨e, t', it3, e1, ?_, e3⟩
          rw [e2]; congr 1; simp; omega
      · refine ⟨_, _, _, rfl, ?_, fun h => absurd rfl h⟩
        exact (endingOf_aborted (by omega)).symm

end

variable [RawImpl] [LawfulRaw] {L R τ : Type} [BEq L] [BEq R] [EquivBEq L] [EquivBEq R]
variable {m : CycleMap L R} {c : List (L × R)}

theorem drainFilterD_refines {σ : Type} (h : Repr m c) (f : σ → L → R → Option Bool × σ) (d : τ → L ⊕ R → Bool × τ) (s : σ) (t : τ)
    (n : Nat) :
    ∃ (e : Ending) (visited rest yielded dropped : List (L × R)) (s' : σ) (t' : τ) (m' : CycleMap L R), (visited ++ rest).Perm c ∧
      m.drainFilterD f d s t n = .ok (e, yielded, s', t', m') ∧ (split (onPair (calm f)) visited s).1 = yielded ++ dropped ∧
      yielded.length ≤ n ∧
      e = endingOf (panics f visited s + (dropAll d (dropped.flatMap pieces) t).1) ∧
      (crashes f visited s = false → rest = [] ∧ yielded = (split (onPair (calm f)) visited s).1.take n) ∧
      (e ≠ .aborted → s' = (split (onPair (calm f)) visited s).2.2 ∧ t' = (dropAll d (dropped.flatMap pieces) t).2 ∧
        Repr m' ((split (onPair (calm f)) visited s).2.1 ++ rest)) := by
  obtain ⟨e0, v, r, k, m', h1, h2, h3, h4, h5, h6, h7, h8, -, -, h11, b, it, b', it', g1, g2⟩ := drainFilterP_takes h f s n
  obtain ⟨e, t', it'', e1, e2, e3⟩ := dropLoop_of_takeP d g2 b t
  simp only [drainFilterP, g1, bind, Except.bind, g2, pure, Except.pure, Except.ok.injEq, Prod.mk.injEq, true_and] at h2
  obtain ⟨q1, q2, q3⟩ := h2
  have hn : panics f v s = (if b then 1 else 0) + (if b' then 1 else 0) := by
    rw [h11, ← q1]; cases b <;> cases b' <;> rfl
  refine ⟨e, v, r, _, (split (onPair (calm f)) v s).1.drop k, it''.st, t', { m with
    left := RawImpl.touch (.erase (stays m.left (it''.kept ++ it''.todo))) { m.left with entries := it''.kept ++ it''.todo },
    right := it''.right }, h1, ?_, (List.take_append_drop _ _).symm, ?_, ?_, ?_, ?_⟩
  · simp only [drainFilterD, g1, bind, Except.bind, e1]; rfl
  · rw [List.length_take]; omega
  · rw [hn]; exact e2
  · intro hc
    exact ⟨h4 (h5.2 hc), h8 (h5.2 hc)⟩
  · intro he
    obtain ⟨rfl, rfl⟩ := e3 he
    refine ⟨q2, rfl, ?_⟩
    rw [q3]; exact h3

theorem retainDropD_rep (d : τ → L ⊕ R → Bool × τ) {ps ks : List (Rec L R)} (h : Rep m (ps ++ ks)) (t : τ) {x}
    (hx : sweep d (fun p => pieces (Rec.pair p)) ps t = x) :
    ∃ m', m.retainDropD d (ps.map (keyOf m.hb)) t = .ok (endingOf x.1, x.2.2, m') ∧ Rep m' (x.2.1 ++ ks) := by
  subst hx
  induction ps generalizing m t with
  | nil => exact ⟨m, rfl, h⟩
  | cons p ps ih =>
    obtain ⟨m1, e1, h1, hb1, -⟩ := removeViaHashesAndId_some h
    simp only [List.map_cons, keyOf, retainDropD, e1, bind, Except.bind, Option.toList_some, List.flatMap_cons, List.flatMap_nil,
      List.append_nil, sweep]
    rcases hk : dropAll d (pieces p.pair) t with ⟨_ | k, t1⟩
    · obtain ⟨m2, e2, h2⟩ := ih h1 t1
      rw [hb1] at e2
      exact ⟨m2, e2, h2⟩
    · exact ⟨m1, rfl, h1⟩

theorem retainD_refines {σ : Type} (h : Repr m c) (f : σ → L → R → Option Bool × σ) (d : τ → L ⊕ R → Bool × τ) (s : σ) (t : τ) :
    ∃ (v : List (L × R)), v.Perm c ∧
      ((crashes f v s = true ∧ m.retainD f d s t = .ok (.panicked, lastState f v s, t, m)) ∨
       (crashes f v s = false ∧ ∃ x m', sweep d pieces (split (onPair (calm f)) v s).2.1 t = x ∧
        m.retainD f d s t = .ok (endingOf x.1, (split (onPair (calm f)) v s).2.2, x.2.2, m') ∧
        Repr m' ((split (onPair (calm f)) v s).1 ++ x.2.1))) := by
  obtain ⟨qs, hp, hr, he⟩ := h.ordered
  rcases hr.retainScanP f (fun q hq => hq) s with ⟨hc, e⟩ | ⟨hc, e1⟩
  · refine ⟨_, hp, .inl ⟨hc, ?_⟩⟩
    rw [retainD, iter_todo he, e]; rfl
  · obtain ⟨m', e2, h2⟩ :=
      retainDropD_rep d (hr.perm ((split_perm (onRec (calm f)) qs s).trans List.perm_append_comm)) t rfl
    refine ⟨_, hp, .inr ⟨hc, _, m', rfl, ?_, ?_⟩⟩
    · rw [retainD, iter_todo he, e1]
      simp only [bind, Except.bind, e2, split_map, sweep_map]; rfl
    · simp only [split_map, sweep_map]
      rw [← List.map_append]
      exact (h2.perm List.perm_append_comm).repr

/-- what `insert` hands back and what it leaves is what there was, with the new pair -/
theorem insert_conserves (h : OneToOne c) (l : L) (r : R) :
    (given (CycleSpec.insert c l r).1 ++ (CycleSpec.insert c l r).2).Perm ((l, r) :: c) := by
  have hg : ∀ a b : Option (L × R), given (ofPair (a, b)) = a.toList ++ b.toList := by
    intro a b; cases a <;> cases b <;> rfl
  have h1 : ((findL c l).toList ++ eraseL c l).Perm c := find_filter_perm (h.imp fun hpq hh => by
    have := PartialEquivBEq.trans (PartialEquivBEq.symm hh.1) hh.2; rw [hpq.1] at this; cases this)
  have h2 : ((findR (eraseL c l) r).toList ++ eraseR (eraseL c l) r).Perm (eraseL c l) := find_filter_perm
    ((h.filter _).imp fun hpq hh => by
      have := PartialEquivBEq.trans (PartialEquivBEq.symm hh.1) hh.2; rw [hpq.2] at this; cases this)
  rw [findR_eraseL h, eraseR_eraseL] at h2
  simp only [CycleSpec.insert, hg]
  refine List.perm_middle.trans (.cons _ ?_)
  rw [List.append_assoc]
  exact (h2.append_left _).trans h1

theorem extendD_refines (h : Repr m c) (d : τ → L ⊕ R → Bool × τ) (xs : List (L × R)) (t : τ) :
    ∃ e t' m' ys zs gone, xs = ys ++ zs ∧ m.extendD d xs t = .ok (e, t', m') ∧ m.extend ys = .ok m' ∧
      Repr m' (insertAll c ys) ∧ (gone ++ insertAll c ys).Perm (ys ++ c) ∧ t' = (dropAll d (gone.flatMap pieces) t).2 ∧
      e = endingOf (dropAll d (gone.flatMap pieces) t).1 ∧
      (e = .returned → zs = []) ∧ ∃ t0 m0, m.extendD d ys.dropLast t = .ok (.returned, t0, m0) := by
  induction xs generalizing m c t with
  | nil => exact ⟨_, _, m, [], [], [], rfl, rfl, rfl, h, .refl _, rfl, rfl, fun _ => rfl, _, _, rfl⟩
  | cons x xs ih =>
    obtain ⟨m1, e1, h1, -⟩ := insert_refines h x.1 x.2
    have hcons := insert_conserves h.oneToOne x.1 x.2
    rcases hk : dropAll d ((given (CycleSpec.insert c x.1 x.2).1).flatMap pieces) t with ⟨_ | k, t1⟩
    · obtain ⟨e, t', m2, ys, zs, gone, hx, e2, e3, h2, h3, h4, h5, h6, t0, m0, h7⟩ := ih h1 t1
      refine ⟨e, t', m2, x :: ys, zs, given (CycleSpec.insert c x.1 x.2).1 ++ gone, by rw [hx]; rfl, ?_, ?_, h2, ?_, ?_, ?_, h6, ?_⟩
      · simp only [extendD, e1, bind, Except.bind, hk]; exact e2
      · simp only [extend, e1, bind, Except.bind]; exact e3
      · rw [List.append_assoc]
        refine (h3.append_left _).trans ?_
        rw [← List.append_assoc]
        refine (List.perm_append_comm.append_right _).trans ?_
        rw [List.append_assoc]
        exact (hcons.append_left ys).trans List.perm_middle
      · rw [List.flatMap_append, dropAll_append, hk]; exact h4
      · rw [List.flatMap_append, dropAll_append, hk, Nat.zero_add]; exact h5
      · cases ys with
        | nil => exact ⟨t, m, rfl⟩
        | cons y ys => exact ⟨t0, m0, by simp only [List.dropLast_cons_cons, extendD, e1, bind, Except.bind, hk]; exact h7⟩
    · refine ⟨endingOf (k + 1), t1, m1, [x], xs, given (CycleSpec.insert c x.1 x.2).1, rfl, ?_, ?_, h1, hcons, ?_, ?_, ?_, t, m, rfl⟩
      · simp only [extendD, e1, bind, Except.bind, hk]; rfl
      · simp only [extend, e1, bind, Except.bind]
      · rw [hk]
      · rw [hk]
      · intro h; cases k <;> cases h

/-- a map whose left table is empty while its right table is not -/
theorem orphans {rs : List (Rec L R)} (hl : m.left.entries = []) (hr : m.right.entries.Perm (rs.map (toR m.hb))) (ha : rs.Pairwise Apart) :
    m.len = 0 ∧ m.iterLeft = [] ∧ (∀ l, m.containsLeft l = false) ∧ m.iterRight.Perm ((rs.map Rec.pair).map (·.2)) ∧
      ∀ p ∈ rs.map Rec.pair, m.containsRight p.2 = true ∧ m.getLeft p.2 = none ∧
        m.removeViaRight p.2 = .error .unwrapNone ∧ ∀ l, m.insert l p.2 = .error .unwrapNone := by
  have nl : ∀ x (P : MappingPair L → Bool), m.left.get x P = none := by
    intro x P; exact RawTable.get_none (by simp [hl])
  have nr : ∀ x (P : MappingPair L → Bool), m.left.removeEntry x P = none := by
    intro x P; exact RawTable.removeEntry_none (by simp [hl])
  refine ⟨?_, ?_, ?_, ?_, ?_⟩
  · simp [len, RawTable.len, hl]
  · simp [iterLeft, RawTable.toList, hl]
  · intro l; simp [containsLeft, nl]
  · rw [iterRight, RawTable.toList, List.map_map]
    refine (hr.map _).trans ?_
    simp [Function.comp_def, toR, Rec.pair]
  · intro p hpm
    obtain ⟨q, hq, rfl⟩ := List.mem_map.1 hpm
    obtain ⟨ts, ht⟩ := perm_cons_of_mem hq
    have ha' := List.pairwise_cons.1 ((ht.pairwise_iff (fun h => h.symm)).1 ha)
    have hperm : m.right.entries.Perm (toR m.hb q :: ts.map (toR m.hb)) := hr.trans (ht.map _)
    have hk : ∀ e ∈ ts.map (toR m.hb), equivalentKey q.r e.2 = false := by
      intro e he
      obtain ⟨t, ht, rfl⟩ := List.mem_map.1 he
      exact (ha'.1 t ht).2.2
    have hself : equivalentKey q.r (toR m.hb q).2 = true := BEq.rfl
    have g1 : m.right.get (m.hb.hr q.r) (equivalentKey q.r) = some (toR m.hb q).2 := RawTable.get_some hperm rfl hself hk
    obtain ⟨t', g2, _⟩ := RawTable.removeEntry_some hperm (h := m.hb.hr q.r) (p := equivalentKey q.r) rfl hself hk
    have g3 : m.removeViaRight q.r = .error .unwrapNone := by simp [removeViaRight, g2, nr]
    refine ⟨by simp [containsRight, Rec.pair, g1], ?_, g3, ?_⟩
    · have : m.right.get (m.hb.hr q.r) (fun x => q.r == x.value) = some (toR m.hb q).2 := g1
      simp [getLeft, getLeftBy, Rec.pair, this, nl]
    · intro l
      have : m.removeViaLeft l = .ok (none, m) := by simp [removeViaLeft, nr]
      simp [insert, this, Rec.pair, g3, bind, Except.bind]

end Verif.CycleMap
