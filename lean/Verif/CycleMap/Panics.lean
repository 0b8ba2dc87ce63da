import Verif.CycleMap.Iterate
/-
Closures that may panic (C80).  A closure is `σ → L → R → Option Bool × σ`; `none` is a panic, the
captured state survives it (the caller may catch the panic and go on using the map).
-/
set_option linter.unusedSectionVars false
set_option linter.unusedSimpArgs false
namespace Verif.CycleMap
open CycleSpec OptionalPair

/-- How a call with a panicking closure ends. -/
inductive Ending where
  /-- it returned -/
  | returned
  /-- the panic propagated to the caller -/
  | panicked
  /-- the closure panicked again while a panic was being handled: the process is aborted -/
  | aborted
deriving DecidableEq

section
variable [RawImpl] {L R : Type} [BEq L] [BEq R]

/-- `retainScan` (first loop of `retain`, 865-873) with a closure that may panic: a panic leaves the loop -/
def retainScanP {σ : Type} (m : CycleMap L R) (f : σ → L → R → Option Bool × σ) :
    List (MappingPair L) → σ → Res (Option (List (UInt64 × UInt64 × Nat)) × σ)
  | [], st => .ok (some [], st)
  | l :: rest, st => do
    match ← Iter.next ⟨l :: rest⟩ m with
    | none => return (some [], st)
    | some ((left, right), _) =>
      match f st left right with
      | (none, st') => return (none, st')
      | (some true, st') => retainScanP m f rest st'
      | (some false, st') =>
        match m.getLeftInner left with
        | none => .error .unwrapNone
        | some lp =>
          let (d, st'') ← retainScanP m f rest st'
          return (d.map ((m.hb.hl left, m.hb.hr right, lp.id) :: ·), st'')

/-- `retain` (861-877) with a closure that may panic: nothing has been removed when the first loop panics -/
def retainP {σ : Type} (m : CycleMap L R) (f : σ → L → R → Option Bool × σ) (st : σ) :
    Res (Ending × σ × CycleMap L R) := do
  match ← retainScanP m f m.iter.todo st with
  | (none, st) => return (.panicked, st, m)
  | (some toDrop, st) => return (.returned, st, ← retainDrop m toDrop)

/-- what `DrainFilterInner::next` ends with -/
inductive Next (L R : Type) where
  | done
  | item (p : L × R)
  | panic

/-- `DrainFilterInner::next` (1411-1430) with a closure that may panic: the visited entry has been taken
from the iterator, and neither table has been changed for it -/
def DrainFilter.nextP {σ : Type} (f : σ → L → R → Option Bool × σ) (kept todo : List (UInt64 × MappingPair L))
    (right : RawTable (MappingPair R)) (st : σ) : Res (Next L R × DrainFilter σ L R) :=
  match todo with
  | [] => .ok (.done, { kept := kept, todo := [], right := right, st := st })
  | e :: rest =>
    match right.removeEntry e.2.hash (justId e.2.id) with
    | none => .error .unwrapNone
    | some (r, right') =>
      match f st e.2.value r.value with
      | (none, st') => .ok (.panic, { kept := kept ++ [e], todo := rest, right := right, st := st' })
      | (some true, st') =>
        .ok (.item (e.2.value, r.value), { kept := kept, todo := rest, right := right', st := st' })
      | (some false, st') => DrainFilter.nextP f (kept ++ [e]) rest right st'

/-- calling `next` at most `n` times, until it returns `None` or panics; the flag says whether it panicked -/
def DrainFilter.takeP {σ : Type} (f : σ → L → R → Option Bool × σ) :
    Nat → DrainFilter σ L R → Res (List (L × R) × Bool × DrainFilter σ L R)
  | 0, it => .ok ([], false, it)
  | n + 1, it => do
    match ← DrainFilter.nextP f it.kept it.todo it.right it.st with
    | (.done, it') => return ([], false, it')
    | (.panic, it') => return ([], true, it')
    | (.item p, it') =>
      let (ps, b, it'') ← DrainFilter.takeP f n it'
      return (p :: ps, b, it'')

/-- `drain_filter(f)`, at most `n` calls of `next`, then `Drop` (1368-1374) — also when a `next` panicked
and the stack is being unwound.  `Drop` calls `next` until it returns `None`; if the closure panics there, the panic
propagates (the guard of 1371 is not alive while `next` runs), or, when already unwinding, the process aborts. -/
def drainFilterP {σ : Type} (m : CycleMap L R) (f : σ → L → R → Option Bool × σ) (st : σ) (n : Nat) :
    Res (Ending × List (L × R) × σ × CycleMap L R) := do
  let (ps, b, it) ← DrainFilter.takeP f n { kept := [], todo := m.left.entries, right := m.right, st := st }
  let (_, b', it) ← DrainFilter.takeP f (it.todo.length + 1) it
  let e := if b then (if b' then .aborted else .panicked) else (if b' then .panicked else .returned)
  return (e, ps, it.st, { m with left := RawImpl.touch (.erase (stays m.left (it.kept ++ it.todo))) { m.left with entries := it.kept ++ it.todo },
                                 right := it.right })

end

variable [RawImpl] [LawfulRaw] {L R : Type} [BEq L] [BEq R] [EquivBEq L] [EquivBEq R]
variable {m : CycleMap L R} {c : List (L × R)}

/-- a panic counted as `false` -/
def calm {σ : Type} (f : σ → L → R → Option Bool × σ) (s : σ) (l : L) (r : R) : Bool × σ :=
  ((f s l r).1 == some true, (f s l r).2)

/-- whether the closure panics when it is run over these pairs in this order -/
def crashes {σ : Type} (f : σ → L → R → Option Bool × σ) : List (L × R) → σ → Bool
  | [], _ => false
  | p :: ps, s => (f s p.1 p.2).1.isNone || crashes f ps (f s p.1 p.2).2

/-- the captured state after the closure was run over these pairs in this order, up to its first panic if any -/
def lastState {σ : Type} (f : σ → L → R → Option Bool × σ) : List (L × R) → σ → σ
  | [], s => s
  | p :: ps, s => if (f s p.1 p.2).1.isNone then (f s p.1 p.2).2 else lastState f ps (f s p.1 p.2).2

/-- how often the closure panics when it is run over these pairs in this order, each panic being caught -/
def panics {σ : Type} (f : σ → L → R → Option Bool × σ) : List (L × R) → σ → Nat
  | [], _ => 0
  | p :: ps, s => (if (f s p.1 p.2).1.isNone then 1 else 0) + panics f ps (f s p.1 p.2).2

theorem panics_append {σ : Type} (f : σ → L → R → Option Bool × σ) (a b : List (L × R)) (s : σ) :
    panics f (a ++ b) s = panics f a s + panics f b (split (onPair (calm f)) a s).2.2 := by
  induction a generalizing s with
  | nil => simp [panics, split]
  | cons p a ih =>
    have : (split (onPair (calm f)) (p :: a) s).2.2 = (split (onPair (calm f)) a (f s p.1 p.2).2).2.2 := by
      simp only [split, onPair, calm]
      cases (f s p.1 p.2).1 == some true <;> rfl
    rw [this]
    simp only [List.cons_append, panics, ih]; omega

theorem panics_of_not_crashes {σ : Type} {f : σ → L → R → Option Bool × σ} {a : List (L × R)} {s : σ}
    (h : crashes f a s = false) : panics f a s = 0 := by
  induction a generalizing s with
  | nil => rfl
  | cons p a ih =>
    simp only [crashes, Bool.or_eq_false_iff] at h
    simp [panics, h.1, ih h.2]

theorem crashes_append {σ : Type} (f : σ → L → R → Option Bool × σ) (a b : List (L × R)) (s : σ) :
    crashes f (a ++ b) s = (crashes f a s || crashes f b (split (onPair (calm f)) a s).2.2) := by
  induction a generalizing s with
  | nil => simp [crashes, split]
  | cons p a ih =>
    have : (split (onPair (calm f)) (p :: a) s).2.2 = (split (onPair (calm f)) a (f s p.1 p.2).2).2.2 := by
      simp only [split, onPair, calm]
      cases (f s p.1 p.2).1 == some true <;> rfl
    rw [this]
    simp only [List.cons_append, crashes, ih, Bool.or_assoc]

theorem Rep.retainScanP {σ : Type} {ps} (h : Rep m ps) (f : σ → L → R → Option Bool × σ) {qs} (hq : ∀ q ∈ qs, q ∈ ps)
    (s : σ) : (crashes f (qs.map Rec.pair) s = true ∧ m.retainScanP f (elemsL m.hb qs) s = .ok (none, lastState f (qs.map Rec.pair) s)) ∨
      crashes f (qs.map Rec.pair) s = false ∧ m.retainScanP f (elemsL m.hb qs) s =
      .ok (some ((split (onRec (calm f)) qs s).2.1.map (keyOf m.hb)), (split (onRec (calm f)) qs s).2.2) := by
  induction qs generalizing s with
  | nil => exact .inr ⟨rfl, rfl⟩
  | cons q qs ih =>
    have hn := h.next_cons (hq q (by simp)) (elemsL m.hb qs)
    have he : elemsL m.hb (q :: qs) = (toL m.hb q).2 :: elemsL m.hb qs := rfl
    have ih := fun s => ih (fun q h => hq q (List.mem_cons_of_mem _ h)) s
    rw [he]
    simp only [CycleMap.retainScanP, hn, bind, Except.bind, Rec.pair, pure, Except.pure]
    simp only [split, onRec, calm, List.map_cons, crashes, lastState, Rec.pair]
    cases hf : f s q.l q.r with
    | mk b s' =>
      match b with
      | none => exact .inl ⟨by simp, by simp⟩
      | some true =>
        rcases ih s' with ⟨hc, e⟩ | ⟨hc, e⟩
        · exact .inl ⟨by simp [hc], by simp [e]⟩
        · refine .inr ⟨by simp [hc], ?_⟩
          simp [e, onRec, calm]
      | some false =>
        rw [h.getLeftInner_mem (hq q (by simp))]
        rcases ih s' with ⟨hc, e⟩ | ⟨hc, e⟩
        · exact .inl ⟨by simp [hc], by simp [e]⟩
        · refine .inr ⟨by simp [hc], ?_⟩
          simp [e, keyOf]


theorem retainP_refines {σ : Type} (h : Repr m c) (f : σ → L → R → Option Bool × σ) (s : σ) :
    ∃ (d : List (L × R)) (m' : CycleMap L R), d.Perm c ∧
      ((crashes f d s = true ∧ m.retainP f s = .ok (.panicked, lastState f d s, m)) ∨
       (crashes f d s = false ∧ m.retainP f s = .ok (.returned, (split (onPair (calm f)) d s).2.2, m') ∧
        Repr m' (split (onPair (calm f)) d s).1)) := by
  obtain ⟨qs, hp, hr, he⟩ := h.ordered
  rcases hr.retainScanP f (fun q hq => hq) s with ⟨hc, e⟩ | ⟨hc, e1⟩
  · refine ⟨_, m, hp, .inl ⟨hc, ?_⟩⟩
    rw [retainP, iter_todo he, e]; rfl
  · obtain ⟨m', e2, h2, _⟩ :=
      retainDrop_rep (hr.perm ((split_perm (onRec (calm f)) qs s).trans List.perm_append_comm))
    refine ⟨_, m', hp, .inr ⟨hc, ?_, ?_⟩⟩
    · rw [retainP, iter_todo he, e1]
      simp only [bind, Except.bind, e2, split_map]; rfl
    · rw [split_map]; exact h2.repr

theorem drainFilter_nextP {σ : Type} {hb : BuildHasher L R} (f : σ → L → R → Option Bool × σ) {ks qs : List (Rec L R)}
    {t : RawTable (MappingPair R)} (s : σ) (ht : t.entries.Perm ((ks ++ qs).map (toR hb)))
    (ha : (ks ++ qs).Pairwise Apart) :
    ∃ qs1 qs2 t' o, qs = qs1 ++ qs2 ∧
      DrainFilter.nextP f (ks.map (toL hb)) (qs.map (toL hb)) t s =
        .ok (o, ⟨(ks ++ (split (onRec (calm f)) qs1 s).2.1).map (toL hb), qs2.map (toL hb), t', (split (onRec (calm f)) qs1 s).2.2⟩) ∧
      t'.entries.Perm ((ks ++ (split (onRec (calm f)) qs1 s).2.1 ++ qs2).map (toR hb)) ∧
      ((o = .done ∧ crashes f (qs1.map Rec.pair) s = false ∧ (split (onRec (calm f)) qs1 s).1 = [] ∧ qs2 = []) ∨
        (o = .panic ∧ crashes f (qs1.map Rec.pair) s = true ∧ panics f (qs1.map Rec.pair) s = 1 ∧ (split (onRec (calm f)) qs1 s).1 = []) ∨
        ∃ p, o = .item p.pair ∧ crashes f (qs1.map Rec.pair) s = false ∧ (split (onRec (calm f)) qs1 s).1 = [p]) := by
  induction qs generalizing ks s with
  | nil => exact ⟨[], [], t, .done, rfl, by simp [DrainFilter.nextP, split], by simpa [split] using ht, .inl ⟨rfl, rfl, rfl, rfl⟩⟩
  | cons q qs ih =>
    have hpm : (ks ++ q :: qs).Perm (q :: (ks ++ qs)) := List.perm_middle
    obtain ⟨t1, e1, h1⟩ := removeR_justId (ht.trans (hpm.map _)) (((hpm.pairwise_iff (fun h => h.symm)).1 ha).imp fun h => h.1)
    cases hf : f s q.l q.r with
    | mk b s' =>
      have hf0 : onRec (calm f) s q = (b == some true, s') := by simp [onRec, calm, hf]
      match b, hf, hf0 with
      | some true, hf, hf0 =>
        refine ⟨[q], qs, t1, .item q.pair, rfl, ?_, ?_, .inr (.inr ⟨q, rfl, by simp [crashes, Rec.pair, hf], ?_⟩)⟩
        · simp [DrainFilter.nextP, List.map_cons, toL, e1, hf, split, hf0, Rec.pair, List.append_nil]
        · simpa [split, hf0, hf] using h1
        · simp [split, hf0, hf]
      | none, hf, hf0 =>
        refine ⟨[q], qs, t, .panic, rfl, ?_, ?_, .inr (.inl ⟨rfl, by simp [crashes, Rec.pair, hf], by simp [panics, Rec.pair, hf], ?_⟩)⟩
        · simp [DrainFilter.nextP, List.map_cons, toL, e1, hf, split, hf0, Rec.pair, List.append_nil]
        · simpa [split, hf0, hf] using ht
        · simp [split, hf0, hf]
      | some false, hf, hf0 =>
        obtain ⟨qs1, qs2, t', o, hqs, e, hp, hor⟩ := ih (ks := ks ++ [q]) s' (by simpa using ht) (by simpa using ha)
        have hs : split (onRec (calm f)) (q :: qs1) s =
          ((split (onRec (calm f)) qs1 s').1, q :: (split (onRec (calm f)) qs1 s').2.1, (split (onRec (calm f)) qs1 s').2.2) := by
          simp [split, hf0]
        have hcr : crashes f ((q :: qs1).map Rec.pair) s = crashes f (qs1.map Rec.pair) s' := by
          simp [crashes, Rec.pair, hf]
        have hpn : panics f ((q :: qs1).map Rec.pair) s = panics f (qs1.map Rec.pair) s' := by
          simp [panics, Rec.pair, hf]
        refine ⟨q :: qs1, qs2, t', o, by simp [hqs], ?_, ?_, ?_⟩
        · simp only [DrainFilter.nextP, List.map_cons, toL, e1, hf, hs] at e ⊢
          rw [List.map_append] at e
          simp only [List.map_cons, List.map_nil, toL] at e
          rw [e]; simp
        · rw [hs]; simpa using hp
        · rw [hs, hcr, hpn]; exact hor

theorem drainFilter_takeP {σ : Type} {hb : BuildHasher L R} (f : σ → L → R → Option Bool × σ) (n : Nat)
    {ks qs : List (Rec L R)} {t : RawTable (MappingPair R)} (s : σ)
    (ht : t.entries.Perm ((ks ++ qs).map (toR hb))) (ha : (ks ++ qs).Pairwise Apart) :
    ∃ qs1 qs2 t' b, qs = qs1 ++ qs2 ∧
      DrainFilter.takeP f n ⟨ks.map (toL hb), qs.map (toL hb), t, s⟩ =
        .ok ((split (onRec (calm f)) qs1 s).1.map Rec.pair, b,
          ⟨(ks ++ (split (onRec (calm f)) qs1 s).2.1).map (toL hb), qs2.map (toL hb), t', (split (onRec (calm f)) qs1 s).2.2⟩) ∧
      t'.entries.Perm ((ks ++ (split (onRec (calm f)) qs1 s).2.1 ++ qs2).map (toR hb)) ∧
      (ks ++ (split (onRec (calm f)) qs1 s).2.1 ++ qs2).Pairwise Apart ∧
      b = crashes f (qs1.map Rec.pair) s ∧
      (b = false → (split (onRec (calm f)) qs1 s).1.length = n ∨ qs2 = []) ∧
      panics f (qs1.map Rec.pair) s = (if b then 1 else 0) ∧
      (split (onRec (calm f)) qs1 s).1.length ≤ n ∧ (b = true → (split (onRec (calm f)) qs1 s).1.length < n) := by
  induction n generalizing ks qs t s with
  | zero =>
    exact ⟨[], qs, t, false, rfl, by simp [DrainFilter.takeP, split], by simpa [split] using ht, by simpa [split] using ha,
      rfl, fun _ => .inl rfl, rfl, Nat.le_refl _, fun h => by cases h⟩
  | succ n ih =>
    obtain ⟨a1, a2, t1, o, hq, e1, hp1, hor⟩ := drainFilter_nextP f s ht ha
    have hsub : (ks ++ (split (onRec (calm f)) a1 s).2.1 ++ a2).Pairwise Apart := by
      have hperm := split_perm (onRec (calm f)) a1 s
      have : (ks ++ qs).Perm ((split (onRec (calm f)) a1 s).1 ++ (ks ++ (split (onRec (calm f)) a1 s).2.1 ++ a2)) := by
        rw [hq]
        refine ((hperm.append_right a2).append_left ks).trans ?_
        simp only [← List.append_assoc]
        refine List.Perm.append_right _ (List.Perm.append_right _ List.perm_append_comm)
      exact (List.pairwise_append.1 ((this.pairwise_iff (fun h => h.symm)).1 ha)).2.1
    rcases hor with ⟨rfl, hcr, hnil, rfl⟩ | ⟨rfl, hcr, hpn, hnil⟩ | ⟨p, rfl, hcr, hone⟩
    · refine ⟨a1, [], t1, false, hq, ?_, hp1, hsub, hcr.symm, fun _ => .inr rfl, panics_of_not_crashes hcr, by simp [hnil], by simp [hnil]⟩
      simp only [DrainFilter.takeP, e1, bind, Except.bind, hnil]; rfl
    · refine ⟨a1, a2, t1, true, hq, ?_, hp1, hsub, hcr.symm, (fun h => by cases h), hpn, by simp [hnil], by simp [hnil]⟩
      simp only [DrainFilter.takeP, e1, bind, Except.bind, hnil]; rfl
    · obtain ⟨b1, b2, t2, b, hq2, e2, hp2, ha2, hle, hor2, hpn, hn, hn'⟩ := ih (split (onRec (calm f)) a1 s).2.2 hp1 hsub
      subst hq2
      refine ⟨a1 ++ b1, b2, t2, b, by simp [hq], ?_, ?_, ?_, ?_, ?_, ?_, ?_, ?_⟩
      · simp only [DrainFilter.takeP, e1, bind, Except.bind, e2, split_append, hone]; simp [pure, Except.pure]
      · rw [split_append]; simpa using hp2
      · rw [split_append]; simpa using ha2
      · rw [List.map_append, crashes_append, hcr, split_map]; exact hle
      · intro hb
        rw [split_append, hone]
        rcases hor2 hb with h | h
        · left; simp [h]
        · exact .inr h
      · rw [List.map_append, panics_append, panics_of_not_crashes hcr, split_map, Nat.zero_add]; exact hpn
      · rw [split_append, hone]; simpa using hn
      · intro hb; rw [split_append, hone]; simpa using hn' hb

theorem drainFilterP_takes {σ : Type} (h : Repr m c) (f : σ → L → R → Option Bool × σ) (s : σ) (n : Nat) :
    ∃ (e : Ending) (visited rest : List (L × R)) (k : Nat) (m' : CycleMap L R), (visited ++ rest).Perm c ∧
      m.drainFilterP f s n = .ok (e, (split (onPair (calm f)) visited s).1.take k, (split (onPair (calm f)) visited s).2.2, m') ∧
      Repr m' ((split (onPair (calm f)) visited s).2.1 ++ rest) ∧ (e = .returned → rest = []) ∧
      (e = .returned ↔ crashes f visited s = false) ∧ k ≤ n ∧ k ≤ (split (onPair (calm f)) visited s).1.length ∧
      (e = .returned → (split (onPair (calm f)) visited s).1.take k = (split (onPair (calm f)) visited s).1.take n) ∧
      (e = .aborted → k < n) ∧ (e = .panicked → rest ≠ [] → k = n) ∧
      panics f visited s = (match e with | .returned => 0 | .panicked => 1 | .aborted => 2) ∧
      ∃ b it b' it', DrainFilter.takeP f n { kept := [], todo := m.left.entries, right := m.right, st := s } =
          .ok ((split (onPair (calm f)) visited s).1.take k, b, it) ∧
        DrainFilter.takeP f (it.todo.length + 1) it = .ok ((split (onPair (calm f)) visited s).1.drop k, b', it') := by
  obtain ⟨qs, hp, hr, he⟩ := h.ordered
  obtain ⟨a1, a2, t1, b, hq, e1, hp1, ha1, hle, hor, hpa, hkn, hkn'⟩ :=
    drainFilter_takeP (hb := m.hb) f n (ks := []) (qs := qs) (t := m.right) s (by simpa using hr.right) (by simpa using hr.apart)
  obtain ⟨b1, b2, t2, b', hq2, e2, hp2, ha2, hle2, hor2, hpa2, -, -⟩ :=
    drainFilter_takeP (hb := m.hb) f ((a2.map (toL m.hb)).length + 1) (split (onRec (calm f)) a1 s).2.2 hp1 ha1
  have hb2 : b' = false → b2 = [] := by
    intro hb
    rcases hor2 hb with h | h
    · exfalso
      have h3 := (split_perm (onRec (calm f)) b1 (split (onRec (calm f)) a1 s).2.2).length_eq
      have h4 : a2.length = b1.length + b2.length := by rw [hq2]; simp
      simp at h h3; omega
    · exact h
  have hsp := split_append (onRec (calm f)) a1 b1 s
  have hqs : qs = (a1 ++ b1) ++ b2 := by rw [hq, hq2]; simp
  let e : Ending := if b then (if b' then .aborted else .panicked) else (if b' then .panicked else .returned)
  refine ⟨e, (a1 ++ b1).map Rec.pair, b2.map Rec.pair, (split (onRec (calm f)) a1 s).1.length, { m with
    left := RawImpl.touch (.erase (stays m.left (((split (onRec (calm f)) (a1 ++ b1) s).2.1 ++ b2).map (toL m.hb)))) { m.left with
      entries := ((split (onRec (calm f)) (a1 ++ b1) s).2.1 ++ b2).map (toL m.hb) },
    right := t2 }, ?_, ?_, ?_, ?_, ?_, hkn, ?_, ?_, ?_, ?_, ?_, ?_⟩
  · rw [← List.map_append, ← hqs]; exact hp
  · simp only [List.map_nil] at e1
    simp only [drainFilterP, he, e1, bind, Except.bind, e2, split_map, pure, Except.pure]
    rw [hsp]; simp
    simp [e]
  · rw [split_map, ← List.map_append]
    refine Rep.repr (m := { m with left := _, right := t2 }) ⟨?_, ?_, ?_, ?_⟩
    · exact LawfulRaw.touch_perm _ _
    · refine hp2.trans ?_
      rw [hsp]; simp
    · rw [hsp]; simpa using ha2
    · intro p hpm
      have := (split_perm (onRec (calm f)) (a1 ++ b1) s).mem_iff (a := p)
      refine hr.bound p ?_
      rw [hqs]
      rcases List.mem_append.1 hpm with h | h
      · exact List.mem_append_left _ (this.2 (List.mem_append_right _ h))
      · exact List.mem_append_right _ h
  · intro hret
    rw [hb2]
    · rfl
    · cases b <;> cases b' <;> simp [e] at hret ⊢
  · rw [List.map_append, crashes_append, split_map, ← hle, ← hle2]
    cases b <;> cases b' <;> simp [e]
  · rw [split_map, hsp]; simp
  · intro he
    have hbf : b = false := by cases b <;> cases b' <;> simp [e] at he ⊢
    rcases hor hbf with h | h
    · rw [h]
    · rw [split_map, hsp]
      have hb1 : b1 = [] := by
        rw [h] at hq2
        exact (List.append_eq_nil_iff.1 hq2.symm).1
      subst hb1
      simp only [split, List.append_nil]
      rw [List.take_of_length_le (by simp), List.take_of_length_le (by simpa using hkn)]
  · intro he
    exact hkn' (by cases b <;> cases b' <;> simp [e] at he ⊢)
  · intro he hr
    have hbf : b = false := by
      cases b with
      | false => rfl
      | true =>
        cases b' with
        | true => simp [e] at he
        | false => exact absurd (by rw [hb2 rfl]; rfl) hr
    refine (hor hbf).resolve_right fun h => hr ?_
    rw [h] at hq2
    rw [(List.append_eq_nil_iff.1 hq2.symm).2]; rfl
  · rw [List.map_append, panics_append, split_map, hpa]
    simp only [hpa2]
    cases b <;> cases b' <;> rfl
  · simp only [List.map_nil] at e1
    rw [he, split_map, hsp]
    exact ⟨b, _, b', _, by rw [e1]; simp; rfl, by simp only [List.nil_append] at e2; rw [e2]; simp; rfl⟩

theorem drainFilterP_refines {σ : Type} (h : Repr m c) (f : σ → L → R → Option Bool × σ) (s : σ) (n : Nat) :
    ∃ (e : Ending) (visited rest : List (L × R)) (k : Nat) (m' : CycleMap L R), (visited ++ rest).Perm c ∧
      m.drainFilterP f s n = .ok (e, (split (onPair (calm f)) visited s).1.take k, (split (onPair (calm f)) visited s).2.2, m') ∧
      Repr m' ((split (onPair (calm f)) visited s).2.1 ++ rest) ∧ (e = .returned → rest = []) ∧
      (e = .returned ↔ crashes f visited s = false) ∧ k ≤ n ∧ k ≤ (split (onPair (calm f)) visited s).1.length ∧
      (e = .returned → (split (onPair (calm f)) visited s).1.take k = (split (onPair (calm f)) visited s).1.take n) ∧
      (e = .aborted → k < n) ∧ (e = .panicked → rest ≠ [] → k = n) ∧
      panics f visited s = (match e with | .returned => 0 | .panicked => 1 | .aborted => 2) := by
  obtain ⟨e, v, r, k, m', h1, h2, h3, h4, h5, h6, h7, h8, h9, h10, h11, -⟩ := drainFilterP_takes h f s n
  exact ⟨e, v, r, k, m', h1, h2, h3, h4, h5, h6, h7, h8, h9, h10, h11⟩

end Verif.CycleMap
