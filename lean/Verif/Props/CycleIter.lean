import Verif.Props.CycleBasic
/-! Properties C19–C23 of `CycleMap`: iteration, draining, filtering. -/
set_option linter.unusedSectionVars false
namespace Verif.CycleMap
open CycleSpec OptionalPair Demo

variable [RawImpl] [LawfulRaw] {L R : Type} [BEq L] [BEq R] [EquivBEq L] [EquivBEq R]
variable {m : CycleMap L R} {c : List (L × R)}

/-! ### C19 -/

/-- C19: there is one order `ps` of the pairs such that `iter` yields `ps`; after `k` steps it has yielded
the first `k` of them, reports the number of the others as its length, and `j` more steps yield the next `j`.
`iter_left` / `iter_right` yield the items of those pairs. -/
theorem C19_iter (h : Reachable m) (hc : Shows m c) :
    ∃ ps : List (L × R), ps.Perm c ∧ m.iterList = .ok ps ∧
      (∀ k, ∃ it, Iter.take m k m.iter = .ok (ps.take k, it) ∧ it.len = (ps.drop k).length ∧
        ∀ j, ∃ it', Iter.take m j it = .ok ((ps.drop k).take j, it')) ∧
      (∀ l r, (l, r) ∈ ps → m.getRight l = some r ∧ m.getLeft r = some l) ∧
      m.iterLeft.Perm (ps.map (·.1)) ∧ m.iterRight.Perm (ps.map (·.2)) := by
  obtain ⟨qs, hq, hr, he⟩ := (h.repr_of_shows hc).ordered
  refine ⟨qs.map Rec.pair, hq, ?_, ?_, ?_, hc.iterLeft.trans (hq.symm.map _), hc.iterRight.trans (hq.symm.map _)⟩
  · rw [iterList, iter_todo he]; exact hr.collect (fun _ h => h)
  · intro k
    have hi : m.iter = ⟨elemsL m.hb qs⟩ := by rw [← iter_todo he]
    refine ⟨⟨elemsL m.hb (qs.drop k)⟩, ?_, ?_, ?_⟩
    · rw [hi, hr.take (fun _ h => h), List.map_take]
    · simp [Iter.len, elemsL]
    · intro j
      exact ⟨_, by rw [hr.take (fun _ h => List.mem_of_mem_drop h), List.map_take, List.map_drop]⟩
  · intro l r hm
    have hm := hq.mem_iff.1 hm
    rw [hc.getRight, hc.getLeft, findL_of_mem hc.oneToOne hm BEq.rfl, findR_of_mem hc.oneToOne hm BEq.rfl]
    exact ⟨rfl, rfl⟩

example : ∃ ps : List (Nat × Nat), ps.Perm [(3, 30), (2, 20), (1, 10)] ∧ demo.iterList = .ok ps :=
  have ⟨ps, h1, h2, _⟩ := C19_iter demo_reachable demo_shows
  ⟨ps, h1, h2⟩

/-! ### C20 -/

/-- C20: `drain` consumed to the end yields every pair once (its length counting down), the map is then
empty in both directions, and every later history goes as on a new map. -/
theorem C20_drain (h : Reachable m) (hc : Shows m c) (n : Nat) (hn : c.length ≤ n) :
    ∃ (ps : List (L × R)) (m' : CycleMap L R), ps.Perm c ∧ m.drainTake n = .ok (ps, m') ∧ Shows m' [] ∧
      (∀ ops, SafeRun [] ops → ∃ os m'' c'', m'.run ops = .ok (os, m'') ∧ Steps [] ops os c'' ∧ Shows m'' c'') ∧
      (∀ k, ∃ it, DrainIter.take k m.drain = .ok (ps.take k, it) ∧ it.len = (ps.drop k).length) := by
  obtain ⟨qs, hq, hr, he⟩ := (h.repr_of_shows hc).ordered
  have hd : m.drain = ⟨elemsL m.hb qs, m.right⟩ := by
    rw [drain, ← iter_todo he]; rfl
  have key := fun k => drain_take k hr.right (hr.apart.imp fun h => h.1)
  obtain ⟨d, m', hp, e, hm, _⟩ := drain_refines (h.repr_of_shows hc) hn
  have hps : d = qs.map Rec.pair := by
    obtain ⟨t, e', _⟩ := key n
    rw [drainTake, hd, e'] at e
    have e := (Prod.mk.inj (Except.ok.inj e)).1
    rw [← e, List.take_of_length_le]
    have := hq.length_eq; simp at this; omega
  subst hps
  refine ⟨_, m', hp, e, hm.shows, ?_, ?_⟩
  · intro ops hs
    obtain ⟨os, m'', c'', e, s, h⟩ := run_simulates hm hs
    exact ⟨os, m'', c'', e, s, h.shows⟩
  · intro k
    obtain ⟨t, e', _⟩ := key k
    refine ⟨_, by rw [hd, e', List.map_take], ?_⟩
    simp [DrainIter.len, elemsL]

example : ∃ (ps : List (Nat × Nat)) (m' : CycleMap Nat Nat), ps.Perm [(3, 30), (2, 20), (1, 10)] ∧ demo.drainTake 4 = .ok (ps, m') ∧ Shows m' [] :=
  have ⟨ps, m', h1, h2, h3, _⟩ := C20_drain demo_reachable demo_shows 4 (by decide)
  ⟨ps, m', h1, h2, h3⟩

/-! ### C21 -/

/-- C21 in full: however many items are taken, the map is empty afterwards.  False, see `C21_false`. -/
def C21_full : Prop :=
  ∀ [RawImpl] [LawfulRaw] (L R : Type) [BEq L] [BEq R] [EquivBEq L] [EquivBEq R] (m : CycleMap L R)
    (c : List (L × R)) (n : Nat), Reachable m → Shows m c →
    ∃ (d : List (L × R)) (m' : CycleMap L R), d.Perm c ∧ m.drainTake n = .ok (d.take n, m') ∧ Shows m' [] ∧
      ∀ ops, SafeRun [] ops → ∃ os m'' c'', m'.run ops = .ok (os, m'') ∧ Steps [] ops os c'' ∧ Shows m'' c''

/-- What happens instead, for every map and every drop point: the left side is empty, but every pair that was
not yielded leaves its right item behind, without a partner; removing it or inserting it again panics. -/
theorem C21_actual (h : Reachable m) (hc : Shows m c) (n : Nat) :
    ∃ (d : List (L × R)) (m' : CycleMap L R), d.Perm c ∧ m.drainTake n = .ok (d.take n, m') ∧
      m'.len = 0 ∧ m'.iterLeft = [] ∧ (∀ l, m'.containsLeft l = false) ∧
      m'.iterRight.Perm ((d.drop n).map (·.2)) ∧
      ∀ p ∈ d.drop n, m'.containsRight p.2 = true ∧ m'.getLeft p.2 = none ∧
        m'.removeViaRight p.2 = .error .unwrapNone ∧ ∀ l, m'.insert l p.2 = .error .unwrapNone := by
  obtain ⟨d, m', hp, e, hb, _, hl, rs, hrs, hr, ha⟩ := drainTake_refines (h.repr_of_shows hc) n
  have nl : ∀ x (P : MappingPair L → Bool), m'.left.get x P = none := by
    intro x P; exact RawTable.get_none (by simp [hl])
  have nr : ∀ x (P : MappingPair L → Bool), m'.left.removeEntry x P = none := by
    intro x P; exact RawTable.removeEntry_none (by simp [hl])
  refine ⟨d, m', hp, e, ?_, ?_, ?_, ?_, ?_⟩
  · simp [len, RawTable.len, hl]
  · simp [iterLeft, RawTable.toList, hl]
  · intro l; simp [containsLeft, nl]
  · rw [← hrs, iterRight, RawTable.toList, List.map_map]
    refine (hr.map _).trans ?_
    simp [Function.comp_def, toR, Rec.pair]
  · intro p hpm
    rw [← hrs] at hpm
    obtain ⟨q, hq, rfl⟩ := List.mem_map.1 hpm
    obtain ⟨ts, ht⟩ := perm_cons_of_mem hq
    have ha' := List.pairwise_cons.1 ((ht.pairwise_iff (fun h => h.symm)).1 ha)
    have hperm : m'.right.entries.Perm (toR m.hb q :: ts.map (toR m.hb)) := hr.trans (ht.map _)
    have hk : ∀ e ∈ ts.map (toR m.hb), equivalentKey q.r e.2 = false := by
      intro e he
      obtain ⟨t, ht, rfl⟩ := List.mem_map.1 he
      exact (ha'.1 t ht).2.2
    have hself : equivalentKey q.r (toR m.hb q).2 = true := BEq.rfl
    have g1 : m'.right.get (m'.hb.hr q.r) (equivalentKey q.r) = some (toR m.hb q).2 := by
      rw [hb]; exact RawTable.get_some hperm rfl hself hk
    obtain ⟨t', g2, _⟩ := RawTable.removeEntry_some hperm (h := m'.hb.hr q.r) (p := equivalentKey q.r)
      (by rw [hb]; rfl) hself hk
    have g3 : m'.removeViaRight q.r = .error .unwrapNone := by simp [removeViaRight, g2, nr]
    refine ⟨by simp [containsRight, Rec.pair, g1], ?_, g3, ?_⟩
    · have : m'.right.get (m'.hb.hr q.r) (fun x => q.r == x.value) = some (toR m.hb q).2 := g1
      simp [getLeft, getLeftBy, Rec.pair, this, nl]
    · intro l
      have : m'.removeViaLeft l = .ok (none, m') := by simp [removeViaLeft, nr]
      simp [insert, this, Rec.pair, g3, bind, Except.bind]

/-- C21, what holds: no panic, the yielded pairs are pairs of the map, the left side ends up empty; and if
all items were taken, the right side, too.  Missing: the right side of an early-dropped drain. -/
theorem C21_partial (h : Reachable m) (hc : Shows m c) (n : Nat) :
    ∃ (d : List (L × R)) (m' : CycleMap L R), d.Perm c ∧ m.drainTake n = .ok (d.take n, m') ∧ m'.len = 0 ∧ m'.iterLeft = [] ∧
      (∀ l, m'.containsLeft l = false) ∧ (c.length ≤ n → Shows m' []) := by
  obtain ⟨d, m', h1, h2, h3, h4, h5, _⟩ := C21_actual h hc n
  refine ⟨d, m', h1, h2, h3, h4, h5, fun hn => ?_⟩
  obtain ⟨_, m'', _, e, hm, _⟩ := drain_refines (h.repr_of_shows hc) hn
  rw [h2] at e; cases e
  exact hm.shows

example : ∃ (d : List (Nat × Nat)) (m' : CycleMap Nat Nat), d.Perm [(3, 30), (2, 20), (1, 10)] ∧ demo.drainTake 1 = .ok (d.take 1, m') ∧ m'.len = 0 :=
  have ⟨d, m', h1, h2, h3, _⟩ := C21_partial demo_reachable demo_shows 1
  ⟨d, m', h1, h2, h3⟩

omit [RawImpl] [LawfulRaw] in
/-- the witness: `drain()` on three pairs, dropped after one item -/
theorem C21_false : ¬ C21_full := by
  intro h
  letI := messyRaw; haveI := messyRaw_lawful
  obtain ⟨ps, m', _, e, s, _⟩ := h Nat Nat demo _ 1 demo_reachable demo_shows
  obtain ⟨d, m'', hp, e', _, _, _, hr, _⟩ := C21_actual demo_reachable demo_shows 1
  rw [e] at e'; obtain rfl := (Prod.ext_iff.1 (Except.ok.inj e')).2
  have := (hr.symm.trans s.iterRight).length_eq
  have := hp.length_eq
  simp at *
  omega

/-! ### C22, C23 -/

/-- a closure that also writes down what it is called on -/
def logging {σ : Type} (f : σ → L → R → Bool × σ) : List (L × R) × σ → L → R → Bool × (List (L × R) × σ) :=
  fun s l r => ((f s.2 l r).1, (s.1 ++ [(l, r)], (f s.2 l r).2))

theorem split_logging {σ : Type} (f : σ → L → R → Bool × σ) (d log : List (L × R)) (s : σ) :
    split (fun s p => logging f s p.1 p.2) d (log, s) =
      ((split (fun s p => f s p.1 p.2) d s).1, (split (fun s p => f s p.1 p.2) d s).2.1,
        (log ++ d, (split (fun s p => f s p.1 p.2) d s).2.2)) := by
  induction d generalizing log s with
  | nil => simp [split]
  | cons p d ih =>
    simp only [split, logging]
    have := ih (log ++ [(p.1, p.2)]) (f s p.1 p.2).2
    simp only [logging] at this
    cases hf : f s p.1 p.2 with
    | mk b s' => rw [hf] at this; cases b <;> simp [this]

/-- C22: `drain_filter(f)` with `n` items taken before the drop.  For some order `d` of the pairs, the
closure (with its own state) is run over `d`; exactly the pairs it accepts are removed, the first `n` of them are
yielded, the others stay; and it was called on each pair exactly once. -/
theorem C22_drain_filter {σ : Type} (h : Reachable m) (hc : Shows m c) (f : σ → L → R → Bool × σ) (s : σ) (n : Nat) :
    ∃ (d : List (L × R)) (m' : CycleMap L R), d.Perm c ∧
      m.drainFilterTake (logging f) ([], s) n =
        .ok ((split (fun s p => f s p.1 p.2) d s).1.take n, (d, (split (fun s p => f s p.1 p.2) d s).2.2), m') ∧
      Shows m' (split (fun s p => f s p.1 p.2) d s).2.1 := by
  obtain ⟨d, m', hp, e, h', _⟩ := drainFilterTake_refines (h.repr_of_shows hc) (logging f) ([], s) n
  have key := split_logging f d [] s
  have e2 : split (onPair (logging f)) d ([], s) = split (fun s p => logging f s p.1 p.2) d ([], s) := rfl
  rw [e2, key] at e h'
  exact ⟨d, m', hp, by simpa using e, h'.shows⟩

/-- C22 for a closure without state: the removed and the kept pairs. -/
theorem C22_drain_filter_pure (h : Reachable m) (hc : Shows m c) (f : L → R → Bool) (n : Nat) :
    ∃ (d : List (L × R)) (m' : CycleMap L R), d.Perm c ∧
      m.drainFilterTake (fun (_ : Unit) l r => (f l r, ())) () n = .ok ((d.filter fun p => f p.1 p.2).take n, (), m') ∧
      Shows m' (c.filter fun p => !f p.1 p.2) := by
  obtain ⟨d, m', hp, e, h', _⟩ := drainFilterTake_refines (h.repr_of_shows hc) (fun (_ : Unit) l r => (f l r, ())) () n
  have key := split_pure (f := onPair fun (_ : Unit) l r => (f l r, ())) (g := fun p => f p.1 p.2) (fun _ _ => rfl) d ()
  rw [key.1] at e; rw [key.2] at h'
  exact ⟨d, m', hp, e, (h'.perm (hp.filter _)).shows⟩

example : ∃ (d : List (Nat × Nat)) (m' : CycleMap Nat Nat), d.Perm [(3, 30), (2, 20), (1, 10)] ∧
    demo.drainFilterTake (fun (_ : Unit) l _ => (l % 2 == 1, ())) () 1 = .ok ((d.filter fun p => p.1 % 2 == 1).take 1, (), m') ∧
    Shows m' [(2, 20)] :=
  C22_drain_filter_pure demo_reachable demo_shows (fun l _ => l % 2 == 1) 1

/-- C23: `retain(f)` runs the closure once over every pair, in some order `d`, and keeps exactly the
pairs it accepts. -/
theorem C23_retain {σ : Type} (h : Reachable m) (hc : Shows m c) (f : σ → L → R → Bool × σ) (s : σ) :
    ∃ (d : List (L × R)) (m' : CycleMap L R), d.Perm c ∧
      m.retain (logging f) ([], s) = .ok ((d, (split (fun s p => f s p.1 p.2) d s).2.2), m') ∧
      Shows m' (split (fun s p => f s p.1 p.2) d s).1 := by
  obtain ⟨d, m', hp, e, h', _⟩ := retain_refines (h.repr_of_shows hc) (logging f) ([], s)
  have key := split_logging f d [] s
  have e2 : split (onPair (logging f)) d ([], s) = split (fun s p => logging f s p.1 p.2) d ([], s) := rfl
  rw [e2, key] at e h'
  exact ⟨d, m', hp, by simpa using e, h'.shows⟩

/-- C23 for a closure without state. -/
theorem C23_retain_pure (h : Reachable m) (hc : Shows m c) (f : L → R → Bool) :
    ∃ m', m.retain (fun (_ : Unit) l r => (f l r, ())) () = .ok ((), m') ∧ Shows m' (c.filter fun p => f p.1 p.2) := by
  obtain ⟨d, m', hp, e, h', _⟩ := retain_refines (h.repr_of_shows hc) (fun (_ : Unit) l r => (f l r, ())) ()
  have key := split_pure (f := onPair fun (_ : Unit) l r => (f l r, ())) (g := fun p => f p.1 p.2) (fun _ _ => rfl) d ()
  rw [key.1] at h'
  exact ⟨m', e, (h'.perm (hp.filter _)).shows⟩

example : ∃ m', demo.retain (fun (_ : Unit) l _ => (l % 2 == 1, ())) () = .ok ((), m') ∧ Shows m' [(3, 30), (1, 10)] :=
  C23_retain_pure demo_reachable demo_shows (fun l _ => l % 2 == 1)

end Verif.CycleMap
