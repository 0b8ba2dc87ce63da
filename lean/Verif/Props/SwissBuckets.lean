import Verif.Props.Buckets
import Verif.Props.Swiss
/-
C125 on the concrete table: the buckets that `drain_filter` walks are the slots of the table itself, and nothing is assumed about tables any more.
-/
namespace Verif.Swiss
variable {w : Nat} {L R σ : Type} [BEq L] [BEq R] [EquivBEq L] [EquivBEq R]

/-- the slots of a table as raw buckets; `EMPTY` and `DELETED` both hold nothing -/
def rawBuckets (w : Nat) {T : Type} (t : RawTable T) : Buckets T := ⟨(slots w t).map Slot.get?⟩

omit [BEq L] [BEq R] [EquivBEq L] [EquivBEq R] in
/-- C125: taking an element out of the concrete table leaves the others where they are, so that the assumption of
`PartialMap.C125_drain_filter` holds of it. -/
theorem C125_stable (w : Nat) : @PartialMap.StableErase (swissRaw w) :=
  @PartialMap.StableErase.mk (swissRaw w) fun s t => by
    show (touch w (.erase s) t).entries = t.entries
    simp only [touch]
    split <;> rfl

omit [BEq L] [BEq R] [EquivBEq L] [EquivBEq R] in
theorem Healthy.elems {T : Type} {t : RawTable T} (h : Healthy w t) : (rawBuckets w t).elems = t.entries := by
  rw [rawBuckets, Buckets.elems, List.filterMap_map]
  exact h.items

variable [BucketImpl] [LawfulBuckets]

/-- C125 for `CycleMap` on the concrete table, for every group width: the buckets are the slots of its two tables. -/
theorem C125_swiss_cycleMap {m : CycleMap L R} (h : @CycleMap.Reachable (swissRaw w) L R _ _ m) (f : σ → L → R → Option Bool × σ) (st : σ) (n : Nat) :
    ∃ e ps st' m' left' right', @CycleMap.drainFilterP (swissRaw w) L R _ _ σ m f st n = .ok (e, ps, st', m') ∧
      CycleMap.drainFilterB (rawBuckets w m.left) (rawBuckets w m.right) f st n = some (e, ps, st', left', right') ∧
      left'.elems.Perm m'.left.entries ∧ right'.elems.Perm m'.right.entries := by
  let _ := swissRaw w; have := swissRaw_lawful w
  obtain ⟨h1, h2⟩ := C94_cycle_tables h
  obtain ⟨c, hc⟩ := h.repr
  exact CycleMap.C125_drain_filter h hc.shows h1.elems (by rw [h2.elems]) f st n

/-- C125 for `PartialCycleMap` on the concrete table, for every group width: the buckets are the slots of its two tables. -/
theorem C125_swiss_partialMap {m : PartialMap L R} (h : @PartialMap.Reachable (swissRaw w) L R _ _ m) (f : σ → OptionalPair L R → Option Bool × σ) (st : σ)
    (n : Nat) :
    ∃ e ps st' m' left' right', @PartialMap.drainFilterP (swissRaw w) L R _ _ σ m f st n = .ok (e, ps, st', m') ∧
      PartialMap.drainFilterB (rawBuckets w m.left) (rawBuckets w m.right) f st n = some (e, ps, st', left', right') ∧
      left'.elems = m'.left.entries ∧ right'.elems = m'.right.entries := by
  let _ := swissRaw w; have := swissRaw_lawful w; have := C125_stable w
  obtain ⟨h1, h2⟩ := C94_partial_tables h
  obtain ⟨c, hc⟩ := h.repr
  exact PartialMap.C125_drain_filter h hc.shows h1.elems h2.elems f st n

/-- the demo maps on the table with groups of 16 slots; the closures take every other entry -/
example : letI := scanBuckets
    let m := @CycleMap.Demo.demo (swissRaw 4)
    ∃ e ps st' m' left' right', @CycleMap.drainFilterP (swissRaw 4) Nat Nat _ _ Nat m (fun n _ _ => (some (n % 2 == 0), n + 1)) 0 5 = .ok (e, ps, st', m') ∧
      CycleMap.drainFilterB (rawBuckets 4 m.left) (rawBuckets 4 m.right) (fun (n : Nat) _ _ => (some (n % 2 == 0), n + 1)) 0 5 =
        some (e, ps, st', left', right') ∧
      left'.elems.Perm m'.left.entries ∧ right'.elems.Perm m'.right.entries := by
  let _ := scanBuckets; have := scanBuckets_lawful
  exact C125_swiss_cycleMap (@CycleMap.Demo.demo_reachable (swissRaw 4) (swissRaw_lawful 4)) _ 0 5

example : letI := scanBuckets
    let m := @PartialMap.Demo.demo (swissRaw 4)
    ∃ e ps st' m' left' right', @PartialMap.drainFilterP (swissRaw 4) Nat Nat _ _ Nat m (fun n _ => (some (n % 2 == 0), n + 1)) 0 5 = .ok (e, ps, st', m') ∧
      PartialMap.drainFilterB (rawBuckets 4 m.left) (rawBuckets 4 m.right) (fun (n : Nat) _ => (some (n % 2 == 0), n + 1)) 0 5 =
        some (e, ps, st', left', right') ∧
      left'.elems = m'.left.entries ∧ right'.elems = m'.right.entries := by
  let _ := scanBuckets; have := scanBuckets_lawful
  exact C125_swiss_partialMap (@PartialMap.Demo.demo_reachable (swissRaw 4) (swissRaw_lawful 4)) _ 0 5

end Verif.Swiss
