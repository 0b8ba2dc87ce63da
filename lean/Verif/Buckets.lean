import Verif.Raw
/-
The table as memory, for the `unsafe` blocks of `drain_filter`.

hashbrown's raw interface hands out *buckets*, pointers into the table (`RawIter`, `RawTable::find`); `Bucket::as_ref` and
`RawTable::remove` are `unsafe` and must only be used on a bucket that holds an element.  Here a table is a list of numbered buckets, each
empty or holding an element with the hash it was stored under, and using an empty bucket is the result `none`: undefined behaviour.
-/
namespace Verif

/-- the buckets of a `RawTable` -/
structure Buckets (T : Type) where
  slots : List (Option (UInt64 × T))

/-- how a probe walks the buckets -/
class BucketImpl where
  find : {T : Type} → Buckets T → UInt64 → (T → Bool) → Option Nat

namespace Buckets
variable {T : Type}

/-- `Bucket::as_ref`: the element in a bucket.  `none` is undefined behaviour. -/
def read (b : Buckets T) (i : Nat) : Option (UInt64 × T) := b.slots[i]?.join

/-- `RawTable::remove(bucket)`: takes the element out of a bucket.  `none` is undefined behaviour. -/
def remove (b : Buckets T) (i : Nat) : Option (T × Buckets T) :=
  match b.read i with
  | none => none
  | some e => some (e.2, ⟨b.slots.set i none⟩)

/-- `RawTable::iter`: the buckets a `RawIter` yields, those that hold an element when it is made.  A `RawIter` looks at the table group by group, so it
may or may not yield buckets emptied since; the model yields them always. -/
def iter (b : Buckets T) : List Nat := (List.range b.slots.length).filter fun i => (b.read i).isSome

/-- the elements, in table order -/
def elems (b : Buckets T) : List (UInt64 × T) := b.slots.filterMap id

theorem mem_iter {b : Buckets T} {i : Nat} : i ∈ b.iter ↔ (b.read i).isSome = true := by
  rw [iter, List.mem_filter, List.mem_range]
  refine ⟨fun h => h.2, fun h => ⟨?_, h⟩⟩
  rcases Nat.lt_or_ge i b.slots.length with h1 | h1
  · exact h1
  · rw [read, List.getElem?_eq_none h1] at h; cases h

theorem iter_nodup (b : Buckets T) : b.iter.Nodup := List.nodup_range.sublist List.filter_sublist

theorem filterMap_range {α β : Type} (l : List α) (g : α → Option β) :
    (List.range l.length).filterMap (fun i => l[i]?.bind g) = l.filterMap g := by
  induction l with
  | nil => rfl
  | cons a l ih =>
    rw [List.length_cons, List.range_succ_eq_map, List.filterMap_cons, List.filterMap_map]
    have : (List.range l.length).filterMap ((fun i => (a :: l)[i]?.bind g) ∘ Nat.succ) = l.filterMap g := by
      rw [← ih]; rfl
    rw [this, List.filterMap_cons]
    rfl

theorem filterMap_congr' {α β : Type} {f g : α → Option β} {l : List α} (h : ∀ a ∈ l, f a = g a) : l.filterMap f = l.filterMap g := by
  induction l with
  | nil => rfl
  | cons a l ih =>
    rw [List.filterMap_cons, List.filterMap_cons, h a List.mem_cons_self, ih fun b hb => h b (List.mem_cons_of_mem _ hb)]

/-- an iterator over a table nobody changes yields its elements -/
theorem iter_read (b : Buckets T) : b.iter.filterMap b.read = b.elems := by
  have h : ∀ l : List Nat, (l.filter fun i => (b.read i).isSome).filterMap b.read = l.filterMap b.read := by
    intro l
    induction l with
    | nil => rfl
    | cons i l ih =>
      cases h : b.read i <;> simp [h, ih]
  rw [iter, h, elems, ← filterMap_range b.slots id]
  exact filterMap_congr' fun i _ => by rw [read]; cases b.slots[i]? <;> rfl

theorem map_filterMap {α β : Type} {g : α → Option β} {as : List α} {bs : List β} (h : as.map g = bs.map some) : as.filterMap g = bs := by
  induction as generalizing bs with
  | nil => cases bs with
    | nil => rfl
    | cons _ _ => cases h
  | cons a as ih =>
    cases bs with
    | nil => cases h
    | cons b bs =>
      simp only [List.map_cons, List.cons.injEq] at h
      rw [List.filterMap_cons, h.1, ih h.2]

theorem iter_map_read (b : Buckets T) : b.iter.map b.read = b.elems.map some := by
  rw [← iter_read]
  have : ∀ l : List Nat, (∀ i ∈ l, (b.read i).isSome = true) → l.map b.read = (l.filterMap b.read).map some := by
    intro l hl
    induction l with
    | nil => rfl
    | cons i l ih =>
      obtain ⟨e, he⟩ := Option.isSome_iff_exists.1 (hl i List.mem_cons_self)
      simp [he, ih fun k hk => hl k (List.mem_cons_of_mem _ hk)]
  exact this _ fun i hi => mem_iter.1 hi

theorem remove_of_read {b : Buckets T} {i : Nat} {e : UInt64 × T} (h : b.read i = some e) :
    b.remove i = some (e.2, ⟨b.slots.set i none⟩) := by rw [remove, h]

theorem read_set (b : Buckets T) (i k : Nat) : (Buckets.mk (b.slots.set i none)).read k = if k = i then none else b.read k := by
  rw [read, read, List.getElem?_set]
  by_cases hk : i = k
  · subst hk
    rw [if_pos rfl, if_pos rfl]
    split <;> rfl
  · rw [if_neg hk, if_neg fun e => hk e.symm]

theorem iter_set (b : Buckets T) (i : Nat) : (Buckets.mk (b.slots.set i none)).iter = b.iter.filter fun k => k != i := by
  rw [iter, iter, List.filter_filter, List.length_set]
  congr 1
  funext k
  rw [read_set]
  by_cases hk : k = i <;> simp [hk]

/-- the elements after one has been removed -/
theorem elems_set {b : Buckets T} {i : Nat} {e : UInt64 × T} (h : b.read i = some e) :
    ∃ xs ys, b.elems = xs ++ e :: ys ∧ (Buckets.mk (b.slots.set i none)).elems = xs ++ ys := by
  obtain ⟨as, bs, hs⟩ := List.append_of_mem (mem_iter.2 (by rw [h]; rfl : (b.read i).isSome = true))
  have hn := b.iter_nodup
  rw [hs, List.nodup_append] at hn
  have ha : i ∉ as := fun hh => hn.2.2 i hh i List.mem_cons_self rfl
  have hb : i ∉ bs := (List.nodup_cons.1 hn.2.1).1
  have fa : ∀ l : List Nat, i ∉ l → l.filter (fun k => k != i) = l := fun l hl =>
    List.filter_eq_self.2 fun k hk => bne_iff_ne.2 fun e => hl (e ▸ hk)
  have fr : ∀ l : List Nat, i ∉ l → l.filterMap (Buckets.mk (b.slots.set i none)).read = l.filterMap b.read := fun l hl => by
    refine filterMap_congr' fun k hk => ?_
    rw [read_set, if_neg fun (h : k = i) => hl (h ▸ hk)]
  refine ⟨as.filterMap b.read, bs.filterMap b.read, ?_, ?_⟩
  · rw [← iter_read, hs, List.filterMap_append, List.filterMap_cons, h]
  · rw [← iter_read, iter_set, hs, List.filter_append, List.filter_cons, fa as ha, fa bs hb]
    simp [List.filterMap_append, fr as ha, fr bs hb]

theorem read_mem {b : Buckets T} {i : Nat} {e : UInt64 × T} (h : b.read i = some e) : e ∈ b.elems := by
  obtain ⟨xs, ys, h1, -⟩ := elems_set h
  rw [h1]; simp

theorem elems_set_perm {b : Buckets T} {i : Nat} {e : UInt64 × T} (h : b.read i = some e) :
    (e :: (Buckets.mk (b.slots.set i none)).elems).Perm b.elems := by
  obtain ⟨xs, ys, h1, h2⟩ := elems_set h
  rw [h1, h2]
  exact List.perm_middle.symm

/-- an iterator over `b` has passed the buckets of `kept` and will yield those of `todo` -/
def At (b : Buckets T) (is : List Nat) (kept todo : List (UInt64 × T)) : Prop :=
  ∃ K, b.iter = K ++ is ∧ K.map b.read = kept.map some ∧ is.map b.read = todo.map some

theorem At.start (b : Buckets T) : b.At b.iter [] b.elems := ⟨[], rfl, rfl, b.iter_map_read⟩

theorem At.elems {b : Buckets T} {is kept todo} (h : b.At is kept todo) : b.elems = kept ++ todo := by
  obtain ⟨K, h1, h2, h3⟩ := h
  rw [← iter_read, h1, List.filterMap_append, map_filterMap h2, map_filterMap h3]

theorem At.done {b : Buckets T} {is kept} (h : b.At is kept []) : is = [] := by
  obtain ⟨K, -, -, h3⟩ := h
  exact List.map_eq_nil_iff.1 h3

theorem At.length {b : Buckets T} {is kept todo} (h : b.At is kept todo) : is.length = todo.length := by
  obtain ⟨K, -, -, h3⟩ := h
  simpa using congrArg List.length h3

theorem At.next {b : Buckets T} {is kept e todo} (h : b.At is kept (e :: todo)) : ∃ i is', is = i :: is' ∧ b.read i = some e ∧
    b.At is' (kept ++ [e]) todo ∧ (Buckets.mk (b.slots.set i none)).At is' kept todo := by
  obtain ⟨K, h1, h2, h3⟩ := h
  cases is with
  | nil => cases h3
  | cons i is =>
    simp only [List.map_cons, List.cons.injEq] at h3
    obtain ⟨h3, h4⟩ := h3
    have hn := b.iter_nodup
    rw [h1] at hn
    have hn := List.nodup_append.1 hn
    have hK : ∀ k ∈ K, k ≠ i := fun k hk => hn.2.2 k hk i List.mem_cons_self
    have hT : ∀ k ∈ is, k ≠ i := fun k hk e => (List.nodup_cons.1 hn.2.1).1 (e ▸ hk)
    refine ⟨i, is, rfl, h3, ⟨K ++ [i], by rw [h1]; simp, by simp [h2, h3], h4⟩, K, ?_, ?_, ?_⟩
    · rw [iter_set, h1, List.filter_append, List.filter_cons, List.filter_eq_self.2 fun k hk => bne_iff_ne.2 (hK k hk),
        List.filter_eq_self.2 fun k hk => bne_iff_ne.2 (hT k hk)]
      simp
    · rw [← h2]
      exact List.map_congr_left fun k hk => by rw [read_set, if_neg (hK k hk)]
    · rw [← h4]
      exact List.map_congr_left fun k hk => by rw [read_set, if_neg (hT k hk)]

end Buckets

/-- The contract of `RawTable::find`, as in `LawfulRaw`: a hit is a bucket with an element that satisfies the predicate, and an element
stored under the probed hash that satisfies the predicate makes the probe hit. -/
class LawfulBuckets [BucketImpl] : Prop where
  find_sound : ∀ {T : Type} (b : Buckets T) (h : UInt64) (p : T → Bool) (i : Nat),
    BucketImpl.find b h p = some i → ∃ e, b.read i = some e ∧ p e.2 = true
  find_complete : ∀ {T : Type} (b : Buckets T) (h : UInt64) (p : T → Bool) (e : UInt64 × T),
    e ∈ b.elems → e.1 = h → p e.2 = true → BucketImpl.find b h p ≠ none

/-- an implementation that tries the buckets one after the other -/
@[instance_reducible] def scanBuckets : BucketImpl where
  find b _ p := b.iter.find? fun i => (b.read i).any fun e => p e.2

theorem scanBuckets_lawful : letI := scanBuckets; LawfulBuckets := by
  letI := scanBuckets
  refine ⟨fun b h p i hi => ?_, fun b h p e he _ hp hn => ?_⟩
  · have := List.find?_some hi
    cases hr : b.read i with
    | none => rw [hr] at this; cases this
    | some e => rw [hr] at this; exact ⟨e, rfl, this⟩
  · rw [← Buckets.iter_read, List.mem_filterMap] at he
    obtain ⟨i, hi, hr⟩ := he
    have := List.find?_eq_none.1 hn i hi
    rw [hr] at this
    exact this hp

end Verif
