/-
Model of the interface of `hashbrown::raw::RawTable` (hashbrown 0.12, feature "raw") that the crate
uses (`/repo/Cargo.toml:18`), and of `/repo/src/utils.rs`.

hashbrown itself is not part of /repo.  It is modelled by its contract: a table is a finite list
of entries, each an element together with the 64-bit hash it was inserted under.  *How* a probe
walks the table and how the table is laid out after a mutation is left open: `RawImpl` is an
arbitrary implementation and `LawfulRaw` states the only facts the proofs may use.
-/

namespace Verif

/-- Reasons for which a modelled call can panic. -/
inductive Panic where
  /-- `Option::unwrap()` on `None` -/
  | unwrapNone
  /-- `unreachable!()` was reached -/
  | unreachable
deriving DecidableEq, Repr

/-- Result of a call: a value or a panic. -/
abbrev Res (α : Type) := Except Panic α

/-- `hashbrown::raw::RawTable<T>`.  `aux` stands for everything else the table remembers (bucket
mask, tombstones, growth budget): uninterpreted, but the implementation may depend on it. -/
structure RawTable (T : Type) where
  entries : List (UInt64 × T)
  aux : Nat := 0

/-- The mutating entry points that may reorganise a table; passed to `RawImpl.touch`. -/
inductive TableOp where
  | new (capacity : Nat)
  | insert (hash : UInt64)
  /-- some elements were removed: for each element that was there, in table order, whether it stays -/
  | erase (stays : List Bool)
  | clear (dropped : Nat)
  | reserve (additional : Nat)
  | shrink (minCapacity : Nat)

/-- An arbitrary implementation of the table. -/
class RawImpl where
  /-- index of the element a probe for `hash` with predicate `p` hits, if any -/
  find : {T : Type} → RawTable T → UInt64 → (T → Bool) → Option Nat
  /-- the layout after a mutating call -/
  touch : {T : Type} → TableOp → RawTable T → RawTable T
  /-- whether a call moves all elements to new places (growing, shrinking, or cleaning up tombstones), for which
  it computes their hashes anew -/
  rehashes : {T : Type} → TableOp → RawTable T → Bool
  /-- the number of elements that can still be inserted before the table has to grow or clean up -/
  growthLeft : {T : Type} → RawTable T → Nat

/-- The contract of `RawTable` the proofs rely on. -/
class LawfulRaw [RawImpl] : Prop where
  /-- a hit is an element of the table that satisfies the predicate (its stored hash may differ from
  the probed hash: only seven bits of it are compared) -/
  find_sound : ∀ {T : Type} (t : RawTable T) (h : UInt64) (p : T → Bool) (i : Nat),
    RawImpl.find t h p = some i → ∃ e, t.entries[i]? = some e ∧ p e.2 = true
  /-- an element that was stored under the probed hash and satisfies the predicate makes the probe hit -/
  find_complete : ∀ {T : Type} (t : RawTable T) (h : UInt64) (p : T → Bool) (e : UInt64 × T),
    e ∈ t.entries → e.1 = h → p e.2 = true → RawImpl.find t h p ≠ none
  /-- reorganising a table keeps its entries -/
  touch_perm : ∀ {T : Type} (c : TableOp) (t : RawTable T),
    (RawImpl.touch c t).entries.Perm t.entries

namespace RawTable
variable [RawImpl] {T : Type}

/-- `RawTable::new` / `RawTable::with_capacity` -/
def withCapacity (n : Nat) : RawTable T := RawImpl.touch (.new n) ⟨[], 0⟩

/-- `RawTable::get`: the element hit by the probe -/
def get (t : RawTable T) (h : UInt64) (p : T → Bool) : Option T :=
  match RawImpl.find t h p with
  | none => none
  | some i => (t.entries[i]?).map (·.2)

/-- `RawTable::get_mut`: the element hit by the probe and the table that results from overwriting it
in place (the stored hash stays) -/
def getMut (t : RawTable T) (h : UInt64) (p : T → Bool) : Option (T × (T → RawTable T)) :=
  match RawImpl.find t h p with
  | none => none
  | some i => (t.entries[i]?).map fun e => (e.2, fun v => { t with entries := t.entries.set i (e.1, v) })

/-- `RawTable::len` -/
def len (t : RawTable T) : Nat := t.entries.length

/-- all of `n` elements but the one at index `i` -/
def allBut (n i : Nat) : List Bool := (List.range n).map (· != i)

/-- `RawTable::remove_entry` (and `find` followed by `remove` of the bucket) -/
def removeEntry (t : RawTable T) (h : UInt64) (p : T → Bool) : Option (T × RawTable T) :=
  match RawImpl.find t h p with
  | none => none
  | some i => (t.entries[i]?).map fun e =>
      (e.2, RawImpl.touch (.erase (allBut t.len i)) { t with entries := t.entries.eraseIdx i })

/-- moving the elements of a table, if the implementation decides to: every element is from then on stored under
what the hasher passed to the call says -/
def rehash (op : TableOp) (hasher : T → UInt64) (t : RawTable T) : RawTable T :=
  if RawImpl.rehashes op t then { t with entries := t.entries.map fun e => (hasher e.2, e.2) } else t

/-- `RawTable::insert(hash, value, hasher)` (may grow or rehash before it inserts) -/
def insert (t : RawTable T) (h : UInt64) (v : T) (hasher : T → UInt64) : RawTable T :=
  let t := t.rehash (.insert h) hasher
  RawImpl.touch (.insert h) { t with entries := (h, v) :: t.entries }

/-- `RawTable::clear` -/
def clear (t : RawTable T) : RawTable T := RawImpl.touch (.clear t.entries.length) { t with entries := [] }

/-- `RawTable::reserve(additional, hasher)` / `try_reserve` -/
def reserve (t : RawTable T) (n : Nat) (hasher : T → UInt64) : RawTable T :=
  RawImpl.touch (.reserve n) (t.rehash (.reserve n) hasher)

/-- `RawTable::shrink_to(min_size, hasher)` -/
def shrinkTo (t : RawTable T) (n : Nat) (hasher : T → UInt64) : RawTable T :=
  RawImpl.touch (.shrink n) (t.rehash (.shrink n) hasher)

/-- `RawTable::clone` (keeps the layout, hence the stored hashes), given the elements' `clone` -/
def clone (t : RawTable T) (c : T → T) : RawTable T :=
  { t with entries := t.entries.map fun e => (e.1, c e.2) }

/-- `RawTable::capacity`: `items + growth_left` -/
def capacity (t : RawTable T) : Nat := t.len + RawImpl.growthLeft t

/-- `RawTable::iter`: the elements in table order -/
def toList (t : RawTable T) : List T := t.entries.map (·.2)

end RawTable

/-- The contract of the capacity functions of `RawTable` (only the capacity properties rely on it).  Removing an
element may leave a tombstone, so it need not give room back; which removals do depends on the layout. -/
class LawfulCap [RawImpl] : Prop where
  /-- the room is a matter of the layout, not of the elements themselves -/
  congr : ∀ {T T' : Type} (t : RawTable T) (t' : RawTable T'), t.aux = t'.aux →
    t.entries.map (·.1) = t'.entries.map (·.1) → RawImpl.growthLeft t = RawImpl.growthLeft t'
  /-- `with_capacity(n)` leaves room for `n` elements -/
  new : ∀ {T : Type} (n : Nat), n ≤ RawImpl.growthLeft (RawTable.withCapacity n : RawTable T)
  /-- what `with_capacity(n)` allocates does not depend on the element type -/
  new_congr : ∀ {T T' : Type} (n : Nat), RawImpl.growthLeft (RawTable.withCapacity n : RawTable T) =
    RawImpl.growthLeft (RawTable.withCapacity n : RawTable T')
  /-- inserting an element uses up room for at most one -/
  insert : ∀ {T : Type} (t : RawTable T) (h : UInt64) (v : T) (hasher : T → UInt64),
    RawImpl.growthLeft t ≤ RawImpl.growthLeft (t.insert h v hasher) + 1
  /-- while there is room, an insertion does not move the other elements -/
  stay : ∀ {T : Type} (t : RawTable T) (h : UInt64), 0 < RawImpl.growthLeft t → RawImpl.rehashes (.insert h) t = false
  /-- removing elements never costs room -/
  erase : ∀ {T : Type} (t : RawTable T) (stays : List Bool) (es : List (UInt64 × T)), es.Sublist t.entries →
    RawImpl.growthLeft t ≤ RawImpl.growthLeft (RawImpl.touch (.erase stays) { t with entries := es })
  /-- `clear` keeps the allocated memory -/
  clear : ∀ {T : Type} (t : RawTable T), t.capacity ≤ t.clear.capacity
  /-- `reserve(n)` leaves room for `n` elements -/
  reserve : ∀ {T : Type} (t : RawTable T) (n : Nat) (hasher : T → UInt64),
    n ≤ RawImpl.growthLeft (t.reserve n hasher)
  /-- `reserve` never gives memory back -/
  reserve_mono : ∀ {T : Type} (t : RawTable T) (n : Nat) (hasher : T → UInt64),
    RawImpl.growthLeft t ≤ RawImpl.growthLeft (t.reserve n hasher)
  /-- `shrink_to(n)` keeps room for the elements and for `n` of them, as far as there was -/
  shrink : ∀ {T : Type} (t : RawTable T) (n : Nat) (hasher : T → UInt64),
    min t.capacity (max t.len n) ≤ (t.shrinkTo n hasher).capacity

/-- A `BuildHasher` together with the `Hash` implementations of the two item types
(`/repo/src/utils.rs:4-22`: `make_hash` is a function of the builder and the item).
The `Hash` contract: equal items hash equally.  Any such function is allowed. -/
structure BuildHasher (L R : Type) [BEq L] [BEq R] where
  hl : L → UInt64
  hr : R → UInt64
  hl_congr : ∀ a b : L, (a == b) = true → hl a = hl b
  hr_congr : ∀ a b : R, (a == b) = true → hr a = hr b

end Verif
