import Verif.Raw
import Verif.Swiss.Triangle
/-!
A concrete table: the algorithm of `hashbrown::raw::RawTable` (hashbrown 0.12, `src/raw/mod.rs`; the dependency named
in `/repo/Cargo.toml:18`).  hashbrown is not part of /repo and this is written from the published design of that
version; it is here to show that the contract `LawfulRaw`/`LawfulCap` under which everything else is proved is met by
an open-addressing table with control bytes, group probing, tombstones and a load limit, and not only by toy tables.

Differences: `rehash_in_place` is modelled by its result up to order (a rebuild with the same number of buckets); the
mirrored control bytes at the end of the array are replaced by computing slot numbers modulo the bucket count;
memory and arithmetic overflow are not modelled.  The group width `2 ^ w` is a parameter (16 with SSE2, 8 without).
-/
namespace Verif.Swiss

/-- A bucket with its control byte: `EMPTY`, `DELETED`, or an element (the control byte is then the top seven bits of
its hash). -/
inductive Slot (α : Type) where
  | empty
  | deleted
  | full (a : α)
deriving DecidableEq, Repr

namespace Slot
variable {α β : Type}

def isEmpty : Slot α → Bool
  | empty => true
  | _ => false

def isFull : Slot α → Bool
  | full _ => true
  | _ => false

def get? : Slot α → Option α
  | full a => some a
  | _ => none

def map (f : α → β) : Slot α → Slot β
  | empty => empty
  | deleted => deleted
  | full a => full (f a)

end Slot

section
variable {α β : Type}

/-- the slot with the given number is `EMPTY` -/
def emptyAt (s : List (Slot α)) (i : Nat) : Bool := (s[i]?).any Slot.isEmpty

/-- the slot with the given number holds an element -/
def fullAt (s : List (Slot α)) (i : Nat) : Bool := (s[i]?).any Slot.isFull

/-- the elements in slot order (`RawTable::iter`) -/
def items (s : List (Slot α)) : List α := s.filterMap Slot.get?

/-- the slots that are not `EMPTY` -/
def used (s : List (Slot α)) : Nat := s.countP fun x => !x.isEmpty

/-- `bucket_mask_to_capacity` -/
def capOf (n : Nat) : Nat := if n ≤ 8 then n - 1 else n / 8 * 7

/-- `usize::next_power_of_two` for arguments above one -/
def nextPow2 (n : Nat) : Nat := 2 ^ ((n - 1).log2 + 1)

/-- `capacity_to_buckets` -/
def buckets (c : Nat) : Nat := if c < 4 then 4 else if c < 8 then 8 else nextPow2 (c * 8 / 7)

/-- `growth_left` -/
def room (s : List (Slot α)) : Nat := capOf s.length - used s

/-- `Group::load` at a position: the slots it covers -/
def group (w n pos : Nat) : List Nat := (List.range (min (2 ^ w) n)).map fun b => (pos + b) % n

/-- `ProbeSeq`: the `k`-th position is `h1 + width * (1 + 2 + … + k)` -/
def pos (w n : Nat) (h : UInt64) (k : Nat) : Nat := (h.toNat + 2 ^ w * tri k) % n

/-- the groups a probe visits, in order -/
def groups (w n : Nat) (h : UInt64) : List (List Nat) := (List.range n).map fun k => group w n (pos w n h k)

/-- `find_insert_slot`: the first slot on the probe sequence that is `EMPTY` or `DELETED` -/
def insertSlot (w : Nat) (s : List (Slot α)) (h : UInt64) : Option Nat :=
  (groups w s.length h).flatten.find? fun i => !fullAt s i

/-- `h2`: the top seven bits of a hash, which the control byte of an element keeps -/
def h2 (h : UInt64) : UInt64 := h >>> 57

/-- whether a slot matches: same control byte, and the predicate holds -/
def hit {T : Type} (s : List (Slot (UInt64 × T))) (h : UInt64) (p : T → Bool) (i : Nat) : Bool :=
  ((s[i]?).bind Slot.get?).any fun e => h2 e.1 == h2 h && p e.2

/-- the loop of `find`: look at the matching slots of a group; if there is none, give up if the group has an `EMPTY`
slot, otherwise go to the next group -/
def probe (hit empty : Nat → Bool) : List (List Nat) → Option Nat
  | [] => none
  | g :: gs =>
    match g.find? hit with
    | some i => some i
    | none => if g.any empty then none else probe hit empty gs

/-- `RawTable::find`: the number of the slot -/
def findSlot (w : Nat) {T : Type} (s : List (Slot (UInt64 × T))) (h : UInt64) (p : T → Bool) : Option Nat :=
  probe (hit s h p) (emptyAt s) (groups w s.length h)

/-- put an element into the slot `find_insert_slot` finds -/
def place (w : Nat) {T : Type} (s : List (Slot (UInt64 × T))) (e : UInt64 × T) : List (Slot (UInt64 × T)) :=
  match insertSlot w s e.1 with
  | some i => s.set i (.full e)
  | none => s

/-- `resize` into a new table with `n` buckets -/
def build (w n : Nat) {T : Type} (es : List (UInt64 × T)) : List (Slot (UInt64 × T)) :=
  es.foldl (place w) (List.replicate n .empty)

/-- `RawTableInner::erase`: whether a `DELETED` mark is needed, because some probe may have seen a group without
`EMPTY` around this slot -/
def tomb (w : Nat) (s : List (Slot α)) (i : Nat) : Bool :=
  let before := ((List.range (2 ^ w)).takeWhile fun b => !emptyAt s ((i + s.length - 1 - b) % s.length)).length
  let after := ((List.range (2 ^ w)).takeWhile fun b => !emptyAt s ((i + b) % s.length)).length
  2 ^ w ≤ s.length && 2 ^ w ≤ before + after

/-- `RawTable::erase` of the bucket with number `i` -/
def eraseAt (w : Nat) (s : List (Slot α)) (i : Nat) : List (Slot α) :=
  s.set i (if tomb w s i then .deleted else .empty)

/-- erase, one after the other in slot order, the elements for which `keep` is false -/
def sweep (w : Nat) (keep : α → Bool) (s : List (Slot α)) : List (Slot α) :=
  (List.range s.length).foldl (fun s i => if ((s[i]?).bind Slot.get?).any (fun a => !keep a) then eraseAt w s i else s) s

/-- `insert`: whether the table is reorganised first -/
def grows (w : Nat) (s : List (Slot α)) (h : UInt64) : Bool :=
  room s == 0 && (insertSlot w s h).any (emptyAt s)

/-- `reserve_rehash(k)`: the number of buckets afterwards -/
def rehashBuckets (s : List (Slot α)) (k : Nat) : Nat :=
  if (items s).length + k ≤ capOf s.length / 2 then s.length
  else buckets (max ((items s).length + k) (capOf s.length + 1))

/-- `reserve(k)` -/
def reserve (w : Nat) {T : Type} (s : List (Slot (UInt64 × T))) (k : Nat) : List (Slot (UInt64 × T)) :=
  if room s < k then build w (rehashBuckets s k) (items s) else s

/-- `insert` of an element, after a possible `reserve(1)` -/
def insert (w : Nat) {T : Type} (s : List (Slot (UInt64 × T))) (h : UInt64) (e : UInt64 × T) :
    List (Slot (UInt64 × T)) :=
  place w (if grows w s h then build w (rehashBuckets s 1) (items s) else s) e

/-- `shrink_to(m)`: the number of buckets afterwards, if it changes -/
def shrinkBuckets (s : List (Slot α)) (m : Nat) : Option Nat :=
  let size := max (items s).length m
  if size = 0 then some 1
  else if buckets size < s.length then some (buckets size)
  else none

/-- `shrink_to(m)` -/
def shrink (w : Nat) {T : Type} (s : List (Slot (UInt64 × T))) (m : Nat) : List (Slot (UInt64 × T)) :=
  match shrinkBuckets s m with
  | some n => build w n (items s)
  | none => s

end

/-! ### As a `RawTable`: the elements in slot order, and the control bytes packed into a number -/

/-- a control byte, without the hash -/
abbrev Ctrl := Slot Unit

def Slot.ctrl {α : Type} (x : Slot α) : Ctrl := x.map fun _ => ()

/-- the control bytes as a number, two bits each -/
def enc : List Ctrl → Nat
  | [] => 0
  | c :: cs => (match c with | .empty => 1 | .deleted => 2 | .full _ => 3) + 4 * enc cs

/-- the control bytes packed into a number of less than `f` digits -/
def digits : Nat → Nat → List Ctrl
  | 0, _ => []
  | f + 1, n => if n = 0 then [] else (match n % 4 with | 1 => .empty | 2 => .deleted | _ => .full ()) :: digits f (n / 4)

/-- the control bytes packed into a number -/
def dec (n : Nat) : List Ctrl := digits (n.log2 / 2 + 1) n

/-- elements put into the full slots of a pattern, in order -/
def fill {α : Type} : List Ctrl → List α → List (Slot α)
  | [], _ => []
  | .empty :: cs, es => .empty :: fill cs es
  | .deleted :: cs, es => .deleted :: fill cs es
  | .full _ :: cs, [] => .deleted :: fill cs []
  | .full _ :: cs, e :: es => .full e :: fill cs es

def isPow2 (n : Nat) : Bool := 2 ^ n.log2 == n

variable {T : Type}

/-- the control bytes fit the elements: the number of buckets is a power of two, as many full ones as elements, and
not more used ones than the load limit -/
def fits (t : RawTable T) : Bool :=
  let cs := dec t.aux
  isPow2 cs.length && (cs.countP Slot.isFull == t.entries.length) && decide (used cs ≤ capOf cs.length)

def ofSlots (s : List (Slot (UInt64 × T))) : RawTable T := ⟨items s, enc (s.map Slot.ctrl)⟩

/-- a number of buckets for `k` elements: `n` if it is enough -/
def fit (n k : Nat) : Nat := if isPow2 n ∧ k ≤ capOf n then n else buckets k

/-- the slots of a table (a table whose control bytes do not fit is set up anew; such tables never arise) -/
def slots (w : Nat) (t : RawTable T) : List (Slot (UInt64 × T)) :=
  if fits t then fill (dec t.aux) t.entries else build w (buckets t.entries.length) t.entries

/-- the control bytes of `n` buckets of which the first `k` are full -/
def packed (n k : Nat) : List Ctrl := List.replicate k (.full ()) ++ List.replicate (n - k) .empty

/-- the number of elements before a slot -/
def rank {α : Type} (s : List (Slot α)) (i : Nat) : Nat := (items (s.take i)).length

/-- what a mutating call makes of a table; see `RawTable` for what it is given -/
def touch (w : Nat) (op : TableOp) (t : RawTable T) : RawTable T :=
  match op with
  | .new c => ofSlots (build w (if max c t.entries.length = 0 then 1 else buckets (max c t.entries.length)) t.entries)
  | .insert h =>
    match t.entries with
    | [] => t
    | e :: es => ofSlots (insert w (slots w ⟨es, t.aux⟩) h e)
  | .erase stays =>
    let t' := { t with aux := enc ((sweep w id (fill (dec t.aux) stays)).map Slot.ctrl) }
    if fits t' then t' else { t with aux := enc (packed (fit (dec t.aux).length t.entries.length) t.entries.length) }
  | .clear d => ofSlots (build w (fit (dec t.aux).length (max d t.entries.length)) t.entries)
  | .reserve k => ofSlots (reserve w (slots w t) k)
  | .shrink m => ofSlots (shrink w (slots w t) m)

end Verif.Swiss

namespace Verif
open Swiss

/-- The concrete table, with groups of `2 ^ w` slots.  (`find` falls back to a search through all elements; for the
tables that arise the probe alone is enough, see `Swiss.find_eq_probe`.) -/
@[reducible] def swissRaw (w : Nat) : RawImpl where
  find t h p :=
    match if fits t then (findSlot w (slots w t) h p).map (rank (slots w t)) else none with
    | some i => some i
    | none => t.entries.findIdx? fun e => e.1 == h && p e.2
  touch := touch w
  rehashes op t :=
    match op with
    | .insert h => grows w (slots w t) h
    | .reserve k => decide (room (slots w t) < k)
    | .shrink m => (shrinkBuckets (slots w t) m).isSome
    | _ => false
  growthLeft t := if fits t then room (dec t.aux) else 0

end Verif
