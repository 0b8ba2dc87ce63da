# Formal model of TylerBloom/CycleMap — design

`COVERAGE.md` lists every Rust function with its Lean counterpart.
(Written before the proofs; sections 1, 3, 5 and 6 are kept up to date as the model grows.)

## 1. What is modelled

| Rust | Lean | notes |
|---|---|---|
| `hashbrown::raw::RawTable` (dependency) | `Verif/Raw.lean` | *assumed interface*: a table is a list of `(stored hash, element)` entries plus an uninterpreted `aux` field. `find` and the layout after a mutation are **parameters** (`class RawImpl`) constrained only by `class LawfulRaw`: a hit satisfies the predicate; an element stored under exactly the probed hash that satisfies the predicate is found; mutations permute. A probe may hit elements stored under *other* hashes. `insert`, `reserve` and `shrink_to` may, whenever the implementation likes (`RawImpl.rehashes`), move all elements: each is then stored under what the hasher passed to the call says of it. `capacity` is the number of entries plus `RawImpl.growthLeft`; `class LawfulCap` (used by C87–C91 only) says what calls do to it, with tombstones allowed; `class LawfulMem` (C117, C118 only) bounds from above how far a table grows; `class LawfulAmort` (C136–C138 only) bounds how often it does. |
| the table algorithm of hashbrown 0.12 | `Verif/Swiss/*.lean` | one concrete `RawImpl` (`swissRaw w`, groups of `2^w` slots): control bytes, group probing, tombstones, load limit, growth. Proved to meet `LawfulRaw` and `LawfulCap` (C94), `LawfulMem` (`swissRaw_mem`) and `LawfulAmort` (`swissRaw_amort`), so the contract is not only assumed. hashbrown is not in /repo: this is written from its published design, and its fidelity is trusted. Differences: `rehash_in_place` is a rebuild with the same number of buckets, mirrored control bytes are arithmetic modulo the number of buckets, `drain_filter` erases in slot order at the end, no overflow. |
| `Eq`, `Hash`, `BuildHasher` | `[BEq L] [EquivBEq L]`, `BuildHasher L R` | `==` is any equivalence (may be coarser than identity), hashing is any function to `UInt64` that respects `==` (constant hashes included). C139, C142 and C143 drop `EquivBEq`: there `==` is any relation. |
| `src/utils.rs` | `BuildHasher.hl/hr`, `*.hashWith` | `make_hash` is deterministic; `make_hasher` with the `Hash` implementation of the private element types is `MappingPair.hashWith`, `LeftItem.hashWith`, `RightItem.hashWith`. |
| `src/optionals.rs` | `Verif/Optionals.lean` | complete. |
| `src/cycle_map.rs` | `Verif/CycleMap/*.lean` | every public method. `Panics.lean` models `retain`/`drain_filter` again with closures that may panic (C80). `Unwind*.lean` model every call again, with the map as it is at each place where `Hash`, `Eq` or a closure runs (`Verif/Unwind.lean`; C105–C107). |
| `src/partial_cycle_map.rs` | `Verif/PartialMap/*.lean` | same (panicking closures: C92; `Unwind*.lean`: every call with panics that are caught, C110–C112). |
| `src/group_map.rs` | `Verif/GroupMap/*.lean` | same. `HashSet<(u64, ID)>` (`PairSet`) is modelled by its contract: exact membership, iteration in an arbitrary order that may change at every mutation. Maps broken by `swap_right`, `swap_right_remove`, `retain_paired` or inserting a stored pair are described too (`Stale.lean`, `Torn.lean`, `Bulk.lean`, `Always.lean`). `Unwind*.lean`: every call with panics that are caught (C108, C109). |
| `Debug` implementations | `Verif/Debug.lean` | the text printed by `{:?}`, and in `Verif/Pretty.lean` by `{:#?}`; the builders of `core::fmt` are modelled by what they print, the items' own `Debug` is a parameter. |
| iterators called after their end or after a caught panic | `Verif/Fused.lean` | `next` together with the state it leaves in every case; everywhere else the iterators are run until they end or panic. |
| destructors that panic | `Verif/Drops.lean`, `Verif/*/Drops.lean` | `clear`, the `retain` family, `drain_filter`, `extend` (C120–C122), `drain`, `GroupMap::retain_paired` and the drop of a whole map (`Verif/DropEnd.lean`, C131, C132); no other call drops items while it has work left to do. |
| repairs | `Verif/*/Repair.lean`, `Verif/*/RepairMachine.lean`, `Verif/*/Sturdy.lean`, `Verif/PartialMap/RepairPanics.lean` | **not in /repo**: changed versions of the calls that do not do what is documented (C133–C135, C148), and of those that a panic of the items' code breaks (C152–C155). Every definition names the lines it changes. |
| `unsafe` blocks of the two `drain_filter`s | `Verif/Buckets.lean`, `Verif/*/Buckets.lean` | tables as numbered buckets, raw buckets as numbers; using an empty bucket is undefined behaviour (C124), and the result is that of the list model (C125). `find` is a parameter (`class BucketImpl`, `class LawfulBuckets`). hashbrown's promise that a `RawIter` yields each bucket full at its creation once is assumed. |
| `src/serde.rs` | `Verif/CycleMap/Serde.lean` | the sequence of elements handed to / taken from serde; the data format is not modelled. |

`&mut self` methods become functions returning the new map. Every `unwrap()` on `None` and every
`unreachable!` is an explicit `.error` result (`Res = Except Panic`). Identifier counters are `Nat`;
C32 bounds them by the number of calls, so a `u64` behaves the same in every history with fewer than
2^64 id-allocating calls. References returned by a method are the referenced values. Iterators are explicit states
with a `next` function; dropping an iterator early is `take n` followed by its `Drop`.
Closures (`FnMut`) are state-passing functions `σ → args → Bool × σ`.

## 2. Not modelled

hashbrown internals beyond `Verif/Swiss` (SIMD, memory, allocation failure other than as an input of `try_reserve`, exact capacity numbers in the properties), memory safety of the
`unsafe` blocks other than the use of raw buckets in `drain_filter` (C124), the serde
data format, lifetimes/borrow checking, running time (C136–C138 count how often the items' own code runs).

## 3. Specifications

`Verif/*/Spec.lean` are small list-level specifications that mention no hash, id, table or model helper:
* `CycleMap`: a list of pairs;  `PartialCycleMap`: a list of `OptionalPair`-like entries;  `GroupMap`: the list of
  right items and the list of pairs (`Contents`).
Order is irrelevant (everything up to `List.Perm`).

## 4. Proof method

Refinement. `Rep m ps` says that the two tables of `m` are, up to order, the images of one list `ps` of
records `(items, id)` with distinct ids, pairwise different left and right items and ids below the counter. Each operation is
proved to map `Rep` states to `Rep` states and to return the answer of the specification. The per-history theorem is an
induction over the list of calls; most properties are corollaries for every reachable map.
Where the code does not have the documented property, the documented statement is kept as a `def … : Prop`, its
negation is proved with a concrete witness (`…_false`), and the theorem that does hold is named `…_partial`.

## 5. Per property plan

* C01–C04: case analysis on `OptionalPair`, all payloads/functions.
* C05: simulation of the call machine by the list machine, induction over calls.
* C06–C12, C14, C16: corollaries of the per-operation refinement lemmas, for every reachable map.
* C13, C15, C47: expected false when `new` is present (the conflict check runs before the lookup of `old`): partial + negation.
* C17: expected partial (the displaced pair's right item is dropped, `map_left`).  C18, C49: expected false (`unreachable!` is reachable).
* C19, C20, C22, C23: induction over the remaining entries of the iterator.
* C21: expected false (only the left table is emptied on drop).
* C24: counting argument on lists up to `==`.
* C25, C26, C27, C33: corollaries.  C28, C59, C79: two runs against the same specification run.
* C29, C30: folding `insert` over the element sequence.  C31: lookups by (hash, predicate).
* C32: counter bound by induction.
* C34–C46, C48, C51, C57, C58: as for CycleMap with records `both/left/right`.
* C41: expected false under double hash collision (`unpair` compares only hashes); true when hashes separate the stored items.
* C50, C53, C54, C55, C56: expected false of the code (iter skips lone right items; drain loses lone right items after the
  first; drain_filter revisits paired right items; retain* keep the complement; eq ignores absence).
* C52: expected partial (`size_hint`/`len` only count the left table).
* C60–C65, C68–C72, C77, C78: as above with groups.  C62: expected false on re-inserting an existing pair.
* C66, C67: expected false (`r_id` of the left items is not updated).  C73: expected false (`Clone for Iter` forgets the inner iterator).
* C74, C75, C76: expected false (inverted predicate, stale back references, eq ignores absence).
* C80: closures that may panic, one extra result constructor.  C92, C93: the same for the other two maps, by reduction to a total closure
  that answers `false` from the (second) panic on.
* C81: `PartialCycleMap` clone.  C82, C84: lookup by a borrowed form (hash and predicate).  C83: `GroupMap` clone.
* C85: stored hash = hash of the item, corollary of `Rep`; for `GroupMap` a separate invariant (`Always`) that survives
  the breaking calls.  C86: consequences of that invariant.
* C87, C88, C90, C91: how much room each call can use up, induction over calls, from the contract `LawfulCap`.  C89: expected
  false (`try_reserve` can fail halfway; tombstones).
* C94: probe sequences of triangular numbers reach every group (induction on the exponent), hence a slot layout in which
  every element lies before the first group with an EMPTY slot on its probe sequence is searched completely; every call
  preserves such layouts; then an induction over the calls of each map (`*/Closed.lean`).
* C95, C96, C99: an invariant that survives the calls that break a map (`*/Always.lean`): items under their own hash and
  pairwise different; induction over calls.  C97: the refinement lemma of `clear` needs nothing of the map.  C98: expected
  false (`drain` starts the ids over while orphans keep theirs).
* C100–C103: the text as a function of the list an iterator yields.  C101 expected false (as C50), C102 in the middle of a group (as C73).
* C104: induction over the steps; expected false for `PartialCycleMap` (right items are not counted).
* C105: every call as a computation that keeps the map when it panics; not interrupted it equals the main model; the invariant of
  C95 holds at each place where user code runs.  C106: expected false (`swap_left` changes the partner first; `insert` fills the tables one after the other).
  C107: refinement lemma of `insert` at the point of the `unreachable!`.  C108, C109: as C105, C106 for `GroupMap`.  C110–C112: as C105–C107 for `PartialCycleMap`.
* C113–C115: `mem::forget` writes the iterator's state back without its `Drop`; induction over the remaining entries.  C114 expected false (as C54), C115
  expected false (the left table is empty from the start, the right one is emptied item by item).

* C116: algebra of `MappingPair`, `LeftItem`, `RightItem`; stored ones differ by the invariant of C95.
* C117: the same induction over calls as C87 with another measure (`Meter.memory` instead of `Meter.room`, `Verif/Room.lean` is generic in it).
* C120, C121: `drain_filter` reduced to the run that takes everything; `retain`/`extend` by induction over the removed/inserted entries, `insert` conserves items.
  C122: expected false (`clear` empties the tables one after the other).
* C123: each `Step` conserves items (counting argument `perm_of_measure`, `Verif/Ledger.lean`), then induction over the history.
* C124: invariant `Sound` (the buckets still to come are distinct and full), kept by every call whatever the tables hold.  C125: simulation `Agree` between
  the bucket and the list iterator; the concrete table keeps its order on erasure (`C125_stable`), so for it nothing is assumed.
* C126: the indenting writer (`padFrom`) by recursion over characters, shown equal to joining indented lines (`padded_eq`).  C127: each call by the refinement lemmas; those `Safe` leaves out by the `_actual` theorems.
* C128: a general lemma (`isFused`) from two facts about one step: the end state steps to itself with `None`, and `None` is only returned in passing to it.
* C129: both list machines run side by side; a pair (l, r) of one is the entry (Some(l), Some(r)) of the other.
* C130: compose the refinement lemmas of a call and its undoing, then compare lists up to order.
* C131, C132: the loops of C120–C122 once more; what a table drops is a prefix of its elements.
* C133–C135: the refinement theorems of the unchanged parts, the `Rep` invariants for the changed loops, and pigeonhole for `==`.
* C136–C138: amortised analysis. The computations of C105, C108, C110 stop when their fuse is used up, so a bound on the fuse a call needs is a bound on
  its cost; the potential is what the next growth of the tables costs beyond what was saved up for it (`RawTable.debt`), plus two for each left item of a `GroupMap`.
* C139: an invariant without the distinctness of items (`Linked`: the tables hold the two halves of the same records, ids distinct) survives every call, because partners
  are found by hash and id and never by `==`; the specification (`WeakSpec.lean`) lets a lookup pick any match.
* C140: case analysis of each function on any map; expected false for `insert_left` (its own example contradicts the note) and `swap_right_or_insert`.
* C141: what a sequence without clashes leaves (`insertAll_perm`, `survivors_oneToOne`; GroupMap: induction over the sequence) is invariant under permutation.
* C142: the invariant of C139 for records that may be lone items; the `retain` loops are folds over remembered keys, each of which removes a whole record or nothing.
* C143: the invariant of C139 for groups, with the ids of the right items as labels in the specification; the two loops of `retain_unpaired` are a list of lookups and a fold that removes the right items found by id, the second time none.
* C144: from the `_partial` and `_actual` theorems; `Shows` determines the contents up to order (`Shows.unique`), so two descriptions of one map can be compared.
* C145: at the level of the lists, a call on `a ++ b` does to `a` what it does to `a` alone, and leaves `b` (`step_frame`); the simulation carries this over to the maps, also for calls that panic. Commutation: apply it twice, with the roles of `a` and `b` changed in between; a call adds no items but those it is given (`step_items`).
* C146: relational parametricity at the level of the lists: related calls on related lists give related results and lists (`step_rel`, by the relations that
  `find?`, `filter`, `any`, `map` respect, `Verif/Relate.lean`); both maps simulate their lists. The clone properties C33, C81, C83 are the case that the relation is `==`.
* C147: the list machine commutes with exchanging the components of every pair (`step_mirror`); both maps simulate their lists. The exceptions are shown to be
  exceptions from the other direction (`even_of_step`).
* C148: the simulation `exec_simulates` for the machine with the repaired calls (`Verif/*/RepairMachine.lean`): the repaired calls refine the documented
  list functions (C133–C135 at the level of the invariant), the others are as before. The specification (`Repair.Step`) is what is documented, also where `Step` is not.
* C149: both sides refined to the lists by the `_refines` lemmas of the calls they consist of; then the two lists are the same up to order
  (`Verif/Props/Compound.lean`).
* C150: on the list, `exec_simulates`, and what the crate does (`Step`) is then what is documented (`Repair.Step`); off the list, the `_actual`/`_panics`
  theorems of the properties that fail (and C144) contradict what is documented, call by call (`Verif/Props/Right*.lean`).
  For `extend` of GroupMap: an invariant of the maps between the pairs of one call (`Mid`, `Verif/GroupMap/Mend.lean`: left items in order, left items out of
  touch, left items whose right item is gone), and the documented contents next to it.
* C151: the `_ordered` lemmas (`Verif/*/Bulk.lean`, `Verif/CycleMap/Iterate.lean`) say in which order the loops run, the `_refines` lemmas forget it; then
  all the lists are read off the same records (`Verif/Props/Order*.lean`).
* C152: the calls of the unwinding model with growth that runs no user code and the swaps in another order (`Verif/CycleMap/Sturdy.lean`); uninterrupted they follow
  `exec` (`Follows`), interrupted they leave a represented map (`Ends`), without the conditions (`Smooth`) of C106. By induction over histories with caught panics (`Lived`).
* C153: the same for GroupMap, on top of the calls of C148 (`Verif/GroupMap/Sturdy.lean`, `SturdyValid.lean`); uninterrupted they follow `Repair.exec`. A closure that
  does not get to its panic is replaced by one that never panics (`callU_calm`).
* C154: the same for PartialCycleMap (`Verif/PartialMap/Sturdy.lean`, `SturdyValid.lean`). Calls that run no code of the items are taken from `Repair.exec` as they are
* C155: `drain_filter` of C134 with a closure that may panic (`Verif/PartialMap/RepairPanics.lean`), and the histories of C154 with such calls. Its proof shows that the repaired call is the crate's call with a closure that rejects paired right items unasked, and uses what is known of that one (C92).
  (`quietU`). The closures of the three `retain` calls may panic, that of `drain_filter` may not.
* C118: expected false (the size hint is trusted).  C119: the loop is a fold over what `iter` yields.

## 6. Trusted base

`Verif/Tests/Swiss.lean` runs them on the concrete table as well; the assertions of `partial_cycle_map_tests.rs:652-653`
(`drain_filter` leaves the capacities as they were) then fail with groups of two slots, because tombstones count against the capacity:
they hold only as long as the layout needs no tombstone.

The crate's own tests and documentation examples (`/repo/tests`, doc comments in `/repo/src`) are transcribed in `Verif/Tests/` and
evaluated on the model with `#guard`, over three table implementations and two hash functions. They are tests of the
model's fidelity, not proofs; no theorem depends on them. Some of them record behaviour the documentation contradicts
(`GroupMap::insert` of a stored pair, the `retain` families), exactly as the `…_actual` theorems do.

What hashbrown 0.12 does when the hasher panics while elements are moved (moving to new memory leaves the table as it was; moving
within the table drops the elements not yet moved; `shrink_to` always uses new memory) is written from its published design and trusted.

When the destructor of a field panics, Rust still drops the other fields, and a second panic aborts; when a destructor panics in
`RawTable::clear`, the table is empty all the same and the elements not yet dropped are leaked (hashbrown 0.12).  Both are trusted.

That iterating over an unchanged `RawTable`, draining it, and iterating over its clone go through the elements in one and the same order (C151) is part of the contract, too;
for `swissRaw` it is the order of the slots.

That `RawTable::drain` has an empty table in its place until the `RawDrain` is dropped (hence for good, if it is leaked) is read off hashbrown 0.12, too.

Lean 4.33.0 kernel; axioms `propext`, `Classical.choice`, `Quot.sound` only (per theorem: `AXIOMS.md`). The fidelity of the model to the Rust text
(cited at every definition) and the `LawfulRaw`, `LawfulCap`, `LawfulMem` and `LawfulAmort` interfaces of hashbrown 0.12's `RawTable` are trusted, not proved.

## 7. Seeded faults

`seeded/LOG.jsonl` has one line per wrong program tried on a scratch copy. `theorems_failed` are the theorems whose proofs, as they are
written, no longer go through; this is weaker than a proof that the theorem is false of the wrong program. A theorem that fails early also hides those of
the modules after it. This matters for edits that only move the place where the items' code runs: an uninterrupted call does what it did, so the
`…_follows` theorems stay true and fail only as scripts. Lines 264–287 and 430–435 were first recorded with such failures. These edits (and those of C152–C154)
were tried again with the `…_follows` proofs put aside in the scratch copy (the lines with a `note` to this effect): then the theorems about interrupted calls
(`…_same`, `…_leaves`, `…_either`) or about costs (`…_costs`, `pays_…`) fail. The edit of `extendU` in line 274 is harmless to the claims, see its second line. Lines 432 and 435 change
the layout of the tables, so there `…_follows` is false indeed.
