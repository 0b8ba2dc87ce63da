{"id": "C01", "title": "OptionalPair is (Option, Option)", "statement": "Converting an OptionalPair into (Option<L>, Option<R>) and back returns the same value, and converting a tuple of options into an OptionalPair and back returns the same tuple.", "quantifier": "all values of the pair and of the tuple, all item types", "why_tests_cant": "four constructors times arbitrary payload types; a test samples payloads", "anchors": ["src/optionals.rs:From<(Option<L>, Option<R>)>", "src/optionals.rs:From<OptionalPair<L, R>> for (Option<L>, Option<R>)"]}
{"id": "C02", "title": "OptionalPair and Option of a tuple", "statement": "OptionalPair -> Option<(Option,Option)> -> OptionalPair is the identity; the opposite round trip only identifies Some((None,None)) with None; Neither is exactly None.", "quantifier": "all values, all item types", "why_tests_cant": "payload types are unbounded", "anchors": ["src/optionals.rs:From<Option<(Option<L>, Option<R>)>>", "src/optionals.rs:From<OptionalPair<L, R>> for Option<(Option<L>, Option<R>)>"]}
{"id": "C03", "title": "OptionalPair accessors and equality", "statement": "get_left / get_right return exactly the corresponding component of the tuple form; is_none holds exactly when both components are absent and is_some is its negation. Two values are equal exactly when their tuple forms are equal component by component, and this is an equivalence relation.", "quantifier": "all values, all item types", "why_tests_cant": "payload types are unbounded", "anchors": ["src/optionals.rs:OptionalPair::get_left", "src/optionals.rs:get_right", "src/optionals.rs:is_none", "src/optionals.rs:is_some", "src/optionals.rs:OptionalPair"]}
{"id": "C04", "title": "OptionalPair mapping laws", "statement": "map, map_left, map_right, convert and cloned act on each component as Option::map does and never change which components are present; map with identities is the identity, and mapping twice is mapping by the composition.", "quantifier": "all values and all functions", "why_tests_cant": "ranges over all functions", "anchors": ["src/optionals.rs:map", "src/optionals.rs:map_left", "src/optionals.rs:map_right", "src/optionals.rs:convert", "src/optionals.rs:cloned"]}
{"id": "C05", "title": "CycleMap behaves as a finite one-to-one set of pairs", "statement": "For every history of calls, no call panics and every call returns what a plain list of pairs with no two equal left items and no two equal right items would return; iteration results agree up to order. (Excluding the calls that C13, C15, C17, C18, C21 single out.)", "quantifier": "every finite history of API calls, every item type with a lawful Eq/Hash, every hash function (including constant ones) and every lawful hash-table layout", "why_tests_cant": "must hold after every history, for every hash function and table layout, including colliding hashes", "anchors": ["src/cycle_map.rs:CycleMap", "src/cycle_map.rs:insert", "src/cycle_map.rs:remove_via_left", "src/cycle_map.rs:swap_left", "src/cycle_map.rs:retain", "src/cycle_map.rs:drain_filter"]}
{"id": "C06", "title": "CycleMap lookups are mutually inverse", "statement": "In every reachable map, get_right(l) = r' implies get_left(r') returns the stored left item equal to l, and symmetrically: every item of one set is paired with exactly one item of the other set; no item is left unpaired.", "quantifier": "every finite history of API calls, every item type with a lawful Eq/Hash, every hash function (including constant ones) and every lawful hash-table layout", "why_tests_cant": "invariant over all histories", "anchors": ["src/cycle_map.rs:get_left", "src/cycle_map.rs:get_right", "src/cycle_map.rs:are_paired"]}
{"id": "C07", "title": "CycleMap::insert effect", "statement": "After insert(l, r) the pairs of the map are exactly (l, r) plus every old pair whose left item differs from l and whose right item differs from r.", "quantifier": "every finite history of API calls, every item type with a lawful Eq/Hash, every hash function (including constant ones) and every lawful hash-table layout, every l and r", "why_tests_cant": "every overlap pattern between new pair and old map, in every reachable state", "anchors": ["src/cycle_map.rs:insert"]}
{"id": "C08", "title": "CycleMap::insert return value", "statement": "insert(l, r) hands back exactly the pairs it displaced: the old pair of l on the left, the old pair of r on the right, and when both were in one pair only the left slot is filled.", "quantifier": "every finite history of API calls, every item type with a lawful Eq/Hash, every hash function (including constant ones) and every lawful hash-table layout, every l and r", "why_tests_cant": "as C07", "anchors": ["src/cycle_map.rs:insert", "src/optionals.rs:InsertOptional"]}
{"id": "C09", "title": "CycleMap::remove_via_left / remove_via_right", "statement": "Removing via either side returns the stored pair holding an item equal to the argument and removes exactly that pair; if there is none it returns None and nothing changes.", "quantifier": "every finite history of API calls, every item type with a lawful Eq/Hash, every hash function (including constant ones) and every lawful hash-table layout, every argument", "why_tests_cant": "as C07", "anchors": ["src/cycle_map.rs:remove_via_left", "src/cycle_map.rs:remove_via_right"]}
{"id": "C10", "title": "CycleMap::remove", "statement": "remove(l, r) removes and returns the pair exactly when l and r are paired with each other; otherwise it returns None and changes nothing, even when both items are present with other partners.", "quantifier": "every finite history of API calls, every item type with a lawful Eq/Hash, every hash function (including constant ones) and every lawful hash-table layout, every l, r", "why_tests_cant": "as C07", "anchors": ["src/cycle_map.rs:remove", "src/cycle_map.rs:are_paired"]}
{"id": "C11", "title": "CycleMap membership tests agree with lookup", "statement": "contains_left(l) iff get_right(l) is Some; contains_right(r) iff get_left(r) is Some; are_paired(l, r) iff get_right(l) is an item equal to r iff get_left(r) is an item equal to l.", "quantifier": "every finite history of API calls, every item type with a lawful Eq/Hash, every hash function (including constant ones) and every lawful hash-table layout, every l, r", "why_tests_cant": "hash collisions must not make unrelated items look paired", "anchors": ["src/cycle_map.rs:contains_left", "src/cycle_map.rs:contains_right", "src/cycle_map.rs:are_paired"]}
{"id": "C12", "title": "CycleMap::swap_left on a present item", "statement": "If (l1, r) is in the map, swap_left(l1, l2) leaves exactly (l2, r) plus the other pairs not containing l2, returns the old left item, and returns the removed pair of l2 when l2 differs from l1 and was present.", "quantifier": "every finite history of API calls, every item type with a lawful Eq/Hash, every hash function (including constant ones) and every lawful hash-table layout, every l1 present and every l2", "why_tests_cant": "every aliasing between l1, l2 and the old pairs", "anchors": ["src/cycle_map.rs:swap_left", "src/cycle_map.rs:swap_left_eq_check"]}
{"id": "C13", "title": "CycleMap::swap_left on an absent item", "statement": "If l1 is not in the map, swap_left(l1, l2) returns Neither and leaves the map unchanged.", "quantifier": "every finite history of API calls, every item type with a lawful Eq/Hash, every hash function (including constant ones) and every lawful hash-table layout, every l1 absent and every l2", "why_tests_cant": "needs the case where l2 is present", "anchors": ["src/cycle_map.rs:swap_left", "src/cycle_map.rs:swap_left_eq_check"]}
{"id": "C14", "title": "CycleMap::swap_right on a present item", "statement": "If (l, r1) is in the map, swap_right(r1, r2) leaves exactly (l, r2) plus the other pairs not containing r2, returns the old right item, and returns the removed pair of r2 when r2 differs from r1 and was present.", "quantifier": "every finite history of API calls, every item type with a lawful Eq/Hash, every hash function (including constant ones) and every lawful hash-table layout, every r1 present and every r2", "why_tests_cant": "as C12", "anchors": ["src/cycle_map.rs:swap_right", "src/cycle_map.rs:swap_right_eq_check"]}
{"id": "C15", "title": "CycleMap::swap_right on an absent item", "statement": "If r1 is not in the map, swap_right(r1, r2) returns Neither and leaves the map unchanged.", "quantifier": "every finite history of API calls, every item type with a lawful Eq/Hash, every hash function (including constant ones) and every lawful hash-table layout, every r1 absent and every r2", "why_tests_cant": "as C13", "anchors": ["src/cycle_map.rs:swap_right", "src/cycle_map.rs:swap_right_eq_check"]}
{"id": "C16", "title": "CycleMap checked swaps", "statement": "swap_left_checked / swap_right_checked act exactly as the unchecked swap when the old item is paired with the expected item, and otherwise return Neither and leave the map unchanged.", "quantifier": "every finite history of API calls, every item type with a lawful Eq/Hash, every hash function (including constant ones) and every lawful hash-table layout, all arguments", "why_tests_cant": "as C12", "anchors": ["src/cycle_map.rs:swap_left_checked", "src/cycle_map.rs:swap_right_checked"]}
{"id": "C17", "title": "CycleMap::swap_left_or_insert", "statement": "With the old left item present it is swap_left; with it absent it inserts (new, to_insert) and hands back every pair that insertion displaced.", "quantifier": "every finite history of API calls, every item type with a lawful Eq/Hash, every hash function (including constant ones) and every lawful hash-table layout, all arguments", "why_tests_cant": "needs the displaced-pair cases", "anchors": ["src/cycle_map.rs:swap_left_or_insert"]}
{"id": "C18", "title": "CycleMap::swap_right_or_insert", "statement": "With the old right item present it is swap_right; with it absent it inserts (to_insert, new), hands back the displaced pairs and does not panic.", "quantifier": "every finite history of API calls, every item type with a lawful Eq/Hash, every hash function (including constant ones) and every lawful hash-table layout, all arguments", "why_tests_cant": "the panic needs to_insert to be present already", "anchors": ["src/cycle_map.rs:swap_right_or_insert"]}
{"id": "C19", "title": "CycleMap iterators", "statement": "iter yields every pair exactly once and nothing else; iter_left / iter_right yield exactly the left / right items of those pairs; at every point the reported length equals the number of items still to come.", "quantifier": "every finite history of API calls, every item type with a lawful Eq/Hash, every hash function (including constant ones) and every lawful hash-table layout", "why_tests_cant": "for every map size and layout", "anchors": ["src/cycle_map.rs:Iter", "src/cycle_map.rs:SingleIter", "src/cycle_map.rs:iter", "src/cycle_map.rs:iter_left", "src/cycle_map.rs:iter_right"]}
{"id": "C20", "title": "CycleMap::drain consumed to the end", "statement": "Draining to the end yields every pair exactly once, leaves a map that is empty in both directions, and later calls behave as on a new map.", "quantifier": "every finite history of API calls, every item type with a lawful Eq/Hash, every hash function (including constant ones) and every lawful hash-table layout", "why_tests_cant": "as C19", "anchors": ["src/cycle_map.rs:drain", "src/cycle_map.rs:DrainIter"]}
{"id": "C21", "title": "CycleMap::drain dropped early", "statement": "Dropping the drain iterator before it is exhausted drops the remaining pairs: the map is empty in both directions and usable afterwards.", "quantifier": "every finite history of API calls, every item type with a lawful Eq/Hash, every hash function (including constant ones) and every lawful hash-table layout, every number of items taken before the drop", "why_tests_cant": "ranges over every drop point", "anchors": ["src/cycle_map.rs:drain", "src/cycle_map.rs:DrainIter"]}
{"id": "C22", "title": "CycleMap::drain_filter", "statement": "Whatever number of items is taken before the iterator is dropped, the closure is called exactly once on each pair, the pairs for which it returned true are removed, the yielded ones are a prefix of them in visiting order, and all others stay.", "quantifier": "every finite history of API calls, every item type with a lawful Eq/Hash, every hash function (including constant ones) and every lawful hash-table layout, every (stateful) closure, every drop point", "why_tests_cant": "ranges over closures and drop points", "anchors": ["src/cycle_map.rs:drain_filter", "src/cycle_map.rs:DrainFilterIter", "src/cycle_map.rs:DrainFilterInner::next"]}
{"id": "C23", "title": "CycleMap::retain", "statement": "retain calls the closure exactly once per pair and keeps exactly the pairs for which it returned true, without panicking.", "quantifier": "every finite history of API calls, every item type with a lawful Eq/Hash, every hash function (including constant ones) and every lawful hash-table layout, every (stateful) closure", "why_tests_cant": "ranges over closures", "anchors": ["src/cycle_map.rs:retain", "src/cycle_map.rs:remove_via_hashes_and_id"]}
{"id": "C24", "title": "CycleMap equality", "statement": "Two maps compare equal exactly when each pair of one is (up to Eq) a pair of the other, whatever their histories and hash builders; the relation is reflexive, symmetric and transitive.", "quantifier": "all pairs (and triples) of reachable maps, with different hash builders", "why_tests_cant": "ranges over pairs of histories", "anchors": ["src/cycle_map.rs:PartialEq for CycleMap", "src/cycle_map.rs:are_paired"]}
{"id": "C25", "title": "CycleMap extend / from_iter", "statement": "Extending by a sequence equals inserting its elements in order; in the result of collecting a sequence a later pair displaces every earlier pair that shares an item with it.", "quantifier": "all finite sequences", "why_tests_cant": "all sequences with arbitrary overlaps", "anchors": ["src/cycle_map.rs:Extend", "src/cycle_map.rs:FromIterator"]}
{"id": "C26", "title": "CycleMap len / is_empty / clear / new", "statement": "len is the number of pairs, of left items and of right items; is_empty iff there is no pair; clear leaves a map with no left and no right item; a new map is empty.", "quantifier": "every finite history of API calls, every item type with a lawful Eq/Hash, every hash function (including constant ones) and every lawful hash-table layout", "why_tests_cant": "the two tables could drift apart in some history", "anchors": ["src/cycle_map.rs:len", "src/cycle_map.rs:is_empty", "src/cycle_map.rs:clear", "src/cycle_map.rs:with_hasher"]}
{"id": "C27", "title": "Capacity management does not change contents", "statement": "reserve, try_reserve (success or failure), shrink_to and shrink_to_fit leave every observable answer of the map unchanged.", "quantifier": "every finite history of API calls, every item type with a lawful Eq/Hash, every hash function (including constant ones) and every lawful hash-table layout, all capacities", "why_tests_cant": "rehashing at every size and layout", "anchors": ["src/cycle_map.rs:reserve", "src/cycle_map.rs:try_reserve", "src/cycle_map.rs:shrink_to", "src/cycle_map.rs:shrink_to_fit"]}
{"id": "C28", "title": "CycleMap results do not depend on the hash function", "statement": "Running the same history on two maps with different hash builders and table layouts gives the same results call by call (iteration results up to order).", "quantifier": "all histories, all pairs of hash functions and layouts", "why_tests_cant": "ranges over all hash functions", "anchors": ["src/cycle_map.rs:make_hash", "src/utils.rs:make_hash"]}
{"id": "C29", "title": "CycleMap serde round trip", "statement": "Deserializing the serialized sequence of a map, under any hash builder, gives a map equal to the original.", "quantifier": "every finite history of API calls, every item type with a lawful Eq/Hash, every hash function (including constant ones) and every lawful hash-table layout", "why_tests_cant": "all reachable maps", "anchors": ["src/serde.rs:Serialize for CycleMap", "src/serde.rs:CycleMapVisitor::visit_seq"]}
{"id": "C30", "title": "CycleMap deserialization of arbitrary input", "statement": "Deserializing any sequence of pairs (with repeats and conflicts) gives the map obtained by inserting them in order, hence always a one-to-one map; if an element fails to decode the error is returned and no map.", "quantifier": "all sequences of decoded elements and errors", "why_tests_cant": "hostile inputs are unbounded", "anchors": ["src/serde.rs:CycleMapVisitor::visit_seq"]}
{"id": "C31", "title": "CycleMap lookup by borrowed form", "statement": "Looking up with a borrowed form q returns the partner of the unique stored item whose borrowed form equals q, or None if there is none.", "quantifier": "every finite history of API calls, every item type with a lawful Eq/Hash, every hash function (including constant ones) and every lawful hash-table layout, all borrowed types with Hash/Eq consistent with the item's", "why_tests_cant": "all Borrow implementations", "anchors": ["src/cycle_map.rs:get_left", "src/cycle_map.rs:get_right"]}
{"id": "C32", "title": "Identifiers cannot run out in practice", "statement": "The internal identifier counters grow by at most one per call that adds or re-pairs items, so no counter overflows in a history (or a sequence) with fewer than 2^64 insertions.", "quantifier": "all histories", "why_tests_cant": "needs an unbounded history", "anchors": ["src/cycle_map.rs:counter", "src/partial_cycle_map.rs:counter", "src/group_map.rs:left_counter"]}
{"id": "C33", "title": "CycleMap clone", "statement": "A clone compares equal to the original, and any history run on the clone returns results equal (==) to those it would return on the original; identical ones if cloning an item gives an identical item.", "quantifier": "all reachable maps, all lawful Clone implementations, all subsequent histories", "why_tests_cant": "ranges over histories", "anchors": ["src/cycle_map.rs:Clone for CycleMap"]}
{"id": "C34", "title": "PartialCycleMap behaves as a partial one-to-one relation", "statement": "For every history of calls (outside those singled out below), no call panics and every call returns what a plain list of entries - pairs, lone left items, lone right items, with no two equal left and no two equal right items - would return.", "quantifier": "every finite history of API calls, every item type with a lawful Eq/Hash, every hash function (including constant ones) and every lawful hash-table layout", "why_tests_cant": "as C05", "anchors": ["src/partial_cycle_map.rs:PartialCycleMap"]}
{"id": "C35", "title": "PartialCycleMap pairing is one-to-one and symmetric", "statement": "get_right(l) = r' implies get_left(r') is the stored left item equal to l, and vice versa; an item is reported paired iff it has a partner.", "quantifier": "every finite history of API calls, every item type with a lawful Eq/Hash, every hash function (including constant ones) and every lawful hash-table layout", "why_tests_cant": "invariant over all histories", "anchors": ["src/partial_cycle_map.rs:get_left", "src/partial_cycle_map.rs:get_right", "src/partial_cycle_map.rs:is_left_paired", "src/partial_cycle_map.rs:is_right_paired"]}
{"id": "C36", "title": "PartialCycleMap::insert", "statement": "insert(l, r) leaves (l, r) plus every old entry sharing no item with it, and returns the old entry of l and then the old entry of r.", "quantifier": "every finite history of API calls, every item type with a lawful Eq/Hash, every hash function (including constant ones) and every lawful hash-table layout, all l, r", "why_tests_cant": "all overlap patterns of paired and lone items", "anchors": ["src/partial_cycle_map.rs:insert"]}
{"id": "C37", "title": "PartialCycleMap::insert_left / insert_right", "statement": "Inserting a lone item leaves that item unpaired plus every old entry not containing an equal item, and returns the displaced entry (with its partner, if any).", "quantifier": "every finite history of API calls, every item type with a lawful Eq/Hash, every hash function (including constant ones) and every lawful hash-table layout, all items", "why_tests_cant": "as C36", "anchors": ["src/partial_cycle_map.rs:insert_left", "src/partial_cycle_map.rs:insert_right"]}
{"id": "C38", "title": "PartialCycleMap::pair", "statement": "pair(l, r) succeeds exactly when both items are present and both are unpaired; then they are paired with each other and nothing else changes; on failure nothing changes.", "quantifier": "every finite history of API calls, every item type with a lawful Eq/Hash, every hash function (including constant ones) and every lawful hash-table layout, all l, r", "why_tests_cant": "as C36", "anchors": ["src/partial_cycle_map.rs:pair"]}
{"id": "C39", "title": "PartialCycleMap::pair_forced", "statement": "pair_forced(l, r) on present items makes them partners, keeps their former partners in the map as lone items, returns exactly those former partners, changes nothing else, and is a no-op when they are already partners or one is absent.", "quantifier": "every finite history of API calls, every item type with a lawful Eq/Hash, every hash function (including constant ones) and every lawful hash-table layout, all l, r", "why_tests_cant": "four pairing cases in every reachable state, identifier reuse", "anchors": ["src/partial_cycle_map.rs:pair_forced"]}
{"id": "C40", "title": "PartialCycleMap::pair_forced_remove", "statement": "As pair_forced, but the former partners are removed from the map and returned by value.", "quantifier": "every finite history of API calls, every item type with a lawful Eq/Hash, every hash function (including constant ones) and every lawful hash-table layout, all l, r", "why_tests_cant": "as C39", "anchors": ["src/partial_cycle_map.rs:pair_forced_remove"]}
{"id": "C41", "title": "PartialCycleMap::unpair", "statement": "unpair(l, r) returns true exactly when l and r are partners; then both stay as lone items and nothing else changes; otherwise nothing changes.", "quantifier": "every finite history of API calls, every item type with a lawful Eq/Hash, every hash function (including constant ones) and every lawful hash-table layout, all l, r", "why_tests_cant": "needs colliding hashes on both sides to fail", "anchors": ["src/partial_cycle_map.rs:unpair"]}
{"id": "C42", "title": "PartialCycleMap queries", "statement": "contains_left/right, is_left/right_paired, are_paired, get_left, get_right give the answers read off the list of entries.", "quantifier": "every finite history of API calls, every item type with a lawful Eq/Hash, every hash function (including constant ones) and every lawful hash-table layout, all arguments", "why_tests_cant": "as C11", "anchors": ["src/partial_cycle_map.rs:contains_left", "src/partial_cycle_map.rs:is_left_paired", "src/partial_cycle_map.rs:are_paired", "src/partial_cycle_map.rs:get_left"]}
{"id": "C43", "title": "PartialCycleMap::remove_via_left / remove_via_right", "statement": "Removing via an item removes its whole entry (item and partner) and returns it; absent items change nothing; remove_via_left never returns SomeRight and remove_via_right never returns SomeLeft.", "quantifier": "every finite history of API calls, every item type with a lawful Eq/Hash, every hash function (including constant ones) and every lawful hash-table layout, all arguments", "why_tests_cant": "as C36", "anchors": ["src/partial_cycle_map.rs:remove_via_left", "src/partial_cycle_map.rs:remove_via_right"]}
{"id": "C44", "title": "PartialCycleMap::remove_left / remove_right", "statement": "remove_left removes just that item; its partner, if any, stays as a lone item; nothing else changes. Symmetrically for remove_right.", "quantifier": "every finite history of API calls, every item type with a lawful Eq/Hash, every hash function (including constant ones) and every lawful hash-table layout, all arguments", "why_tests_cant": "identifiers of stranded items must not collide later", "anchors": ["src/partial_cycle_map.rs:remove_left", "src/partial_cycle_map.rs:remove_right"]}
{"id": "C45", "title": "PartialCycleMap::remove", "statement": "remove(l, r) removes and returns both exactly when they are partners; otherwise nothing changes.", "quantifier": "every finite history of API calls, every item type with a lawful Eq/Hash, every hash function (including constant ones) and every lawful hash-table layout, all arguments", "why_tests_cant": "as C36", "anchors": ["src/partial_cycle_map.rs:remove"]}
{"id": "C46", "title": "PartialCycleMap swaps on a present item", "statement": "swap_left(l1, l2) replaces l1 by l2 in its entry (keeping its partner or lone state), removes and returns the other entry of l2 if any, returns the old item, and changes nothing else. Symmetrically for swap_right.", "quantifier": "every finite history of API calls, every item type with a lawful Eq/Hash, every hash function (including constant ones) and every lawful hash-table layout, all arguments with the old item present", "why_tests_cant": "as C12", "anchors": ["src/partial_cycle_map.rs:swap_left", "src/partial_cycle_map.rs:swap_right"]}
{"id": "C47", "title": "PartialCycleMap swaps on an absent item", "statement": "swap_left / swap_right on an absent old item return Neither and leave the map unchanged.", "quantifier": "every finite history of API calls, every item type with a lawful Eq/Hash, every hash function (including constant ones) and every lawful hash-table layout, all arguments with the old item absent", "why_tests_cant": "needs the new item to be present", "anchors": ["src/partial_cycle_map.rs:swap_left", "src/partial_cycle_map.rs:swap_left_eq_check", "src/partial_cycle_map.rs:swap_right_eq_check"]}
{"id": "C48", "title": "PartialCycleMap checked swaps", "statement": "The checked swaps equal `if are_paired then swap else Neither` and change nothing in the second case.", "quantifier": "every finite history of API calls, every item type with a lawful Eq/Hash, every hash function (including constant ones) and every lawful hash-table layout, all arguments", "why_tests_cant": "as C16", "anchors": ["src/partial_cycle_map.rs:swap_left_checked", "src/partial_cycle_map.rs:swap_right_checked"]}
{"id": "C49", "title": "PartialCycleMap swap-or-insert", "statement": "With the old item present these are the swaps; with it absent they insert the new pair, hand back the displaced entries and do not panic.", "quantifier": "every finite history of API calls, every item type with a lawful Eq/Hash, every hash function (including constant ones) and every lawful hash-table layout, all arguments", "why_tests_cant": "panic needs a conflicting item", "anchors": ["src/partial_cycle_map.rs:swap_left_or_insert", "src/partial_cycle_map.rs:swap_right_or_insert"]}
{"id": "C50", "title": "PartialCycleMap::iter covers every item", "statement": "iter visits every entry of the map exactly once: pairs, lone left items and lone right items.", "quantifier": "every finite history of API calls, every item type with a lawful Eq/Hash, every hash function (including constant ones) and every lawful hash-table layout", "why_tests_cant": "all states", "anchors": ["src/partial_cycle_map.rs:Iter", "src/partial_cycle_map.rs:iter"]}
{"id": "C51", "title": "PartialCycleMap paired / unpaired / one-sided iterators", "statement": "iter_paired yields exactly the pairs, iter_unpaired exactly the lone items of both sides, iter_left / iter_right exactly the items of that side, each once.", "quantifier": "every finite history of API calls, every item type with a lawful Eq/Hash, every hash function (including constant ones) and every lawful hash-table layout", "why_tests_cant": "all states", "anchors": ["src/partial_cycle_map.rs:PairedIter", "src/partial_cycle_map.rs:UnpairedIter", "src/partial_cycle_map.rs:SingleIter"]}
{"id": "C52", "title": "PartialCycleMap iterator lengths", "statement": "For every iterator the ExactSizeIterator length equals the number of items still to come and size_hint brackets it.", "quantifier": "every finite history of API calls, every item type with a lawful Eq/Hash, every hash function (including constant ones) and every lawful hash-table layout, every number of items already taken", "why_tests_cant": "all states and positions", "anchors": ["src/partial_cycle_map.rs:ExactSizeIterator for DrainIter", "src/partial_cycle_map.rs:PairedIter::size_hint", "src/partial_cycle_map.rs:UnpairedIter::size_hint"]}
{"id": "C53", "title": "PartialCycleMap::drain", "statement": "Draining yields every entry exactly once, and whether or not it is exhausted the map is empty and usable afterwards.", "quantifier": "every finite history of API calls, every item type with a lawful Eq/Hash, every hash function (including constant ones) and every lawful hash-table layout, every drop point", "why_tests_cant": "needs at least two lone right items", "anchors": ["src/partial_cycle_map.rs:drain", "src/partial_cycle_map.rs:DrainIter::next", "src/partial_cycle_map.rs:Drop for DrainIter"]}
{"id": "C54", "title": "PartialCycleMap::drain_filter", "statement": "The closure is called exactly once on each entry; exactly the entries for which it returned true are removed (whole), whatever the drop point; no entry is split.", "quantifier": "every finite history of API calls, every item type with a lawful Eq/Hash, every hash function (including constant ones) and every lawful hash-table layout, every closure and drop point", "why_tests_cant": "needs a closure that treats SomeRight and SomeBoth differently", "anchors": ["src/partial_cycle_map.rs:drain_filter", "src/partial_cycle_map.rs:DrainFilterInner::next"]}
{"id": "C55", "title": "PartialCycleMap retain family", "statement": "retain, retain_paired and retain_unpaired keep exactly the visited entries for which the closure returned true (the documentation: drop those for which it returns false).", "quantifier": "every finite history of API calls, every item type with a lawful Eq/Hash, every hash function (including constant ones) and every lawful hash-table layout, every closure", "why_tests_cant": "inverted predicate passes symmetric tests", "anchors": ["src/partial_cycle_map.rs:retain", "src/partial_cycle_map.rs:retain_paired", "src/partial_cycle_map.rs:retain_unpaired"]}
{"id": "C56", "title": "PartialCycleMap equality", "statement": "Two maps compare equal exactly when they have the same pairs, lone left items and lone right items; equality is symmetric.", "quantifier": "all pairs of reachable maps", "why_tests_cant": "ranges over pairs of histories", "anchors": ["src/partial_cycle_map.rs:PartialEq for PartialCycleMap"]}
{"id": "C57", "title": "PartialCycleMap extend / from_iter", "statement": "Extending with pairs or OptionalPairs equals inserting the elements in order with insert / insert_left / insert_right, Neither being ignored.", "quantifier": "all finite sequences", "why_tests_cant": "all sequences", "anchors": ["src/partial_cycle_map.rs:Extend", "src/partial_cycle_map.rs:FromIterator"]}
{"id": "C58", "title": "PartialCycleMap len / is_empty / clear / capacity calls", "statement": "len_left / len_right count the items of each side; is_empty iff there is none; clear empties both sides; reserve and shrink change no answer.", "quantifier": "every finite history of API calls, every item type with a lawful Eq/Hash, every hash function (including constant ones) and every lawful hash-table layout", "why_tests_cant": "two tables may drift apart", "anchors": ["src/partial_cycle_map.rs:len_left", "src/partial_cycle_map.rs:len_right", "src/partial_cycle_map.rs:is_empty", "src/partial_cycle_map.rs:clear", "src/partial_cycle_map.rs:reserve_left", "src/partial_cycle_map.rs:shrink_to_fit"]}
{"id": "C59", "title": "PartialCycleMap results do not depend on the hash function", "statement": "The same history under two hash builders and layouts gives the same results call by call, iteration up to order.", "quantifier": "all histories, all pairs of hash functions", "why_tests_cant": "ranges over all hash functions; unpair compares hashes only", "anchors": ["src/partial_cycle_map.rs:unpair", "src/partial_cycle_map.rs:are_paired"]}
{"id": "C60", "title": "GroupMap behaves as a function from left items to right items", "statement": "For every history of the calls not singled out below, no call panics and every call returns what a plain list of groups (a right item with its set of left items) would return.", "quantifier": "every finite history of API calls, every item type with a lawful Eq/Hash, every hash function (including constant ones) and every lawful hash-table layout", "why_tests_cant": "as C05", "anchors": ["src/group_map.rs:GroupMap"]}
{"id": "C61", "title": "GroupMap lookups are coherent", "statement": "Every left item has exactly one right item: get_right(l) = r iff l is among get_left_iter(r) iff are_paired(l, r); every left item appears in exactly one group.", "quantifier": "every finite history of API calls, every item type with a lawful Eq/Hash, every hash function (including constant ones) and every lawful hash-table layout", "why_tests_cant": "invariant over all histories", "anchors": ["src/group_map.rs:get_right", "src/group_map.rs:get_left_iter", "src/group_map.rs:are_paired"]}
{"id": "C62", "title": "GroupMap::insert", "statement": "insert(l, r) makes l paired with r, creating whichever items are missing and keeping stored equal items, moves l out of its former group, keeps the former right item, and changes nothing else - including when l and r are already paired.", "quantifier": "every finite history of API calls, every item type with a lawful Eq/Hash, every hash function (including constant ones) and every lawful hash-table layout, all l, r", "why_tests_cant": "needs a repeated insertion followed by other calls", "anchors": ["src/group_map.rs:insert"]}
{"id": "C63", "title": "GroupMap::insert_remove", "statement": "insert_remove(l, r) removes the old left item, removes the old right item with all its left items, adds the new pair, and returns what was removed.", "quantifier": "every finite history of API calls, every item type with a lawful Eq/Hash, every hash function (including constant ones) and every lawful hash-table layout, all l, r", "why_tests_cant": "as C62", "anchors": ["src/group_map.rs:insert_remove"]}
{"id": "C64", "title": "GroupMap::insert_left", "statement": "insert_left(l, r) with r present puts l in r's group, replacing and returning an equal left item wherever it was; with r absent it changes nothing and returns None.", "quantifier": "every finite history of API calls, every item type with a lawful Eq/Hash, every hash function (including constant ones) and every lawful hash-table layout, all l, r", "why_tests_cant": "as C62", "anchors": ["src/group_map.rs:insert_left"]}
{"id": "C65", "title": "GroupMap::insert_right", "statement": "insert_right(r) leaves r as a right item with no left items, removing and returning an equal right item together with its whole group.", "quantifier": "every finite history of API calls, every item type with a lawful Eq/Hash, every hash function (including constant ones) and every lawful hash-table layout, all r", "why_tests_cant": "as C62", "anchors": ["src/group_map.rs:insert_right"]}
{"id": "C66", "title": "GroupMap::swap_right", "statement": "swap_right(old, new) pairs every left item of old with new, keeps old without left items, and afterwards all lookups, iterations and updates agree on the new pairing and do not panic.", "quantifier": "every finite history of API calls, every item type with a lawful Eq/Hash, every hash function (including constant ones) and every lawful hash-table layout, all arguments", "why_tests_cant": "needs lookups after the swap", "anchors": ["src/group_map.rs:swap_right"]}
{"id": "C67", "title": "GroupMap::swap_right_remove", "statement": "swap_right_remove(old, new) replaces old by new in its group, returns old, and afterwards all lookups, iterations and updates agree and do not panic.", "quantifier": "every finite history of API calls, every item type with a lawful Eq/Hash, every hash function (including constant ones) and every lawful hash-table layout, all arguments", "why_tests_cant": "as C66", "anchors": ["src/group_map.rs:swap_right_remove"]}
{"id": "C68", "title": "GroupMap::pair", "statement": "pair(l, r) succeeds exactly when both are present; then l is moved to r's group (a no-op if already there) and nothing else changes.", "quantifier": "every finite history of API calls, every item type with a lawful Eq/Hash, every hash function (including constant ones) and every lawful hash-table layout, all l, r", "why_tests_cant": "as C62", "anchors": ["src/group_map.rs:pair"]}
{"id": "C69", "title": "GroupMap::remove_left", "statement": "remove_left(l) removes and returns just the stored item equal to l, keeping its right item; absent items change nothing.", "quantifier": "every finite history of API calls, every item type with a lawful Eq/Hash, every hash function (including constant ones) and every lawful hash-table layout, all l", "why_tests_cant": "as C62", "anchors": ["src/group_map.rs:remove_left"]}
{"id": "C70", "title": "GroupMap::remove_right / remove", "statement": "remove_right(r) removes and returns the right item with exactly its left items; remove(l, r) does so exactly when l and r are paired; otherwise nothing changes.", "quantifier": "every finite history of API calls, every item type with a lawful Eq/Hash, every hash function (including constant ones) and every lawful hash-table layout, all l, r", "why_tests_cant": "as C62", "anchors": ["src/group_map.rs:remove_right", "src/group_map.rs:remove"]}
{"id": "C71", "title": "GroupMap queries", "statement": "contains_left/right, is_right_paired, are_paired, get_right, get_left_iter give the answers read off the list of groups.", "quantifier": "every finite history of API calls, every item type with a lawful Eq/Hash, every hash function (including constant ones) and every lawful hash-table layout, all arguments", "why_tests_cant": "as C11", "anchors": ["src/group_map.rs:contains_left", "src/group_map.rs:is_right_paired", "src/group_map.rs:get_left_iter"]}
{"id": "C72", "title": "GroupMap iterators", "statement": "iter visits every pair and every lone right item exactly once; iter_paired the pairs, iter_unpaired the lone right items, iter_left / iter_right the items of that side.", "quantifier": "every finite history of API calls, every item type with a lawful Eq/Hash, every hash function (including constant ones) and every lawful hash-table layout", "why_tests_cant": "all states", "anchors": ["src/group_map.rs:Iter", "src/group_map.rs:PairedIter", "src/group_map.rs:UnpairedIter", "src/group_map.rs:PairIter"]}
{"id": "C73", "title": "GroupMap iterator cloning and lengths", "statement": "At every position a cloned iterator yields the same remaining items as the original, len equals their number and size_hint brackets it.", "quantifier": "every finite history of API calls, every item type with a lawful Eq/Hash, every hash function (including constant ones) and every lawful hash-table layout, every position", "why_tests_cant": "all states and positions", "anchors": ["src/group_map.rs:Clone for Iter", "src/group_map.rs:ExactSizeIterator for Iter", "src/group_map.rs:Iter::size_hint"]}
{"id": "C74", "title": "GroupMap::retain_paired", "statement": "retain_paired drops exactly the left items whose pair makes the closure return false, and the map stays coherent.", "quantifier": "every finite history of API calls, every item type with a lawful Eq/Hash, every hash function (including constant ones) and every lawful hash-table layout, every closure", "why_tests_cant": "inverted predicate and stale back references pass symmetric tests", "anchors": ["src/group_map.rs:retain_paired"]}
{"id": "C75", "title": "GroupMap::retain_unpaired", "statement": "retain_unpaired drops exactly the lone right items for which the closure returns false.", "quantifier": "every finite history of API calls, every item type with a lawful Eq/Hash, every hash function (including constant ones) and every lawful hash-table layout, every closure", "why_tests_cant": "inverted predicate passes symmetric tests", "anchors": ["src/group_map.rs:retain_unpaired"]}
{"id": "C76", "title": "GroupMap equality", "statement": "Two maps compare equal exactly when they have the same pairs and the same right items; equality is symmetric.", "quantifier": "all pairs of reachable maps", "why_tests_cant": "ranges over pairs of histories", "anchors": ["src/group_map.rs:PartialEq for GroupMap"]}
{"id": "C77", "title": "GroupMap extend / from_iter", "statement": "Extending equals inserting the elements in order with insert / insert_right.", "quantifier": "all finite sequences", "why_tests_cant": "all sequences", "anchors": ["src/group_map.rs:Extend", "src/group_map.rs:FromIterator"]}
{"id": "C78", "title": "GroupMap len / is_empty / clear", "statement": "len_left / len_right count the items of each side; is_empty iff there is none; clear empties both.", "quantifier": "every finite history of API calls, every item type with a lawful Eq/Hash, every hash function (including constant ones) and every lawful hash-table layout", "why_tests_cant": "two tables may drift apart", "anchors": ["src/group_map.rs:len_left", "src/group_map.rs:len_right", "src/group_map.rs:is_empty", "src/group_map.rs:clear"]}
{"id": "C79", "title": "GroupMap results do not depend on the hash function", "statement": "The same history under two hash builders and layouts gives the same results call by call, iteration up to order.", "quantifier": "all histories, all pairs of hash functions", "why_tests_cant": "ranges over all hash functions", "anchors": ["src/group_map.rs:make_hash"]}
{"id": "C80", "title": "A panicking closure does not corrupt a CycleMap", "statement": "If the closure given to retain or drain_filter panics at any call, the map left behind is still a one-to-one map that answers all later calls; retain then has removed nothing, drain_filter has removed only pairs for which the closure returned true.", "quantifier": "every finite history of API calls, every item type with a lawful Eq/Hash, every hash function (including constant ones) and every lawful hash-table layout, every closure and every panic point", "why_tests_cant": "ranges over every crash point", "anchors": ["src/cycle_map.rs:retain", "src/cycle_map.rs:drain_filter", "src/cycle_map.rs:Drop for DrainFilterIter"]}
{"id": "C81", "title": "PartialCycleMap clone", "statement": "A clone shows the cloned entries, compares equal to the original in both directions, and answers every later history of calls as the original would.", "quantifier": "all reachable maps, all lawful Clone implementations, all histories", "why_tests_cant": "ranges over all later histories", "anchors": ["src/partial_cycle_map.rs:impl Clone for PartialCycleMap"]}
{"id": "C82", "title": "PartialCycleMap lookup by a borrowed form", "statement": "get_left and get_right called with any key type that hashes and compares like the stored items return the partner of the matching stored item, or None.", "quantifier": "all reachable maps, all key types, all lawful equivalences", "why_tests_cant": "ranges over all key types and hash functions", "anchors": ["src/partial_cycle_map.rs:get_left", "src/partial_cycle_map.rs:get_right"]}
{"id": "C83", "title": "GroupMap clone", "statement": "A clone shows the cloned items, compares equal to the original in both directions, and answers every later history of calls as the original would.", "quantifier": "all reachable maps, all lawful Clone implementations, all histories", "why_tests_cant": "ranges over all later histories", "anchors": ["src/group_map.rs:impl Clone for GroupMap"]}
{"id": "C84", "title": "GroupMap lookup by a borrowed form", "statement": "get_right and get_left_iter called with any key type that hashes and compares like the stored items return the right item, or the left items, of the matching stored item, or None.", "quantifier": "all reachable maps, all key types, all lawful equivalences", "why_tests_cant": "ranges over all key types and hash functions", "anchors": ["src/group_map.rs:get_left_iter", "src/group_map.rs:get_right"]}
{"id": "C85", "title": "Items are stored under their own hash", "statement": "In both tables of each of the three maps every item is stored under its own hash, even though growing, shrinking and cleaning up rehash the elements through the Hash implementations of the private element types at moments the table chooses.", "quantifier": "all reachable CycleMaps and PartialCycleMaps; all GroupMap histories, including those with calls that break the map; all table implementations and all rehashing moments", "why_tests_cant": "rehashing moments depend on the table implementation, its load and its tombstones", "anchors": ["src/utils.rs:make_hasher", "src/cycle_map.rs:impl Hash for MappingPair", "src/partial_cycle_map.rs:impl Hash for MappingPair", "src/group_map.rs:impl Hash for LeftItem", "src/group_map.rs:impl Hash for RightItem"]}
{"id": "C86", "title": "What a broken GroupMap still guarantees", "statement": "After any history of successful calls, including the calls that break a GroupMap, iter_left yields no item twice, contains_left and contains_right agree with iter_left and iter_right, the lengths count what the iterators yield, and on each side every id is in use once and below its counter.", "quantifier": "all histories whose calls return (with lawful Clone), no further precondition", "why_tests_cant": "ranges over all histories, also those outside the documented behaviour", "anchors": ["src/group_map.rs:contains_left", "src/group_map.rs:contains_right", "src/group_map.rs:iter_left", "src/group_map.rs:iter_right"]}
{"id": "C87", "title": "CycleMap holds `with_capacity(n)` pairs without reallocating", "statement": "A map made by with_capacity(n) has, after any non-shrinking history that puts in k items, room for at least n - k more in both tables, and while k < n an insertion moves no element; from any map a history uses at most as much room as it puts in items.", "quantifier": "all n, hashers, histories without shrink calls (conflicting inserts, swaps, removals, drains included), all lawful tables with tombstones", "why_tests_cant": "removals may or may not leave tombstones depending on the layout; tests look at one allocator and one layout", "anchors": ["src/cycle_map.rs:with_capacity_and_hasher", "src/cycle_map.rs:capacity", "src/cycle_map.rs:insert"]}
{"id": "C88", "title": "CycleMap reserve, try_reserve and shrink keep their bounds", "statement": "reserve(n) and a successful try_reserve(n) leave room for n more items in both tables; no (try_)reserve takes room away; shrink_to(n) drops no table below its items nor below min(n, old capacity); shrink_to_fit not below the items.", "quantifier": "all maps, all n, all allocation outcomes, all lawful tables", "why_tests_cant": "depends on allocation failures and on the layout of both tables", "anchors": ["src/cycle_map.rs:reserve", "src/cycle_map.rs:try_reserve", "src/cycle_map.rs:shrink_to", "src/cycle_map.rs:shrink_to_fit"]}
{"id": "C89", "title": "Both tables of a CycleMap have the same capacity", "statement": "As documented at `capacity`: both sets always have the same capacity.", "quantifier": "all histories, all lawful tables, all allocation outcomes", "why_tests_cant": "needs a failing allocation or tombstones in one table only", "anchors": ["src/cycle_map.rs:capacity", "src/cycle_map.rs:try_reserve"]}
{"id": "C90", "title": "PartialCycleMap capacity per side", "statement": "with_capacity(n) holds n items per side before that side reallocates; a non-shrinking history uses at most as much room on a side as it puts items there; reserve_left/right, try_reserve_*, shrink_to_* and shrink_to_fit keep their documented bounds and leave the other side alone.", "quantifier": "all maps, histories, n, allocation outcomes, lawful tables", "why_tests_cant": "as C87, with independent sides", "anchors": ["src/partial_cycle_map.rs:capacity_left", "src/partial_cycle_map.rs:capacity_right", "src/partial_cycle_map.rs:reserve_left", "src/partial_cycle_map.rs:shrink_to_left"]}
{"id": "C91", "title": "GroupMap capacity per side", "statement": "with_capacity(n) holds n items per side before that side reallocates; every history, also one that breaks the map, uses at most as much room on a side as it puts items there.", "quantifier": "all maps, histories, n, lawful tables", "why_tests_cant": "as C87; swap_right keeps the old right item, so it uses room too", "anchors": ["src/group_map.rs:capacity_left", "src/group_map.rs:capacity_right", "src/group_map.rs:with_capacity_and_hasher"]}
{"id": "C92", "title": "A panicking closure does not corrupt a PartialCycleMap", "statement": "If the closure given to retain, retain_paired or retain_unpaired panics at any call, the map is left exactly as it was. If the closure given to drain_filter (one that accepts SomeRight(r) for no paired r) panics, in the loop of the caller or in Drop, the entries it accepted before are gone, all others are still there, and all later calls go on as on a map with those entries; two panics abort.", "quantifier": "every map reachable by API calls, every item type with a lawful Eq/Hash, every hash function and lawful hash-table layout, every stateful closure and every panic point", "why_tests_cant": "ranges over every crash point", "anchors": ["src/partial_cycle_map.rs:retain", "src/partial_cycle_map.rs:retain_paired", "src/partial_cycle_map.rs:retain_unpaired", "src/partial_cycle_map.rs:drain_filter", "src/partial_cycle_map.rs:Drop for DrainFilterIter"]}
{"id": "C93", "title": "A panicking closure does not corrupt a GroupMap", "statement": "If the closure given to retain_paired or retain_unpaired panics at any call, the map is left exactly as it was.", "quantifier": "every map reachable by API calls, every item type with a lawful Eq/Hash, every hash function and lawful hash-table layout, every stateful closure and every panic point", "why_tests_cant": "ranges over every crash point", "anchors": ["src/group_map.rs:retain_paired", "src/group_map.rs:retain_unpaired"]}
{"id": "C94", "title": "The hash-table contract is met by a table with control bytes, group probing and tombstones", "statement": "A model of hashbrown 0.12's open-addressing table (power-of-two buckets, control bytes, triangular group probing, 7-bit tags, tombstones, 7/8 load limit, growth and rehash) meets the contract (find, mutations, capacity) assumed by the other properties, for every group width. In every CycleMap and GroupMap whatsoever and in every reachable PartialCycleMap run on it, some bucket stays EMPTY, the load limit holds and the probe alone finds every stored element. Histories on it need no assumption about tables.", "quantifier": "every group width, item type with lawful Eq/Hash, hash function, history of calls", "why_tests_cant": "probe sequences, tombstones and collisions range over unboundedly many layouts", "anchors": ["Cargo.toml:hashbrown", "src/cycle_map.rs:RawTable", "src/partial_cycle_map.rs:RawTable", "src/group_map.rs:RawTable"]}
{"id": "C95", "title": "Invariants of every CycleMap and PartialCycleMap, broken or not", "statement": "After any history of calls, also one with a drain that was dropped early (CycleMap) or with the calls that break pairs (PartialCycleMap), every item is stored under its own hash, neither side yields an item twice, contains_left/contains_right agree with iter_left/iter_right and the lengths count the items. In a CycleMap no id is in use twice on the left and all are below the counter.", "quantifier": "every history of calls (lawful Clone), every item type with a lawful Eq/Hash, every hash function and lawful hash-table layout", "why_tests_cant": "ranges over all histories, including the corrupting ones", "anchors": ["src/cycle_map.rs:drain", "src/cycle_map.rs:contains_left", "src/partial_cycle_map.rs:drain_filter", "src/partial_cycle_map.rs:unpair", "src/partial_cycle_map.rs:contains_left"]}
{"id": "C96", "title": "The hasher of a map never changes", "statement": "hasher() returns the BuildHasher the map was made with, after any history of calls, for all three maps.", "quantifier": "every history of calls (lawful Clone), every item type with a lawful Eq/Hash, every hash function and lawful hash-table layout", "why_tests_cant": "ranges over all histories", "anchors": ["src/cycle_map.rs:hasher", "src/partial_cycle_map.rs:hasher", "src/group_map.rs:hasher"]}
{"id": "C97", "title": "clear() heals every map", "statement": "After clear() any map, reachable or not, broken or not, behaves on every later safe history as a new map: no panic and the answers of the specification started from empty.", "quantifier": "every map value whatsoever, every later safe history, every item type with a lawful Eq/Hash, every hash function and lawful hash-table layout", "why_tests_cant": "ranges over all map states, including corrupted ones, and all later histories", "anchors": ["src/cycle_map.rs:clear", "src/partial_cycle_map.rs:clear", "src/group_map.rs:clear"]}
{"id": "C98", "title": "CycleMap: get_right returns the partner just inserted, whatever happened before", "statement": "Once insert(l, r) has returned, get_right(l) is r and get_left(r) is l, also if a drain was dropped early before.", "quantifier": "every history of calls (lawful Clone), every item type with a lawful Eq/Hash, every hash function and lawful hash-table layout", "why_tests_cant": "the failing case needs a particular layout of the table after a particular history", "anchors": ["src/cycle_map.rs:drain", "src/cycle_map.rs:insert", "src/cycle_map.rs:get_right", "src/cycle_map.rs:Drop for DrainIter"]}
{"id": "C99", "title": "Insertion and removal take effect in every map, broken or not", "statement": "After any history: if insert(l, r) returns, both items are there, and in CycleMap and PartialCycleMap are_paired; if insert_left/insert_right return, the item is there (and unpaired in a PartialCycleMap); if remove_left, remove_right, remove_via_left or remove_via_right return, the item is not there any more (GroupMap: remove_left).", "quantifier": "every history of calls (lawful Clone), every item type with a lawful Eq/Hash, every hash function and lawful hash-table layout", "why_tests_cant": "ranges over all histories, including the corrupting ones", "anchors": ["src/cycle_map.rs:insert", "src/cycle_map.rs:remove_via_left", "src/partial_cycle_map.rs:insert", "src/partial_cycle_map.rs:insert_left", "src/partial_cycle_map.rs:remove_left", "src/group_map.rs:insert", "src/group_map.rs:remove_left"]}
{"id": "C100", "title": "CycleMap Debug output", "statement": "`{:?}` of a CycleMap prints every pair exactly once, as {(l1, r1), (l2, r2), ..}; `{:?}` of iter() prints the pairs it still yields and does not advance it; likewise iter_left/iter_right.", "quantifier": "every reachable map, every number of steps of the iterator, every way of printing the items, every hash function and lawful hash-table layout", "why_tests_cant": "ranges over all maps and iterator positions", "anchors": ["src/cycle_map.rs:fmt", "src/cycle_map.rs:Iter::clone"]}
{"id": "C101", "title": "PartialCycleMap Debug output", "statement": "`{:?}` of a PartialCycleMap shows every pair and every lone item; `{:?}` of an iterator shows the items it still yields.", "quantifier": "every reachable map, every number of steps, every way of printing the items, every hash function and lawful hash-table layout", "why_tests_cant": "ranges over all maps; tests do not look at the output", "anchors": ["src/partial_cycle_map.rs:fmt"]}
{"id": "C102", "title": "GroupMap Debug output", "statement": "`{:?}` of a GroupMap shows every pair and every lone right item once; `{:?}` of an iterator shows the items it still yields.", "quantifier": "every reachable map, every number of steps, every way of printing the items, every hash function and lawful hash-table layout", "why_tests_cant": "the failing case needs an iterator printed in the middle of a group", "anchors": ["src/group_map.rs:fmt", "src/group_map.rs:Iter::clone"]}
{"id": "C103", "title": "OptionalPair Debug output", "statement": "The four variants of OptionalPair never print alike; the output of SomeLeft and SomeRight determines what the item prints.", "quantifier": "all values, all ways of printing the items", "why_tests_cant": "ranges over all payload texts", "anchors": ["src/optionals.rs:fmt"]}
{"id": "C104", "title": "size_hint of drain_filter", "statement": "The upper bound in the size_hint of a drain_filter iterator is never smaller than the number of items it goes on to yield.", "quantifier": "every state of the iterator, every closure, every number of further steps", "why_tests_cant": "ranges over all closures and positions; a wrong bound is only observable by comparing with the items yielded later", "anchors": ["src/cycle_map.rs:DrainFilterIter::size_hint", "src/partial_cycle_map.rs:DrainFilterIter::size_hint"]}
{"id": "C105", "title": "CycleMap after caught panics", "statement": "Let Hash, Eq, a closure or the crate itself panic in any call of a history, and let each panic be caught and the map be used further. Then every item is still stored under its own hash, no side holds two equal items, contains_* agree with iter_*, len counts the left items, the hasher is the one the map was made with, and an insert or removal that returns takes effect. A call that is not interrupted does what it does in a program without panics.", "quantifier": "every history, every point at which user code runs in every call, every closure, every hash function and lawful hash-table layout, every way a table may lose elements when interrupted", "why_tests_cant": "needs a panic injected at every call of Hash and Eq in every history", "anchors": ["src/cycle_map.rs:insert", "src/cycle_map.rs:swap_left", "src/cycle_map.rs:swap_right", "src/cycle_map.rs:remove_via_left", "src/cycle_map.rs:retain", "src/cycle_map.rs:drain_filter"]}
{"id": "C106", "title": "CycleMap: panics of Hash and Eq keep the map one-to-one", "statement": "A call on a reachable map that is interrupted by a panic of Hash or Eq leaves a one-to-one map, with only pairs the call was to remove anyway missing.", "quantifier": "every reachable map, call and point of interruption, every hash function and lawful hash-table layout", "why_tests_cant": "needs a panic injected at every call of Hash and Eq", "anchors": ["src/cycle_map.rs:swap_left", "src/cycle_map.rs:insert", "src/cycle_map.rs:retain"]}
{"id": "C107", "title": "CycleMap: the crate's own panics leave a valid map", "statement": "The only panic the crate itself raises on a reachable map is the unreachable! of swap_right_or_insert, and the map it leaves holds the inserted pair and works.", "quantifier": "every reachable map and call, every hash function and lawful hash-table layout", "why_tests_cant": "ranges over all maps; tests stop at the panic", "anchors": ["src/cycle_map.rs:swap_right_or_insert"]}
{"id": "C108", "title": "GroupMap after caught panics", "statement": "Let Hash, Eq, a closure or the crate itself panic in any call of a history, and let each panic be caught and the map be used further. Then every item is still stored under its own hash, no left item is there twice, contains_* agree with iter_*, the lengths count the items, the hasher is the one the map was made with, and an insert, insert_right or remove_left that returns takes effect. A call that is not interrupted does what it does in a program without panics.", "quantifier": "every history, every point at which user code runs in every call, every closure, every hash function and lawful hash-table layout, every way a table may lose elements when interrupted", "why_tests_cant": "needs a panic injected at every call of Hash and Eq in every history", "anchors": ["src/group_map.rs:insert", "src/group_map.rs:insert_left", "src/group_map.rs:swap_right", "src/group_map.rs:remove_right", "src/group_map.rs:pair", "src/group_map.rs:retain_paired"]}
{"id": "C109", "title": "GroupMap: panics of Hash and Eq keep the map coherent", "statement": "A call on a reachable map that is interrupted by a panic of Hash or Eq leaves a coherent map (left items and groups agree), with only items the call was to remove anyway missing.", "quantifier": "every reachable map, call and point of interruption, every hash function and lawful hash-table layout", "why_tests_cant": "needs a panic injected at every call of Hash and Eq", "anchors": ["src/group_map.rs:swap_right", "src/group_map.rs:insert_left", "src/group_map.rs:pair", "src/group_map.rs:remove_right", "src/group_map.rs:insert"]}
{"id": "C110", "title": "PartialCycleMap after caught panics", "statement": "Let Hash, Eq, a closure or the crate itself panic in any call of a history, and let each panic be caught and the map be used further. Then every item is still stored under its own hash, no side holds two equal items, contains_* agree with iter_*, the lengths count the items, the hasher is the one the map was made with, and an insert, insert_left, insert_right or removal that returns takes effect. A call that is not interrupted does what it does in a program without panics.", "quantifier": "every history, every point at which user code runs in every call, every closure, every hash function and lawful hash-table layout, every way a table may lose elements when interrupted", "why_tests_cant": "needs a panic injected at every call of Hash and Eq in every history", "anchors": ["src/partial_cycle_map.rs:insert", "src/partial_cycle_map.rs:insert_left", "src/partial_cycle_map.rs:swap_left", "src/partial_cycle_map.rs:swap_right", "src/partial_cycle_map.rs:pair_forced", "src/partial_cycle_map.rs:retain", "src/partial_cycle_map.rs:drain_filter"]}
{"id": "C111", "title": "PartialCycleMap: panics of Hash and Eq keep the map one-to-one", "statement": "A call on a reachable map that is interrupted by a panic of Hash or Eq leaves a one-to-one map, with only entries the call was to remove anyway missing.", "quantifier": "every reachable map, call and point of interruption, every hash function and lawful hash-table layout", "why_tests_cant": "needs a panic injected at every call of Hash and Eq", "anchors": ["src/partial_cycle_map.rs:insert", "src/partial_cycle_map.rs:insert_left", "src/partial_cycle_map.rs:swap_left", "src/partial_cycle_map.rs:swap_right", "src/partial_cycle_map.rs:pair_forced", "src/partial_cycle_map.rs:retain"]}
{"id": "C112", "title": "PartialCycleMap: the crate's own panics leave a valid map", "statement": "The only panics the crate itself raises on a reachable map are the unreachable!s of swap_left_or_insert and swap_right_or_insert, and the map they leave holds the inserted pair and works.", "quantifier": "every reachable map and call, every hash function and lawful hash-table layout", "why_tests_cant": "ranges over all maps; tests stop at the panic", "anchors": ["src/partial_cycle_map.rs:swap_left_or_insert", "src/partial_cycle_map.rs:swap_right_or_insert"]}
{"id": "C113", "title": "CycleMap: a leaked drain_filter has removed exactly what it yielded", "statement": "If a drain_filter iterator of CycleMap is leaked with mem::forget after any number of items, the pairs yielded are gone, every other pair is still in the map, and the map goes on working.", "quantifier": "every reachable map, closure with state and number of items taken, every hash function and lawful hash-table layout; every later history", "why_tests_cant": "tests never leak an iterator; ranges over all stopping points and all closures", "anchors": ["src/cycle_map.rs:drain_filter", "src/cycle_map.rs:DrainFilterIter"]}
{"id": "C114", "title": "PartialCycleMap: a leaked drain_filter has removed exactly what it yielded", "statement": "If a drain_filter iterator of PartialCycleMap is leaked with mem::forget after any number of items, the entries yielded are gone and every other entry is still in the map.", "quantifier": "every reachable map, closure with state and number of items taken, every hash function and lawful hash-table layout", "why_tests_cant": "tests never leak an iterator; ranges over all stopping points and all closures", "anchors": ["src/partial_cycle_map.rs:drain_filter", "src/partial_cycle_map.rs:DrainFilterIter"]}
{"id": "C115", "title": "A leaked drain leaves a valid map", "statement": "If a drain iterator of CycleMap or PartialCycleMap is leaked with mem::forget after any number of items, what is left is still a one-to-one map.", "quantifier": "every reachable map and number of items taken, every hash function and lawful hash-table layout", "why_tests_cant": "tests never leak an iterator; ranges over all maps and stopping points", "anchors": ["src/cycle_map.rs:drain", "src/cycle_map.rs:DrainIter", "src/partial_cycle_map.rs:drain", "src/partial_cycle_map.rs:DrainIter"]}
{"id": "C116", "title": "Eq, Hash and Clone of the stored entries", "statement": "The equality of the private entry types of all three maps is an equivalence relation, agrees with the item they hold (and the id, for mapping pairs), is respected by their Hash, and no two entries stored in one table are ever equal; comparing an entry with an item is comparing its item, a clone of an entry equals it.", "quantifier": "all entries of all item types with lawful Eq/Hash/Clone; every history of calls (also those that break a map), every hash function and lawful hash-table layout", "why_tests_cant": "the types are private and their impls are never called directly by a test; quantifies over all item types", "anchors": ["src/cycle_map.rs:MappingPair", "src/partial_cycle_map.rs:MappingPair", "src/group_map.rs:LeftItem", "src/group_map.rs:RightItem"]}
{"id": "C117", "title": "Memory stays proportional to the largest number of items ever held", "statement": "If a map made by with_capacity(n) never holds (or is asked to make room for) more than N items on a side, the capacity of its tables never exceeds max(2n+1, 4N+3), however many calls are made.", "quantifier": "all three maps, every n, N and history of calls of any length that returns, every hash function, every hash-table layout that meets the memory contract (which the concrete swiss table is proved to meet)", "why_tests_cant": "quantifies over histories of unbounded length; a leak of tombstones or capacity only shows in the long run", "anchors": ["src/cycle_map.rs:CycleMap", "src/partial_cycle_map.rs:PartialCycleMap", "src/group_map.rs:GroupMap"]}
{"id": "C118", "title": "Deserializing allocates in proportion to what is received", "statement": "The memory of a deserialized CycleMap is bounded by a function of the number of elements the format delivered.", "quantifier": "every sequence of elements, every announced size hint, every hash function and lawful hash-table layout", "why_tests_cant": "a format with a dishonest size hint is never tested; quantifies over all hints and all bounds", "anchors": ["src/serde.rs:visit_seq"]}
{"id": "C119", "title": "Serializing into a format that may fail", "statement": "serialize tells the format the number of pairs, then hands it every pair exactly once until an operation of the format fails; the first failure ends serialization and is returned; serialize itself never panics.", "quantifier": "every reachable CycleMap and every serializer, whichever of its operations fail", "why_tests_cant": "the only test writes to an in-memory string, which never fails; quantifies over all failing formats", "anchors": ["src/serde.rs:serialize"]}
{"id": "C120", "title": "drain_filter survives destructors that panic", "statement": "When the iterator of drain_filter is dropped and a destructor of an accepted item panics, the remaining accepted items are still removed and dropped and the panic goes on to the caller; a second panic aborts. Otherwise exactly the accepted entries are gone, and the map behaves correctly in every later history.", "quantifier": "every reachable CycleMap and PartialCycleMap, every stateful closure that may panic, every stateful destructor that may panic, every number of next() calls before the drop (PartialCycleMap: closures that accept SomeRight(r) for no paired r)", "why_tests_cant": "no test has an item with a Drop implementation; quantifies over all combinations of panics", "anchors": ["src/cycle_map.rs:ConsumeAllOnDrop", "src/partial_cycle_map.rs:ConsumeAllOnDrop", "src/cycle_map.rs:DrainFilterIter", "src/partial_cycle_map.rs:DrainFilterIter"]}
{"id": "C121", "title": "retain and extend survive destructors that panic", "statement": "If a destructor panics in the retain family or in extend, whole entries only have been removed or inserted: retain removes the entries up to and including the one whose destructors panicked, extend inserts the elements up to and including that one; every item is either in the map or was dropped exactly once, and the map behaves correctly in every later history.", "quantifier": "every reachable map of the three kinds, every stateful closure and destructor (GroupMap: retain_unpaired and extend with pairs not yet stored)", "why_tests_cant": "no test has an item with a Drop implementation; quantifies over all destructors, closures and later histories", "anchors": ["src/cycle_map.rs:retain", "src/cycle_map.rs:extend", "src/partial_cycle_map.rs:retain", "src/partial_cycle_map.rs:retain_paired", "src/partial_cycle_map.rs:retain_unpaired", "src/partial_cycle_map.rs:extend", "src/group_map.rs:retain_unpaired", "src/group_map.rs:extend"]}
{"id": "C122", "title": "clear empties the map even if a destructor panics", "statement": "However clear() ends, the map is empty afterwards.", "quantifier": "every reachable map of the three kinds, every stateful destructor", "why_tests_cant": "no test has an item with a Drop implementation; quantifies over all destructors", "anchors": ["src/cycle_map.rs:clear", "src/partial_cycle_map.rs:clear", "src/group_map.rs:clear"]}
{"id": "C123", "title": "no item is lost and none is made up", "statement": "For every call and every history of calls: the items the map was given and those it held at the start are, one by one and counted with multiplicity, those it holds at the end, those it has handed back to the caller, and those it has dropped; only the swaps whose old item is missing (or whose third argument is not needed), clear, the retain family, drain_filter and drain of PartialCycleMap, extend, and (GroupMap) insert, insert_left, swap_right with stored arguments drop anything, and what they drop is stated.", "quantifier": "every reachable map of the three kinds, every call except clone, every history", "why_tests_cant": "quantifies over all histories and counts each instance of equal items; the tests use small integers, of which a lost and a duplicated instance look alike", "anchors": ["src/cycle_map.rs:insert", "src/cycle_map.rs:swap_left", "src/cycle_map.rs:swap_left_or_insert", "src/cycle_map.rs:remove", "src/partial_cycle_map.rs:insert", "src/partial_cycle_map.rs:pair_forced_remove", "src/partial_cycle_map.rs:swap_left_or_insert", "src/group_map.rs:insert", "src/group_map.rs:insert_remove", "src/group_map.rs:swap_right"]}
{"id": "C124", "title": "drain_filter never touches a bucket that was emptied", "statement": "drain_filter of CycleMap and PartialCycleMap takes elements out of tables while raw iterators over them live. Whatever the tables hold, whatever the closure does (it may keep state and panic), and however often next is called, also after a panic, and in the drop of the iterator: every bucket that is read or removed holds an element at that moment, and the items handed out together with the items still in the buckets are exactly the items that were there.", "quantifier": "all tables (no map invariant), all layouts, all closures with state that may panic, all numbers of calls of next, with and without the drop", "why_tests_cant": "a use of an emptied bucket is undefined behaviour, which a test need not notice, and depends on the layout", "anchors": ["src/cycle_map.rs:drain_filter", "src/partial_cycle_map.rs:drain_filter"]}
{"id": "C125", "title": "drain_filter, bucket by bucket, is the drain_filter of the other properties", "statement": "Run on raw buckets that hold the entries of the map in any layout with empty buckets in between, drain_filter yields the same pairs, ends the same way (returned, panicked, aborted), leaves the same closure state and the same entries as the list model used in the other properties. The tables may be the concrete SwissTable of C94, for which nothing about the tables is assumed.", "quantifier": "every reachable map, every layout, every closure with state that may panic, every number of calls of next before the drop", "why_tests_cant": "quantifies over layouts, which a test cannot choose", "anchors": ["src/cycle_map.rs:drain_filter", "src/partial_cycle_map.rs:drain_filter"]}
{"id": "C126", "title": "What {:#?} prints", "statement": "Printed with {:#?}, a map or one of its iterators shows every entry iter yields once, one entry after the other in the order of {:?}, each followed by a comma and every line of it indented by four spaces; an empty map prints {}. A GroupMap prints pairs of an Option of a left item and a right item, None for a right item without left items. A PartialCycleMap leaves out right items that are not paired (C101). The entries of a PartialCycleMap are printed with {:?} inside, so the # flag does not reach their items.", "quantifier": "all reachable maps, all contents, all texts the items may print, of any number of lines", "why_tests_cant": "unbounded contents and item texts", "anchors": ["src/cycle_map.rs:impl Debug", "src/partial_cycle_map.rs:impl Debug", "src/group_map.rs:impl Debug", "src/optionals.rs:impl Debug"]}
{"id": "C127", "title": "Which calls panic on a valid map", "statement": "With Hash, Eq, closures and destructors that do not panic, no call on a valid map panics, except: CycleMap::swap_right_or_insert(old, new, l) exactly if old is missing and l is present; PartialCycleMap::swap_left_or_insert(old, new, _) exactly if old is missing and new is present, and swap_right_or_insert(old, new, l) exactly if old is missing and new is present but not paired with l; GroupMap::extend, which panics only if it is given a pair that is there already.", "quantifier": "all reachable maps, all calls of the public interface with all arguments", "why_tests_cant": "a test finds a panic, it cannot show that there is no other", "anchors": ["src/cycle_map.rs", "src/partial_cycle_map.rs", "src/group_map.rs"]}
{"id": "C128", "title": "The iterators are fused", "statement": "Once next has returned None, every later call of next returns None, for every iterator that claims FusedIterator: iter, iter_left, iter_right, drain and drain_filter of CycleMap and PartialCycleMap, iter_paired and iter_unpaired of PartialCycleMap and GroupMap, iter and the iterator over the left items of a right item of GroupMap. If no call panics, n calls yield the items in order and then only None. Both hold on every map, valid or not, and when panics of next or of the closure were caught in between; for iter_paired of PartialCycleMap, on every map some history of calls can produce.", "quantifier": "all maps, all iterator states, all numbers of calls, all closures", "why_tests_cant": "the promise is about every later call, on maps and iterator states that are hard to reach in a test", "anchors": ["src/cycle_map.rs:impl FusedIterator", "src/partial_cycle_map.rs:impl FusedIterator", "src/group_map.rs:impl FusedIterator"]}
{"id": "C129", "title": "CycleMap and PartialCycleMap agree on pairs", "statement": "A PartialCycleMap into which only pairs were put and a CycleMap with the same pairs answer every call both types have in the same way, and hold the same pairs afterwards: insert, remove, remove_via_*, swap_left, swap_right and their checked forms, get_*, contains_*, are_paired, is_empty, clear, the iterators, extend, shrink_to_fit, and retaining the pairs a closure wants to keep; after any history of such calls the observers of both agree. The two maps may use different hash functions. swap_*_or_insert agree as well unless one of them panics (C127).", "quantifier": "all pairs of reachable maps with the same pairs, all histories of shared calls, all hash functions and tables on either side", "why_tests_cant": "two separate implementations are compared on all histories", "anchors": ["src/cycle_map.rs", "src/partial_cycle_map.rs"]}
{"id": "C130", "title": "Calls can be undone with what they return", "statement": "What a call returns (for GroupMap's calls on a left item: together with the right item get_right named before) suffices to undo it: removals by extending with the result; insertions by removing the new items and extending with what was pushed out; swap_left(old, new) and swap_right(old, new) by swapping back and extending with the displaced entry; unpair by pair, pair by unpair (in GroupMap: by pair with the former right item), pair_forced by removing the pair and extending with the two items and their former partners. Afterwards every observer describes the map exactly as before, down to which of several equal items is stored.", "quantifier": "all reachable maps, all arguments", "why_tests_cant": "no finite set of maps shows that nothing is ever lost", "anchors": ["src/cycle_map.rs", "src/partial_cycle_map.rs", "src/group_map.rs"]}
{"id": "C131", "title": "Destructors that panic in drain and in GroupMap::retain_paired", "statement": "A destructor that panics changes nothing but where these calls stop dropping. CycleMap::drain, dropped after n calls of next: it yields n pairs, drops left items of the others until one panics, and leaves the map without left items and with the right items that were not yielded, whether one panics or not. PartialCycleMap::drain: it yields what it yields without panics, drops the items of all other entries, each once and only after a panic leaving out right items without a partner, and unless two panics meet the map is empty and usable afterwards; destructors that panic at most once never abort the process. GroupMap::retain_paired: the left items it removes are dropped up to and including the first whose destructor panics, the others stay; the right items keep referring to all of them.", "quantifier": "all reachable maps, all destructors with a state that may panic whenever they like, all numbers of calls of next, all closures", "why_tests_cant": "no finite set of destructors, maps and stopping points shows that unwinding is safe everywhere", "anchors": ["src/cycle_map.rs:796-802", "src/cycle_map.rs:1309-1328", "src/partial_cycle_map.rs:2274-2329", "src/group_map.rs:972-988"]}
{"id": "C132", "title": "Dropping a map drops every item exactly once", "statement": "When a map is dropped, the left items are dropped and then the right items, each exactly once if no destructor panics. A destructor that panics keeps other items of its own side from being dropped (they are leaked), but not those of the other side, and no item is dropped twice; a second panic aborts the process.", "quantifier": "all maps of all three types that show some contents, all destructors with a state", "why_tests_cant": "no finite set of maps and destructors shows that nothing is leaked or dropped twice", "anchors": ["src/cycle_map.rs:88-93", "src/partial_cycle_map.rs:96-101", "src/group_map.rs:152-158"]}
{"id": "C133", "title": "Small changes to CycleMap after which its documentation is true", "statement": "With a check at the start, swap_left and swap_right of an absent item change nothing (C13, C15); with the match arms changed, swap_left_or_insert and swap_right_or_insert never panic and leave the documented map (C17, C18); a drain that empties the right table too leaves an empty map wherever it is stopped (C21); a clear with a guard leaves an empty map even if a destructor panics (C122). After each of them every later call goes as documented.", "quantifier": "all reachable maps, all items, all numbers of calls of next, all destructors with a state", "why_tests_cant": "that a repair is complete means that no map and no later call shows the defect", "anchors": ["src/cycle_map.rs:350-619", "src/cycle_map.rs:796-802", "src/cycle_map.rs:1094-1097", "src/cycle_map.rs:1309-1328"]}
{"id": "C134", "title": "Small changes to PartialCycleMap after which its documentation is true", "statement": "unpair with a check at the start (C41), the swaps with a check at the start (C47), swap_left_or_insert and swap_right_or_insert with the missing match arms (C49), iter that goes on to the lone right items (C50), drain that yields them too (C53), drain_filter that skips the paired right items in its second loop (C54), size_hint and len that count what is to come (C52, C104), the retain family with the closure the right way round (C55), == with || in the check of the lengths and over the repaired iter (C56), and clear with a guard (C122) do what is documented, and the map goes on working afterwards.", "quantifier": "all reachable maps, all items, all closures with state, all numbers of calls of next, all destructors with a state", "why_tests_cant": "that a repair is complete means that no map and no later call shows the defect", "anchors": ["src/partial_cycle_map.rs:550-572", "src/partial_cycle_map.rs:842-1119", "src/partial_cycle_map.rs:1248-1253", "src/partial_cycle_map.rs:1746-1758", "src/partial_cycle_map.rs:2022-2031", "src/partial_cycle_map.rs:2309-2329", "src/partial_cycle_map.rs:2391-2393", "src/partial_cycle_map.rs:2411-2447"]}
{"id": "C135", "title": "Small changes to GroupMap after which its documentation is true", "statement": "insert with a check at the start (C62), swap_right and swap_right_remove that update r_id and take out the new item first (C66, C67), retain_paired and retain_unpaired with the closure the right way round and, for the former, an update of the right item (C74, C75), == with || in the check of the lengths and a closure that looks for lone right items (C76), clone of the iterator that keeps the current group, with size_hint and len by counting (C73), and clear with a guard (C122) do what is documented, and the map goes on working afterwards: == is then exactly equality of pairs and right items.", "quantifier": "all reachable maps, all items, all closures with state, all numbers of calls of next, all destructors with a state", "why_tests_cant": "that a repair is complete means that no map and no later call shows the defect", "anchors": ["src/group_map.rs:231-303", "src/group_map.rs:472-545", "src/group_map.rs:972-1021", "src/group_map.rs:1067-1075", "src/group_map.rs:1244-1247", "src/group_map.rs:1313-1392"]}
{"id": "C136", "title": "CycleMap: the items' own code runs at a bounded number of places per call, growth included", "statement": "lib.rs and cycle_map.rs promise constant time lookups on par with a hash map. From a new map, any n calls on single pairs (insert, remove, the lookups, the swaps, ...) hash an item or probe a table by an item at most 15*n times in total, counting every item hashed again when a table grows; a lookup is charged 2 and an insert 10. The bulk calls are charged in proportion to the items they visit or are given. A single insert may need more than its charge (witness), so the bound is amortised. The table algorithm of hashbrown keeps to the contract of growing that this needs.", "quantifier": "all histories of calls from any map, with fuses of every size, over every table that keeps to the contract of hashbrown, all hash functions (constant ones included)", "why_tests_cant": "a benchmark sees some histories; the worst one, and that growth is paid for by the calls before it, needs an argument over all histories", "anchors": ["src/cycle_map.rs:42-50", "src/cycle_map.rs:155-320", "src/cycle_map.rs:350-640", "src/lib.rs:1-10", "src/utils.rs:3-23"]}
{"id": "C137", "title": "PartialCycleMap: the items' own code runs at a bounded number of places per call, growth included", "statement": "From a new map, any n calls on single items (insert, the insert_* of lone items, pair, unpair, the removals, the lookups, the swaps, ...) hash an item or probe a table by an item at most 14*n times in total, counting every item hashed again when a table grows. The bulk calls are charged in proportion to the items they visit or are given.", "quantifier": "all histories of calls from any map, with fuses of every size, over every table that keeps to the contract of hashbrown, all hash functions (constant ones included)", "why_tests_cant": "a benchmark sees some histories; the worst one, and that growth is paid for by the calls before it, needs an argument over all histories", "anchors": ["src/partial_cycle_map.rs:162-800", "src/partial_cycle_map.rs:842-1119", "src/lib.rs:1-10"]}
{"id": "C138", "title": "GroupMap: the items' own code runs at a bounded number of places per call, however large the groups", "statement": "From a new map, any n calls on single items and their groups (insert, remove_left, remove_right with the whole group it returns, the lookups, the swaps, ...) hash an item or probe a table by an item at most 12*n times in total, counting every item hashed again when a table grows and every item collected into the HashSet that remove_right returns: a group that is removed was paid for by the calls that built it.", "quantifier": "all histories of calls from any map, with fuses of every size, over every table that keeps to the contract of hashbrown, all hash functions (constant ones included)", "why_tests_cant": "a benchmark sees some histories; the worst one, and that growth is paid for by the calls before it, needs an argument over all histories", "anchors": ["src/group_map.rs:74-96", "src/group_map.rs:231-303", "src/group_map.rs:341-545", "src/group_map.rs:687-760", "src/lib.rs:1-10"]}
{"id": "C139", "title": "CycleMap keeps its two sides together whatever == is", "statement": "The items' == need not be an equivalence: it may fail to be reflexive (floats with NaN), symmetric or transitive (approximate comparison), as long as items that are == have the same hash. For every history of calls (a drain is run to its end), no call panics, except iter and retain if some left item is not equal to itself and swap_right_or_insert as in C18; every lookup, insert, removal and swap does what its documentation says for one of the pairs that match; retain drops whole pairs; and afterwards both sides still belong together: each holds its items once, and drain hands out exactly the pairs that were put in and not taken out. An item that is not equal to itself does make iter panic, and with an == that is not transitive iter shows a left item with the partner of another one, while drain gives the right one (witnesses).", "quantifier": "all relations ==, all hash functions that respect them, all histories of calls, all closures with state, every table that keeps to the contract of hashbrown", "why_tests_cant": "tests use well-behaved keys; that no unlawful == can split a pair is a statement about all relations and all histories", "anchors": ["src/cycle_map.rs:26-40", "src/cycle_map.rs:155-318", "src/cycle_map.rs:350-683", "src/cycle_map.rs:796-877", "src/cycle_map.rs:1185-1250"]}
{"id": "C140", "title": "Variants documented never to be returned", "statement": "CycleMap: swap_left, swap_left_checked, swap_right, swap_right_checked and swap_right_or_insert never return SomeRight. PartialCycleMap: insert_left and insert_right never return SomeLeft, remove_via_left never SomeRight, remove_via_right never SomeLeft, swap_left and swap_right never SomeRight, iter never yields Neither, iter_unpaired neither Neither nor SomeBoth.", "quantifier": "every map, in any state (also broken ones), all arguments, any ==, every hash function and lawful hash-table layout", "why_tests_cant": "a claim about all arguments and states; the existing tests only see the variants of a few calls, and one doc example contradicts its own note", "anchors": ["src/cycle_map.rs:328", "src/cycle_map.rs:394", "src/cycle_map.rs:478", "src/cycle_map.rs:545", "src/cycle_map.rs:575", "src/partial_cycle_map.rs:200", "src/partial_cycle_map.rs:247", "src/partial_cycle_map.rs:705", "src/partial_cycle_map.rs:763", "src/partial_cycle_map.rs:823", "src/partial_cycle_map.rs:978", "src/partial_cycle_map.rs:1230", "src/partial_cycle_map.rs:1277"]}
{"id": "C141", "title": "The order of items that do not clash does not matter; a map can be rebuilt from its iteration", "statement": "Extending a CycleMap or PartialCycleMap with elements of which no two share an item gives, in whatever order they come, these elements and the old ones sharing no item with them. Collecting what iter yields (PartialCycleMap: iter_paired and iter_unpaired), in any order and with any hash function, gives a map with the same contents; for CycleMap it is == to the original.", "quantifier": "every reachable map, every sequence of elements that do not clash, every permutation of it, every pair of hash functions and lawful hash-table layout", "why_tests_cant": "the iteration order depends on the hasher and the layout of the tables; a test sees one order, the claim is about all permutations and all hashers", "anchors": ["src/cycle_map.rs:1165", "src/cycle_map.rs:1177", "src/cycle_map.rs:730", "src/partial_cycle_map.rs:1946", "src/partial_cycle_map.rs:1981", "src/partial_cycle_map.rs:1267", "src/partial_cycle_map.rs:1294", "src/group_map.rs:1257", "src/group_map.rs:1287", "src/group_map.rs:864"]}
{"id": "C142", "title": "PartialCycleMap keeps its two sides together whatever == is, with four exceptions", "statement": "As C139 for PartialCycleMap: the items' == need not be reflexive, symmetric or transitive, as long as items that are == have the same hash. For every history of calls, no call panics, except the retain family if an item it visits is not equal to itself and swap_left_or_insert / swap_right_or_insert if the new item has a match (C49); every lookup, insert, removal, swap, pairing and unpairing does what its documentation says for one of the entries that match, and whole entries are dropped; afterwards both sides still belong together. Left out are the calls that can tear a pair: unpair with crosswise colliding hashes (C41), drain_filter with a closure that accepts a paired right item (C54), retain_paired and retain_unpaired where an item visited matches another entry. That the last two do tear a pair with an == that is not transitive, after which iter_paired panics, is shown by witnesses; with an equivalence they cannot.", "quantifier": "all relations ==, all hash functions that respect them, all histories of covered calls, all closures with state, every table that keeps to the contract of hashbrown", "why_tests_cant": "tests use well-behaved keys; which calls can split a pair under an unlawful == is a statement about all relations and all histories", "anchors": ["src/partial_cycle_map.rs:31-43", "src/partial_cycle_map.rs:162-813", "src/partial_cycle_map.rs:1434-1557", "src/partial_cycle_map.rs:2014-2330"]}
{"id": "C143", "title": "GroupMap keeps every left item with one right item whatever == is", "statement": "As C139 and C142 for GroupMap: the items' == need not be reflexive, symmetric or transitive, as long as items that are == have the same hash. For every history of calls, no call panics, except retain_unpaired if nothing matches an item the closure accepts; every lookup, insert, removal and pairing does what its documentation says for one of the items that match; and afterwards every left item belongs to exactly one right item and all iterators, counts and lookups agree on which. Left out are the calls that corrupt a map even if == is an equivalence (C62, C66, C67, C74), and pair where several right items match. retain_unpaired is covered and never corrupts the map, but with an == that is not transitive it may drop another right item than the one the closure accepted, together with all its left items, which a witness shows; with an equivalence it drops just the accepted ones.", "quantifier": "all relations ==, all hash functions that respect them, all histories of covered calls, all closures with state, every table that keeps to the contract of hashbrown", "why_tests_cant": "tests use well-behaved keys; what can be lost or corrupted under an unlawful == is a statement about all relations and all histories", "anchors": ["src/group_map.rs:231-769", "src/group_map.rs:886-1021", "src/group_map.rs:1024-1063", "src/group_map.rs:1300-1480"]}
{"id": "C144", "title": "The conditions under which the calls do what is documented are exact", "statement": "Where a call does what is documented only under a condition, it does so if and only if the condition holds, for every reachable map and all arguments. CycleMap: swap_left and swap_right of an absent item leave the map alone iff the new item is absent, too; swap_left_or_insert hands back all right items it displaces iff the new left item is absent; swap_right_or_insert inserts iff the left item is absent; a map of which a drain was dropped or forgotten after n items is intact iff it had at most n pairs. PartialCycleMap: the swaps and swap_..._or_insert likewise; unpair of two items that are not partners leaves an intact map iff their hashes do not agree crosswise with those of the partners, and then changes nothing; iter yields every entry iff there is no lone right item; n items taken from drain are entries of the map, or all of them, iff there is at most one lone right item or n is at most the number of left items plus one; drain_filter leaves an intact map iff the closure accepts SomeRight(r) for no right item r of a pair it rejects, and then does what it should; retain keeps what the closure accepts iff there are only accepted lone right items, retain_paired iff there is no pair, retain_unpaired iff there are only pairs; the size hints are right iff certain kinds of entries are missing. GroupMap: insert leaves an intact map iff the two items were not paired with each other; swap_right does what it should iff the old item has no left items and the new one is absent; swap_right_remove of a present item, with a new item that is absent or equal to it, leaves an intact map iff the old item has no left items; retain_paired leaves an intact map iff the closure accepts nothing and keeps what it accepts iff there is no pair; retain_unpaired keeps what the closure accepts iff there is no lone right item; size_hint of iter is right iff no right item has two left items, that of iter_unpaired iff there is no pair.", "quantifier": "all reachable maps, all arguments, all closures without side effects, all numbers of items taken, all hash functions, every table that keeps to the contract of hashbrown", "why_tests_cant": "that a bug shows in every situation outside a condition, and in none inside, is a statement about all maps and arguments in both directions", "anchors": ["src/cycle_map.rs:350-470", "src/cycle_map.rs:500-640", "src/cycle_map.rs:796-830", "src/partial_cycle_map.rs:550-590", "src/partial_cycle_map.rs:842-1130", "src/partial_cycle_map.rs:1248-1560", "src/partial_cycle_map.rs:2110-2260", "src/group_map.rs:231-330", "src/group_map.rs:472-560", "src/group_map.rs:972-1021", "src/group_map.rs:1379-1530"]}
{"id": "C145", "title": "Calls neither see nor touch items they have nothing to do with", "statement": "Take a map and a larger one that holds the same entries and further ones, and a history of calls that are about single items (insert, remove, swap, pair, unpair, get, contains, extend, the checked and or-insert variants, the capacity calls) none of which is given an item of the further entries. The history returns the same for both maps, call by call, or panics for both with the same panic, and what is left of the larger map is what is left of the smaller one and the further entries, unchanged; the two maps may have different hash functions. Two histories of which each is given no item of the other one, and no item of the entries the other one is about, return the same, call by call, whichever comes first, and leave the same entries. For PartialCycleMap unpair must not meet a hash collision (C41); for GroupMap the calls that break a map (C62, C66, C67) are left out, and groups are compared up to order.", "quantifier": "all pairs of reachable maps, all sets of further entries, all histories of such calls of any length, all hash functions, every table that keeps to the contract of hashbrown", "why_tests_cant": "independence of everything else in the map is a statement about pairs of runs in all contexts; hashes of unrelated items that collide, or ids of unrelated items, must not matter", "anchors": ["src/cycle_map.rs:128-640", "src/partial_cycle_map.rs:250-1240", "src/group_map.rs:180-720"]}
{"id": "C146", "title": "The maps look at their items only through ==", "statement": "Take two maps of the same kind, possibly with different types of items, hash functions and tables, whose contents correspond under two relations, one between the left items and one between the right items, that preserve and reflect ==. Every history run on the first, and the same history with corresponding items (and closures that answer alike on corresponding items) on the second, run through on both, return corresponding results call by call (the order of visits aside) and leave corresponding contents. So renaming the items renames the results; parts of an item that == ignores have no influence on what a map does; and a clone behaves like the original, up to ==, for every Clone that returns an equal item. Included is that safety of a history carries over. For PartialCycleMap the second hash function must not have more collisions among corresponding items than the first (unpair, C41), and drain and drain_filter are dropped at once.", "quantifier": "all types of items with a lawful ==, all relations between them that preserve and reflect ==, all pairs of reachable maps with corresponding contents, all pairs of corresponding safe histories of any length, all hash functions, every table that keeps to the contract of hashbrown", "why_tests_cant": "a statement about pairs of runs, over all types and all relations between them", "anchors": ["src/cycle_map.rs:128-1010", "src/partial_cycle_map.rs:250-1400", "src/group_map.rs:180-900", "src/cycle_map.rs:Clone for CycleMap"]}
{"id": "C147", "title": "Left and right are interchangeable", "statement": "CycleMap and PartialCycleMap treat their two sides alike: a history of calls on a map and the history with left and right exchanged on a map with the pairs turned round return results that are mirror images of each other, and leave mirrored contents; with different hash functions and tables, too. The exceptions are exactly: insert of a pair that is there (handed back as the left one from both sides), for CycleMap swap_left_or_insert and swap_right_or_insert when they insert and an item is in the way, and for PartialCycleMap iter and retain when there are lone items they treat differently.", "quantifier": "all reachable maps and mirrored maps, all histories, all items, all hash functions, all tables", "why_tests_cant": "each left function has a twin written out separately; that no input tells them apart takes all maps, items and histories", "anchors": ["src/cycle_map.rs:155-623", "src/partial_cycle_map.rs:162-1119", "src/partial_cycle_map.rs:1434-1557"]}
{"id": "C148", "title": "The repaired maps do what is documented, whatever is called", "statement": "Replace the calls of CycleMap, PartialCycleMap and GroupMap that do not do what is documented by the repaired ones of C133, C134 and C135. Then every history of calls from a new map goes through without a panic and does what the documentation says, call by call: the results are the documented ones and the map at the end holds the documented contents, and can be used further. The results do not depend on the hash values or the table (visited items up to order). None of the conditions under which the maps of the crate work is left, except that Clone of an item gives an equal item.", "quantifier": "all histories of calls of any length, all items and closures (also with state), all capacities, all hash functions, every table that keeps to the contract of hashbrown", "why_tests_cant": "that the repairs work together, in every order and with every collision of hashes, is a statement about all histories", "anchors": ["src/cycle_map.rs:128-1010", "src/partial_cycle_map.rs:142-1922", "src/group_map.rs:124-1304"]}
{"id": "C149", "title": "Calls that do several things at once agree with the calls they are made of", "statement": "On every reachable map, a compound call and the series of simpler calls it stands for both run, return the same (the compound call returns together what the others return), and leave maps that every observer describes alike, down to which of several equal items is stored. CycleMap: insert is remove_via_left, remove_via_right and an insertion that pushes nothing out; swap_left/swap_right of an item that is there are two removals and such an insertion; remove of a pair is the removal via either item; retain is drain_filter with the opposite predicate run to its end; two retains are one with the conjunction; drain to its end is iter and clear; two swaps to absent items are one. PartialCycleMap: insert is insert_left, insert_right and pair; remove_via_* is remove_* of the item and of its partner; remove of a pair is unpair, remove_left and remove_right; pair_forced is unpair from the old partners and pair; pair_forced_remove is pair_forced and the removal of what it returned; swap_* as above; retain is retain_paired and retain_unpaired. GroupMap: insert of a new pair is insert_right if needed and then pair or insert_left; pair is remove_left and insert_left; insert_right is remove_right and an insertion that pushes nothing out; insert_remove is remove_left, remove_right, insert_right, insert_left; remove_right is remove_left of the members and the removal of a lone right item. For all maps, extend by a concatenation is extend by one part after the other, and the variants of Extend agree, to the very same map.", "quantifier": "all reachable maps, all items, predicates and sequences, all hash functions, every table that keeps to the contract of hashbrown", "why_tests_cant": "the two ways go through different code and lay out the tables differently; that they agree for all contents, items and collisions is a statement about all states", "anchors": ["src/cycle_map.rs:155-610", "src/cycle_map.rs:796-885", "src/cycle_map.rs:1165", "src/partial_cycle_map.rs:162-560", "src/partial_cycle_map.rs:671-1100", "src/partial_cycle_map.rs:1434-1545", "src/partial_cycle_map.rs:1932-1946", "src/group_map.rs:231-450", "src/group_map.rs:562-600", "src/group_map.rs:706-770", "src/group_map.rs:1257-1275"]}
{"id": "C150", "title": "Where the crate does what is documented, and nowhere else", "statement": "For each of the three maps there is an explicit list of situations, in terms of the contents of the map and the arguments of the call (and for PartialCycleMap::unpair of collisions of hashes): all calls without condition except insert, extend and the swaps of GroupMap, the swaps, unpair, iter, drain and drain_filter of PartialCycleMap, the swaps and drain of CycleMap, and the retain families. A call on a map the API has produced does what is documented (returns it, and leaves a map that every observer describes by the documented contents) if and only if the situation is on the list. For extend and from_iter of GroupMap the condition is that every left item that is inserted with the right item it is already paired with moves later in the same sequence to another right item that is stored, before its own is replaced. A history of calls that stays on the list never panics and does what is documented from beginning to end; the repaired maps of C148 give the same results on it.", "quantifier": "all reachable maps, all calls and arguments, all histories that stay on the list, all hash functions, every table that keeps to the contract of hashbrown", "why_tests_cant": "that nothing else goes wrong, and that everything off the list does go wrong whatever the contents, is a statement about all states; tests find only instances", "anchors": ["src/cycle_map.rs:128-1010", "src/partial_cycle_map.rs:142-1922", "src/group_map.rs:124-1304"]}
{"id": "C151", "title": "Which calls visit in the same order", "statement": "The order in which a hash map is visited is arbitrary, but calls agree on it. CycleMap: iter_left, drain, retain, drain_filter and serialization visit the pairs in the order of iter. PartialCycleMap: iter_left, iter_paired, retain and retain_paired visit in the order of iter, as do drain and drain_filter until they come to right items; iter_unpaired and retain_unpaired visit first the lone left items in the order of iter, then the lone right items in the order of iter_right. GroupMap: iter_left and retain_paired follow iter_paired, iter_unpaired and retain_unpaired follow iter_right, and iter takes the right items in the order of iter_right and the left items of each in the order of get_left_iter. The iterators of a clone visit the clones in the order of the originals. iter_right of CycleMap need not follow the order of iter (witness).", "quantifier": "all reachable maps, all closures with state, wherever a drain is dropped, all hash functions, every table that keeps to the contract of hashbrown", "why_tests_cant": "the order depends on the hash function and the layout of the table; a test sees one layout, and mostly one in which several orders coincide", "anchors": ["src/cycle_map.rs:710-900", "src/partial_cycle_map.rs:1230-1557", "src/group_map.rs:860-1021"]}
{"id": "C152", "title": "A CycleMap that survives panics of Hash and Eq", "statement": "C106 is false of the crate. With two changes it holds: every entry stores its own hash and the tables use it when they move elements (so growing runs no code of the items), and swap_left and swap_right take the old entry out before they write to its partner. A call of the changed map that is not interrupted returns, changes and panics exactly as the crate's call. Whatever panics (Hash, Eq, a closure, the crate's own unreachable! in swap_right_or_insert), however often, if the panics are caught and the map is used further, it stays a one-to-one map on which every call works. An interrupted call leaves the pairs the map had, except pairs of items that were to be put in, or pairs drain_filter had already taken out; the one panic of the crate itself comes after the pair has been inserted.", "quantifier": "all maps produced by histories of calls with caught panics, all calls and closures with state, all places where a panic may occur, all hash functions, every table that keeps to the contract of hashbrown", "why_tests_cant": "a test panics at one chosen place in one state; the claim is about every place in every history, including several panics in a row", "anchors": ["src/cycle_map.rs:155-183", "src/cycle_map.rs:350-541"]}
{"id": "C153", "title": "A GroupMap that survives panics of Hash and Eq", "statement": "C109 is false of the crate. On top of the repairs of C148 these changes make it hold: every item stores its own hash, which the tables use when they move elements; remove_right takes all left items out before it puts them into the set it returns; insert_left looks the left item up before it changes the group; swap_right and swap_right_remove hash the new item before they change anything; pair looks the right item up once. A call of the changed map that is not interrupted returns and changes what the call of C148 does, that is what is documented. Whatever panics (Hash, Eq, a closure), however often, if the panics are caught and the map is used further, it stays a many-to-one map on which every call does what is documented; the crate itself never panics on it. An interrupted call leaves what the map held, except what the call had completely removed (a left item, or a right item together with its left items).", "quantifier": "all maps produced by histories of calls with caught panics, all calls and closures with state, all places where a panic may occur, all hash functions, every table that keeps to the contract of hashbrown", "why_tests_cant": "a test panics at one chosen place in one state; the claim is about every place in every history, including several panics in a row", "anchors": ["src/group_map.rs:231-591", "src/group_map.rs:687-751", "src/group_map.rs:972-1021", "src/group_map.rs:1250-1280"]}
{"id": "C154", "title": "A PartialCycleMap that survives panics of Hash and Eq", "statement": "C111 is false of the crate. On top of the repairs of C148 two changes make it hold: every item stores its own hash, which the tables use when they move elements (so growing runs no code of the items), and swap_left and swap_right take the old item out by the bucket they have found instead of looking it up again after its partner has been changed. A call of the changed map that is not interrupted returns and changes what the call of C148 does, that is what is documented. Whatever panics (Hash, Eq, a closure of one of the retain calls), however often, if the panics are caught and the map is used further, it stays a one-to-one map on which every call does what is documented; the crate itself never panics on it. An interrupted call leaves the entries the map had, except entries of items that were to be put in (both items of the entry are gone) and, for retain, the pairs that its closure had rejected.", "quantifier": "all maps produced by histories of calls with caught panics, all calls and closures with state, all places where a panic may occur, all hash functions, every table that keeps to the contract of hashbrown", "why_tests_cant": "a test panics at one chosen place in one state; the claim is about every place in every history, including several panics in a row", "anchors": ["src/partial_cycle_map.rs:162-285", "src/partial_cycle_map.rs:842-1131", "src/partial_cycle_map.rs:1434-1557"]}
{"id": "C155", "title": "The repaired drain_filter of PartialCycleMap with closures that panic", "statement": "With the check of C134 at the start of its second loop, drain_filter asks a closure about every entry as it is and at most once, also if the closure panics: about all entries, unless it panics a second time, or panics after as many items have been taken as the caller wants. Exactly the accepted entries are gone; rejected entries, entries the closure panicked at and entries it was not asked about are all there, and no pair is torn apart. The items handed out are the first accepted ones. The call returns, panics or aborts the process as the closure panicked 0, 1 or 2 times, and the crate's own code does not panic. Whatever history of repaired calls with caught panics (C154, now with such calls of drain_filter) led to a map, it does what is documented.", "quantifier": "all maps produced by histories of repaired calls with caught panics, all closures with state and all places where they panic, all numbers of items taken, all hash functions, every table that keeps to the contract of hashbrown", "why_tests_cant": "the claim is about every closure and every place of its panics in every map; a test shows one of them", "anchors": ["src/partial_cycle_map.rs:1401-1418", "src/partial_cycle_map.rs:2365-2378", "src/partial_cycle_map.rs:2411-2447"]}
