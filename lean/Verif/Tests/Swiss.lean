import Verif.Tests.CycleMap
import Verif.Tests.PartialMap
import Verif.Tests.GroupMap
import Verif.Tests.Docs
import Verif.Swiss.Table
/-
The crate's tests and documentation examples on the concrete table, with groups of 16 slots (as on x86-64) and with
groups of 2 slots (so that also small tables have long probe sequences and tombstones).
-/
namespace Verif.Tests

#guard (@Cycle.all (swissRaw 4) true true).isOk
#guard (@Cycle.all (swissRaw 1) true true).isOk
#guard (@Cycle.all (swissRaw 1) true false).isOk
#guard (@Partial.all (swissRaw 4) true true).isOk
#guard (@Partial.all (swissRaw 1) false true).isOk
#guard (@Partial.all (swissRaw 1) false false).isOk
-- The assertions of `partial_cycle_map_tests.rs:652-653` (`drain_filter` keeps the capacities) do not hold on every
-- table: a tombstone left by a removal counts against `capacity`.
#guard !(@Partial.all (swissRaw 1) true true).isOk
#guard (@Group.all (swissRaw 4) true true).isOk
#guard (@Group.all (swissRaw 1) true true).isOk
#guard (@Group.all (swissRaw 1) true false).isOk
#guard (@Docs.all (swissRaw 4) true true).isOk
#guard (@Docs.all (swissRaw 1) true true).isOk
#guard (@Docs.all (swissRaw 1) true false).isOk

end Verif.Tests
