import Verif.Tests.Basic
import Verif.CycleMap.Serde
/-
`/repo/tests/cycle_map_tests.rs` and the test in `/repo/src/serde.rs`, run on the model.  Line numbers are those of the
test file.  `caps` says whether the assertions about capacities are checked (the table `messyRaw` has no room at
all).  Printing (`println!`, `fmt_tests`) is left out.
-/
namespace Verif.Tests.Cycle
open OptionalPair

variable [RawImpl] (caps : Bool) (b : Bool)

abbrev M := CycleMap String TestingStruct
abbrev fv := TestingStruct.fromValue

/-- `construct_default_map`, lines 14-18 -/
def constructDefaultMap : T M :=
  call 14 (CycleMap.fromIter (hasherOf _ _ b) ((List.range 10).map fun i => (toString i, fv i)))

/-- lines 20-32 -/
def construction_test : T Unit := do
  let map : M := CycleMap.withHasher (hasherOf _ _ b)
  check 23 (map.len == 0)
  if caps then check 24 (map.capacity == 0)
  let mut map ← constructDefaultMap b
  check 26 (map.len == 10)
  let cap := map.capacity
  map := map.clear
  check 29 map.isEmpty
  check 30 (map.len == 0)
  if caps then check 31 (map.capacity == cap)

/-- lines 34-47 -/
def insert_test : T Unit := do
  let mut map : CycleMap Nat String := CycleMap.withCapacityAndHasher 100 (hasherOf _ _ b)
  for i in List.range 100 do
    let (opt, m) ← call 38 (map.insert i (toString i))
    map := m
    check 39 (opt.beq neither)
  check 41 (map.len == 100)
  for (val, s) in (← call 42 map.iterList) do
    check 43 (toString val == s)
    check 44 (s.toNat? == some val)

/-- lines 49-62 -/
def get_tests : T Unit := do
  let map ← constructDefaultMap b
  check 52 (map.containsLeft "0")
  check 53 (map.containsRight (fv 0))
  check 55 (map.getLeft (fv 42)).isNone
  check 57 (map.getLeft (fv 0) == some "0")
  check 59 (map.getRight "42").isNone
  check 61 (map.getRight "0" == some (fv 0))

/-- lines 64-85 -/
def remove_tests : T Unit := do
  let map ← constructDefaultMap b
  let (opt, map) ← call 68 (map.remove "42" (fv 42))
  check 69 opt.isNone
  let (opt, _) ← call 70 (map.remove "0" (fv 0))
  check 71 (opt == some ("0", fv 0))
  let map ← constructDefaultMap b
  let (opt, map) ← call 74 (map.removeViaRight (fv 42))
  check 75 opt.isNone
  let (opt, _) ← call 76 (map.removeViaRight (fv 0))
  check 77 (opt == some ("0", fv 0))
  let map ← constructDefaultMap b
  let (opt, map) ← call 80 (map.removeViaLeft "42")
  check 81 opt.isNone
  let (opt, _) ← call 82 (map.removeViaLeft "0")
  check 83 (opt == some ("0", fv 0))

/-- lines 86-111 -/
def swap_left_not_found_test : T Unit := do
  let map ← constructDefaultMap b
  let (opt, _) ← call 90 (map.swapLeft "101" "102")
  check 91 opt.isNone
  let map ← constructDefaultMap b
  let (opt, map) ← call 94 (map.swapLeft "0" "101")
  check 95 (opt.beq (someLeft "0"))
  check 97 (map.getRight "101" == some (fv 0))
  let map ← constructDefaultMap b
  let (opt, map) ← call 100 (map.swapLeft "0" "1")
  check 101 (opt.beq (someBoth "0" ("1", fv 1)))
  check 109 (map.getRight "1" == some (fv 0))

/-- lines 112-128 -/
def swap_left_checked_test : T Unit := do
  let map ← constructDefaultMap b
  let (opt, map) ← call 115 (map.swapLeftChecked "0" (fv 1) "2")
  check 120 (opt.beq neither)
  let (opt, _) ← call 121 (map.swapLeftChecked "0" (fv 0) "101")
  check 126 (opt.beq (someLeft "0"))

/-- lines 129-147 -/
def swap_left_or_insert_tests : T Unit := do
  let map ← constructDefaultMap b
  let (opt, _) ← call 132 (map.swapLeftOrInsert "0" "101" (fv 0))
  check 137 (opt.beq (someLeft "0"))
  let map ← constructDefaultMap b
  let (opt, _) ← call 140 (map.swapLeftOrInsert "101" "102" (fv 102))
  check 145 (opt.beq neither)

/-- lines 148-179 -/
def swap_right_not_found_test : T Unit := do
  let map ← constructDefaultMap b
  let (opt, _) ← call 152 (map.swapRight (fv 101) (fv 102))
  check 156 opt.isNone
  let map ← constructDefaultMap b
  let (opt, map) ← call 159 (map.swapRight (fv 0) (fv 101))
  check 163 (opt.beq (someLeft (fv 0)))
  check 165 (map.getLeft (fv 101) == some "0")
  let map ← constructDefaultMap b
  let (opt, map) ← call 168 (map.swapRight (fv 0) (fv 1))
  check 169 (opt.beq (someBoth (fv 0) ("1", fv 1)))
  check 177 (map.getLeft (fv 1) == some "0")

/-- lines 180-196 -/
def swap_right_checked_test : T Unit := do
  let map ← constructDefaultMap b
  let (opt, map) ← call 183 (map.swapRightChecked (fv 1) "0" (fv 2))
  check 188 (opt.beq neither)
  let (opt, _) ← call 189 (map.swapRightChecked (fv 0) "0" (fv 101))
  check 194 (opt.beq (someLeft (fv 0)))

/-- lines 197-214 -/
def swap_right_or_insert_tests : T Unit := do
  let map ← constructDefaultMap b
  let (opt, _) ← call 200 (map.swapRightOrInsert (fv 0) (fv 101) "0")
  check 205 (opt.beq (someLeft (fv 0)))
  let map ← constructDefaultMap b
  let (opt, _) ← call 207 (map.swapRightOrInsert (fv 101) (fv 102) "102")
  check 212 (opt.beq neither)

/-- lines 215-230 -/
def retain_test : T Unit := do
  let mut map : CycleMap Nat String := CycleMap.withCapacityAndHasher 100 (hasherOf _ _ b)
  for i in List.range 100 do
    let (opt, m) ← call 219 (map.insert i (toString i))
    map := m
    check 220 (opt.beq neither)
  check 222 (map.len == 100)
  let (_, m) ← call 223 (map.retain (fun (_ : Unit) x _ => (x % 2 == 0, ())) ())
  check 224 (m.len == 50)
  for (val, _) in (← call 225 m.iterList) do
    check 226 (val % 2 == 0)

/-- lines 231-269 -/
def iter_tests : T Unit := do
  let map ← constructDefaultMap b
  check 237 (map.iter.len == 10)
  let items ← call 239 map.iterList
  let again : M ← call 240 (CycleMap.fromIter (hasherOf _ _ b) items)
  check 239 (← call 239 (again.eq map))
  check 248 (map.iterLeft.length == 10)
  check 250 (sameSet map.iterLeft ((List.range 10).map toString))
  check 258 (map.iterRight.length == 10)
  check 260 (sameSet map.iterRight ((List.range 10).map fv))

/-- lines 270-287 -/
def drain_tests : T Unit := do
  let pairs := (List.range 100).map fun i => (i, toString i)
  let map : CycleMap Nat String ← call 272 (CycleMap.fromIter (hasherOf _ _ b) pairs)
  let cap := map.capacity
  let (out, map) ← call 274 (map.drainTake 101)
  let other : CycleMap Nat String ← call 274 (CycleMap.fromIter (hasherOf _ _ b) out)
  check 275 (map.len == 0)
  if caps then check 276 (map.capacity == cap)
  check 277 (other.len == 100)
  let map : CycleMap Nat String ← call 278 (CycleMap.fromIter (hasherOf _ _ b) pairs)
  let (out, _, map) ← call 279 (map.drainFilterTake (fun (_ : Unit) l _ => (l % 2 == 0, ())) () 101)
  let other : CycleMap Nat String ← call 279 (CycleMap.fromIter (hasherOf _ _ b) out)
  check 280 (map.len == 50)
  check 281 (other.len == 50)
  for (l, _) in (← call 282 other.iterList) do
    check 283 (l % 2 == 0)

/-- lines 288-294 -/
def eq_test : T Unit := do
  let map ← constructDefaultMap b
  let other ← constructDefaultMap b
  check 291 (← call 291 ((map.clone id id).eq other))
  check 292 (← call 292 (map.eq other))

/-- lines 295-324 (line 322, an upper bound on what shrinking leaves, is beyond the contract of the table) -/
def shrink_tests : T Unit := do
  let mut map : CycleMap Nat Nat := CycleMap.withCapacityAndHasher 100 (hasherOf _ _ b)
  let cap := map.capacity
  map := (← call 299 (map.insert 1 2)).2
  map := (← call 300 (map.insert 3 4)).2
  check 301 (map.capacity == cap)
  map := map.shrinkTo 10
  check 303 (map.capacity ≥ 10)
  check 304 (map.capacity ≤ cap)
  map := map.shrinkTo 0
  check 306 (map.capacity ≥ 2)
  check 307 (map.capacity ≤ cap)
  map := map.shrinkTo 10
  check 309 (map.capacity ≥ 2)
  check 310 (map.capacity ≤ cap)
  map := CycleMap.withCapacityAndHasher 100 (hasherOf _ _ b)
  map := (← call 313 (map.insert 1 2)).2
  map := (← call 314 (map.insert 3 4)).2
  map := map.shrinkToFit
  check 319 (map.capacity ≥ 2)

/-- lines 325-341 -/
def reserve_tests : T Unit := do
  let map : CycleMap String Nat := CycleMap.withHasher (hasherOf _ _ b)
  check 329 (map.capacity == 0)
  check 331 ((map.reserve 10).capacity != 0)
  let (res, map) := map.tryReserve 10 true true
  check 338 res
  check 339 (map.capacity != 0)

/-- lines 348-353 -/
def misc_tests : T Unit := do
  let map ← constructDefaultMap b
  check 352 (!map.arePaired "0" (fv 1))

/-- `/repo/src/serde.rs:108-118`: through the sequence of entries and back -/
def serialize_deserialize_test : T Unit := do
  let map ← constructDefaultMap b
  let (n, xs) ← call 111 map.serialize
  match ← call 115 (CycleMap.visitSeq (E := Unit) (hasherOf String TestingStruct b) (some n) (xs.map .ok)) with
  | .ok map' => check 117 (← call 117 (map.eq map'))
  | .error _ => throw "deserialize"

def all : T Unit := do
  construction_test caps b; insert_test b; get_tests b; remove_tests b
  swap_left_not_found_test b; swap_left_checked_test b; swap_left_or_insert_tests b
  swap_right_not_found_test b; swap_right_checked_test b; swap_right_or_insert_tests b
  retain_test b; iter_tests b; drain_tests caps b; eq_test b
  if caps then do shrink_tests b; reserve_tests b
  misc_tests b; serialize_deserialize_test b

#guard (@all tidyRaw true true).isOk
#guard (@all tidyRaw true false).isOk
#guard (@all messyRaw false true).isOk
#guard (@all messyRaw false false).isOk
#guard (@all patchyRaw false true).isOk
#guard (@all patchyRaw false false).isOk

end Verif.Tests.Cycle
