import Verif.Tests.Basic
import Verif.GroupMap.Model
/-
`/repo/tests/group_map.rs`, run on the model.  Line numbers are those of the test file.  The tests of `insert` (a pair
that is already there is taken apart, line 60), of `retain_paired` (what the closure accepts is removed, line 213) and of
`retain_unpaired` record the behaviour that `C62_actual`, `C74_actual` and `C75_actual` prove.
-/
namespace Verif.Tests.Group

variable [RawImpl] (caps : Bool) (b : Bool)

abbrev M := GroupMap String TestingStruct
abbrev fv := TestingStruct.fromValue

/-- `construct_default_map`, lines 12-16 -/
def constructDefaultMap : T M :=
  call 13 (GroupMap.fromIter (hasherOf _ _ b) ((List.range 10).map fun i => (toString i, fv i)))

/-- lines 18-36 -/
def construction_test : T Unit := do
  let map : M := GroupMap.withHasher (hasherOf _ _ b)
  check 21 (map.lenLeft == 0)
  check 22 (map.lenRight == 0)
  if caps then check 23 (map.capacityLeft == 0 && map.capacityRight == 0)
  let mut map ← constructDefaultMap b
  check 26 (map.lenLeft == 10)
  check 27 (map.lenRight == 10)
  let lCap := map.capacityLeft
  let rCap := map.capacityRight
  map := map.clear
  check 31 map.isEmpty
  check 32 (map.lenLeft == 0)
  check 33 (map.lenRight == 0)
  if caps then check 34 (map.capacityLeft == lCap && map.capacityRight == rCap)

/-- the array of lines 40-42 -/
def vals : List String := ["zero", "one", "two", "three", "four", "five", "six", "seven", "eight", "nine"]

/-- lines 38-72 -/
def insert_tests : T Unit := do
  let mut map : GroupMap String Nat := GroupMap.withHasher (hasherOf _ _ b)
  for i in List.range 10 do
    map ← call 47 (map.insert (toString i) i)
    check 48 (map.arePaired (toString i) i)
  for i in List.range 10 do
    map ← call 53 (map.insert (vals.getD i "") i)
    check 54 (map.arePaired (toString i) i)
    check 55 (map.arePaired (vals.getD i "") i)
  for i in List.range 10 do
    map ← call 60 (map.insert (toString i) (10 * i))
    check 61 (!map.arePaired (toString i) i)
    check 62 (map.containsRight i)
  for i in (List.range 10).drop 1 do
    map ← call 67 (map.insert (toString i) i)
    check 68 (map.arePaired (toString i) i)
    check 69 (!map.arePaired (toString i) (10 * i))
    check 70 (map.containsRight (10 * i))

/-- lines 74-88 -/
def insert_remove_test : T Unit := do
  let mut map : GroupMap Nat String := GroupMap.withCapacityAndHasher 100 (hasherOf _ _ b)
  for i in List.range 100 do
    let (opt, m) ← call 78 (map.insertRemove i (toString i))
    map := m
    check 79 (opt.1.isNone && opt.2.isNone)
  check 81 (map.lenLeft == 100)
  check 82 (map.lenRight == 100)
  for (val, s) in (← call 83 map.iterPairedList) do
    check 84 (toString val == s)
    check 85 (s.toNat? == some val)

/-- lines 90-116 -/
def swap_right_remove_tests : T Unit := do
  let mut map ← constructDefaultMap b
  for i in (List.range 30).drop 20 do
    let (opt, m) ← call 96 (map.swapRightRemove (fv (i - 10)) (fv i))
    map := m
    check 100 opt.isNone
    check 101 (map.containsRight (fv i))
    check 102 (!map.isRightPaired (fv i))
  for i in (List.range 20).drop 10 do
    let (opt, m) ← call 107 (map.swapRightRemove (fv (i - 10)) (fv i))
    map := m
    check 111 (opt == some (fv (i - 10)))
    check 112 (map.arePaired (toString (i - 10)) (fv i))
    check 113 (!map.containsRight (fv (i - 10)))
    check 114 (!map.isRightPaired (fv (i - 10)))

/-- lines 118-142 -/
def swap_right_tests : T Unit := do
  let mut map ← constructDefaultMap b
  for i in (List.range 30).drop 20 do
    map ← call 124 (map.swapRight (fv (i - 10)) (fv i))
    check 128 (map.containsRight (fv i))
    check 129 (!map.isRightPaired (fv i))
  for i in (List.range 20).drop 10 do
    map ← call 134 (map.swapRight (fv (i - 10)) (fv i))
    check 138 (map.arePaired (toString (i - 10)) (fv i))
    check 139 (map.containsRight (fv (i - 10)))
    check 140 (!map.isRightPaired (fv (i - 10)))

/-- lines 144-158 -/
def get_tests : T Unit := do
  let map ← constructDefaultMap b
  check 147 (map.containsLeft "0")
  check 148 (map.containsRight (fv 0))
  check 150 (map.getLeftIter (fv 42)).isNone
  let opt := map.getLeftIter (fv 0)
  check 152 opt.isSome
  match opt with
  | none => throw "unwrap at line 153"
  | some it => check 153 ((← call 153 (it.next map)).map (·.1) == some "0")
  check 155 (map.getRight "42").isNone
  check 157 (map.getRight "0" == some (fv 0))

/-- lines 160-192 -/
def remove_tests : T Unit := do
  let map ← constructDefaultMap b
  let (opt, map) ← call 164 (map.remove "42" (fv 42))
  check 165 opt.isNone
  let (opt, _) ← call 166 (map.remove "0" (fv 0))
  check 167 (opt == some (["0"], fv 0))
  let map ← constructDefaultMap b
  let (opt, map) ← call 176 (map.removeRight (fv 42))
  check 177 opt.isNone
  let (opt, _) ← call 178 (map.removeRight (fv 0))
  check 179 (opt == some (["0"], fv 0))
  let map ← constructDefaultMap b
  let (opt, map) ← call 188 (map.removeLeft "42")
  check 189 opt.isNone
  let (opt, _) ← call 190 (map.removeLeft "0")
  check 191 (opt == some "0")

/-- lines 196-207 and 221-232 -/
def halfPaired : T (GroupMap Nat String) := do
  let mut map : GroupMap Nat String := GroupMap.withCapacityAndHasher 100 (hasherOf _ _ b)
  for i in List.range 100 do
    if i < 50 then
      let (opt, m) ← call 199 (map.insertRemove i (toString i))
      map := m
      check 200 (opt.1.isNone && opt.2.isNone)
    else
      let (opt, m) ← call 202 (map.insertRight (toString i))
      map := m
      check 203 opt.isNone
  check 206 (map.lenLeft == 50)
  check 207 (map.lenRight == 100)
  return map

/-- lines 194-217 -/
def retain_paired : T Unit := do
  let map ← halfPaired b
  let (_, map) ← call 208 (map.retainPaired (fun (_ : Unit) l _ => (l % 2 == 0, ())) ())
  check 209 (map.lenLeft == 25)
  check 210 (map.lenRight == 100)
  for op in (← call 211 map.iterList) do
    match op.1 with
    | some x => check 214 (x % 2 == 1)
    | none => pure ()

/-- lines 219-236 -/
def retain_unpaired : T Unit := do
  let map ← halfPaired b
  let (_, map) ← call 233 (map.retainUnpaired (fun (_ : Unit) s => ((s.toNat?.getD 0) % 2 == 0, ())) ())
  check 234 (map.lenLeft == 50)
  check 235 (map.lenRight == 75)

/-- lines 238-268 -/
def iter_tests : T Unit := do
  let map ← constructDefaultMap b
  check 244 ((← call 244 (map.iter.len map)) == 10)
  check 245 ((← call 245 (map.iter.clone.len map)) == 10)
  check 250 (map.iterLeft.length == 10)
  check 252 (sameSet map.iterLeft ((List.range 10).map toString))
  check 260 (map.iterRight.length == 10)
  check 262 (sameSet map.iterRight ((List.range 10).map fv))

/-- lines 299-301 and 316-319 -/
def unpairedMap : T M :=
  call 301 (GroupMap.fromIterOpt (hasherOf _ _ b) ((List.range 10).map fun i => (none, fv i)))

/-- lines 270-296 -/
def paired_iter_tests : T Unit := do
  let map ← constructDefaultMap b
  check 277 ((← call 277 (map.iterPaired.len map)) == 10)
  let again : M ← call 279 (GroupMap.fromIter (hasherOf _ _ b) (← call 279 map.iterPairedList))
  check 279 (← call 279 (again.eq map))
  let map ← unpairedMap b
  check 289 ((← call 289 (map.iterPaired.len map)) == 0)
  let again : M ← call 291 (GroupMap.fromIter (hasherOf _ _ b) (← call 291 map.iterPairedList))
  check 291 (← call 291 (again.eq (GroupMap.withHasher (hasherOf _ _ b))))

/-- lines 298-313 -/
def unpaired_iter_tests : T Unit := do
  let map ← unpairedMap b
  check 306 (map.iterUnpaired.len == 10)
  let map ← constructDefaultMap b
  check 311 (map.iterUnpaired.len == 0)

/-- lines 315-340 -/
def pairing_tests : T Unit := do
  let mut map ← unpairedMap b
  for i in List.range 5 do
    let (opt, m) ← call 321 (map.insertLeft (toString i) (fv i))
    map := m
    check 321 (opt == none)
  for i in List.range 5 do
    let (ok, m) ← call 327 (map.pair (toString i) (fv (i + 5)))
    map := m
    check 327 ok
    check 328 (map.arePaired (toString i) (fv (i + 5)))
    check 329 (!map.arePaired (toString i) (fv i))
  for i in List.range 10 do
    if i < 5 then
      check 333 (map.arePaired (toString i) (fv (i + 5)))
      check 334 (!map.arePaired (toString i) (fv i))
    else
      check 336 (!map.arePaired (toString i) (fv i))
      check 337 (map.arePaired (toString (i - 5)) (fv i))

/-- lines 342-353 -/
def misc_eq_tests : T Unit := do
  let map ← constructDefaultMap b
  check 345 (!map.arePaired "0" (fv 1))
  let other ← constructDefaultMap b
  check 351 (← call 351 ((map.clone id id).eq other))
  check 352 (← call 352 (map.eq other))

def all : T Unit := do
  construction_test caps b; insert_tests b; insert_remove_test b; swap_right_remove_tests b; swap_right_tests b
  get_tests b; remove_tests b; retain_paired b; retain_unpaired b; iter_tests b; paired_iter_tests b
  unpaired_iter_tests b; pairing_tests b; misc_eq_tests b

#guard (@all tidyRaw true true).isOk
#guard (@all tidyRaw true false).isOk
#guard (@all messyRaw false true).isOk
#guard (@all messyRaw false false).isOk
#guard (@all patchyRaw false true).isOk
#guard (@all patchyRaw false false).isOk

end Verif.Tests.Group
