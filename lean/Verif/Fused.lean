import Verif.CycleMap.Buckets
import Verif.PartialMap.Buckets
import Verif.GroupMap.Model
/-
The iterators of the crate under repeated calls of `next`, whatever they return: after `None`, and after a panic that was caught.
`step` of an iterator is its `next` together with the state it leaves, also where it panics.  A `RawIter`, `RawDrain` or `hash_set::Iter`
that is at its end stays there, and moves on before the code that may panic is run.
-/
namespace Verif

/-- what `n` calls of `next` return, one after the other -/
def results {α σ : Type} (step : σ → Res (Option α) × σ) : Nat → σ → List (Res (Option α))
  | 0, _ => []
  | n + 1, s => (step s).1 :: results step n (step s).2

/-- `next` with the state it leaves: `s` if it returns `None`, `p` if it panics -/
def stepOf {α σ : Type} (s p : σ) : Res (Option (α × σ)) → Res (Option α) × σ
  | .error e => (.error e, p)
  | .ok none => (.ok none, s)
  | .ok (some (x, s')) => (.ok (some x), s')

/-- `SingleIter::next`, `LeftIter::next`, `RightIter::next` — cycle_map.rs 1282-1290, partial_cycle_map.rs 2244-2252, group_map.rs 1566-1574, 1609-1617;
`value` reads the item of an entry -/
def singleStep {T E : Type} (value : E → T) : List E → Res (Option T) × List E
  | [] => (.ok none, [])
  | e :: rest => (.ok (some (value e)), rest)

variable [RawImpl] {L R : Type} [BEq L] [BEq R]

namespace CycleMap

/-- `Iter::next` — cycle_map.rs 1218-1227 -/
def Iter.step (m : CycleMap L R) (it : Iter L) : Res (Option (L × R)) × Iter L := stepOf it ⟨it.todo.tail⟩ (it.next m)

/-- `DrainIter::next` — cycle_map.rs 1321-1328 -/
def DrainIter.step (it : DrainIter L R) : Res (Option (L × R)) × DrainIter L R := stepOf it { it with todo := it.todo.tail } it.next

end CycleMap

namespace PartialMap

/-- `Iter::next` — partial_cycle_map.rs 2022-2031 -/
def Iter.step (m : PartialMap L R) (it : Iter L) : Res (Option (OptionalPair L R)) × Iter L := stepOf it it (.ok (it.next m))

/-- `PairedIter::next` — partial_cycle_map.rs 2093-2108: a panic is that of the `unwrap` in `get_via_hashes_and_id`, for the first paired entry -/
def PairedIter.step (m : PartialMap L R) (it : PairedIter L R) : Res (Option (L × R)) × PairedIter L R :=
  match PairedIter.next m it.todo with
  | .error e => (.error e, ⟨(it.todo.dropWhile (·.hash.isNone)).tail⟩)
  | .ok (o, rest) => (.ok o, ⟨rest⟩)

/-- `UnpairedIter::next` — partial_cycle_map.rs 2170-2188 -/
def UnpairedIter.step (it : UnpairedIter L R) : Res (Option (OptionalPair L R)) × UnpairedIter L R :=
  stepOf ⟨[], []⟩ it (.ok (UnpairedIter.next it.todoR it.todoL))

/-- `DrainIter::next` — partial_cycle_map.rs 2309-2329 -/
def DrainIter.step (it : DrainIter L R) : Res (Option (OptionalPair L R)) × DrainIter L R :=
  match it.next with
  | .error e => (.error e, { it with todo := it.todo.tail })
  | .ok (o, it') => (.ok o, it')

end PartialMap

namespace GroupMap

/-- `Iter::next` — group_map.rs 1342-1377: the panics are those of the `unwrap`s of the first part -/
def Iter.step (m : GroupMap L R) (it : Iter R) : Res (Option (Option L × R)) × Iter R :=
  stepOf it { it with cur := it.cur.map List.tail } (it.next m)

/-- `PairedIter::next` — group_map.rs 1437-1450 -/
def PairedIter.step (m : GroupMap L R) (it : PairedIter L) : Res (Option (L × R)) × PairedIter L := stepOf it ⟨it.todo.tail⟩ (it.next m)

/-- `UnpairedIter::next` — group_map.rs 1510-1517 -/
def UnpairedIter.step (it : UnpairedIter R) : Res (Option R) × UnpairedIter R := stepOf ⟨[]⟩ it (.ok (UnpairedIter.next it.todo))

/-- `PairIter::next` — group_map.rs 1661-1670 -/
def PairIter.step (m : GroupMap L R) (it : PairIter) : Res (Option L) × PairIter := stepOf it ⟨it.todo.tail⟩ (it.next m)

end GroupMap
end Verif
