import Verif.CycleMap.Model
/-
Model of `/repo/src/serde.rs` (`CycleMap` only; the other maps have no serde code).  The data format is
not modelled: a serializer receives a length and a sequence of elements, a deserializer supplies a
size hint and a sequence of elements, each of which may fail to decode with an error `E`.
-/
namespace Verif.CycleMap
variable [RawImpl] {L R : Type} [BEq L] [BEq R]

/-- `Serialize::serialize` — serde.rs:76-87: the announced length and the elements in order -/
def serialize (m : CycleMap L R) : Res (Nat × List (L × R)) := do
  return (m.len, ← m.iterList)

/-- a data format as `serialize` sees it (serde's `Serializer` and `SerializeSeq`): `start` is `serialize_seq`, `element` is
`serialize_element`, `finish` is `end`; each of them may fail -/
structure Sink (E O L R : Type) where
  State : Type
  start : Option Nat → Except E State
  element : State → L × R → Except E State
  finish : State → Except E O

/-- the loop `for pair in self.iter() { map.serialize_element(&pair)?; }` — serde.rs:82-84 -/
def serializeLoop {E O : Type} (m : CycleMap L R) (S : Sink E O L R) : List (MappingPair L) → S.State → Res (Except E S.State)
  | [], s => .ok (.ok s)
  | l :: rest, s => do
    match ← Iter.next ⟨l :: rest⟩ m with
    | none => return .ok s
    | some (p, _) =>
      match S.element s p with
      | .error e => return .error e
      | .ok s => serializeLoop m S rest s

/-- `Serialize::serialize` — serde.rs:76-87: into a format whose operations may fail -/
def serializeTo {E O : Type} (m : CycleMap L R) (S : Sink E O L R) : Res (Except E O) := do
  match S.start (some m.len) with
  | .error e => return .error e
  | .ok s =>
    match ← m.serializeLoop S m.iter.todo s with
    | .error e => return .error e
    | .ok s => return S.finish s

/-- the `while let Some(entry) = access.next_element()?` loop of `visit_seq` — serde.rs:48-52 -/
def visitLoop {E : Type} (m : CycleMap L R) : List (Except E (L × R)) → Res (Except E (CycleMap L R))
  | [] => .ok (.ok m)
  | .error e :: _ => .ok (.error e)
  | .ok (l, r) :: rest => do
    let (_, m) ← m.insert l r
    visitLoop m rest

/-- `visit_seq` — serde.rs:41-53, which `deserialize` — serde.rs:63-68 — hands to the format with a `CycleMapVisitor`
(`new`, `expecting` — serde.rs:23-40); `hb` is the default hash builder, `sizeHint` what the format announces -/
def visitSeq {E : Type} (hb : BuildHasher L R) (sizeHint : Option Nat) (xs : List (Except E (L × R))) :
    Res (Except E (CycleMap L R)) :=
  visitLoop (withCapacityAndHasher (sizeHint.getD 0) hb) xs

end Verif.CycleMap
