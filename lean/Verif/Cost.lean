import Verif.Unwind
import Verif.Memory
/-!
How often the items' own `Hash` and `Eq` run, counted over many calls.  `Verif.Unwind` has a place for every hash and
every probe of a call, and one for every element a growing table hashes again; here they are added up.

A call that makes a table grow hashes all its elements again, so the number of places of one call is not bounded.  It
is over many calls: a table only grows when it is full, and has then room for as many elements again.
-/
namespace Verif

/-- The contract of growing (only the cost properties rely on it): a table that had to move its elements for an
insertion then has room for as many as it moved. -/
class LawfulAmort [RawImpl] : Prop where
  insert : ∀ {T : Type} (t : RawTable T) (h : UInt64) (v : T) (hasher : T → UInt64),
    RawImpl.rehashes (.insert h) t = true → t.len ≤ RawImpl.growthLeft (t.insert h v hasher) + 1

namespace RawTable
variable [RawImpl] {T : Type}

/-- what the next growth may cost beyond what was saved up for it -/
def debt (t : RawTable T) : Nat := t.len - RawImpl.growthLeft t

theorem debt_le (t : RawTable T) : t.debt ≤ t.len := Nat.sub_le _ _

/-- `k` elements put in make the debt rise by at most `2 k` -/
@[reducible] def Meter.debt : Meter where
  rel k _ t t' := t'.debt ≤ t.debt + 2 * k ∧ t'.len ≤ t.len + k
  cost _ := 0

theorem insert_len [LawfulRaw] (t : RawTable T) (h : UInt64) (v : T) (hasher : T → UInt64) :
    (t.insert h v hasher).len = t.len + 1 := by
  rw [RawTable.insert, touch_len]
  have := rehash_len (.insert h) hasher t
  simp only [len] at this ⊢
  rw [List.length_cons, this]

theorem reserve_len [LawfulRaw] (t : RawTable T) (n : Nat) (hasher : T → UInt64) : (t.reserve n hasher).len = t.len := by
  rw [RawTable.reserve, touch_len, rehash_len]

theorem shrinkTo_len [LawfulRaw] (t : RawTable T) (n : Nat) (hasher : T → UInt64) : (t.shrinkTo n hasher).len = t.len := by
  rw [RawTable.shrinkTo, touch_len, rehash_len]

theorem clear_debt [LawfulRaw] (t : RawTable T) : t.clear.debt = 0 := by
  have : t.clear.len = 0 := by rw [len, clear_entries]; rfl
  rw [debt, this]; omega

instance [LawfulRaw] [LawfulCap] : Meter.debt.Lawful where
  refl _ _ := ⟨Nat.le_add_right _ _, Nat.le_add_right _ _⟩
  mono h hk := ⟨Nat.le_trans h.1 (by omega), Nat.le_trans h.2 (by omega)⟩
  trans h h' := ⟨Nat.le_trans h'.1 (by have := h.1; omega), Nat.le_trans h'.2 (by have := h.2; omega)⟩
  congr := fun {_ t t'} h h' => by
    have h1 := LawfulCap.congr t t' h h'
    have h2 : t'.len = t.len := by have := congrArg List.length h'; simpa [len] using this.symm
    constructor
    · show t'.debt ≤ t.debt + 0
      rw [debt, debt, h1, h2]; omega
    · show t'.len ≤ t.len + 0
      omega
  insert := fun {_} t h v hasher => by
    have h1 := LawfulCap.insert t h v hasher
    have h2 := insert_len t h v hasher
    refine ⟨?_, by omega⟩
    rw [debt, debt, h2]; omega
  erase := fun {_} t stays es hs => by
    have h1 := LawfulCap.erase t stays es hs
    have h2 : (RawImpl.touch (.erase stays) { t with entries := es }).len = es.length := touch_len _ _
    have h3 := hs.length_le
    simp only [len] at h2
    refine ⟨?_, ?_⟩
    · simp only [debt, len]; omega
    · simp only [len]; omega
  clear := fun {_} t => by
    have : t.clear.len = 0 := by rw [len, clear_entries]; rfl
    refine ⟨by rw [clear_debt]; omega, by omega⟩
  reserve := fun {_} t n hasher => by
    have h1 := LawfulCap.reserve_mono t n hasher
    have h2 := reserve_len t n hasher
    refine ⟨?_, by omega⟩
    rw [debt, debt, h2]; omega

theorem removeEntry_len [LawfulRaw] {t t' : RawTable T} {h p x} (e : t.removeEntry h p = some (x, t')) :
    t'.len + 1 = t.len := by
  simp only [removeEntry] at e
  split at e
  · cases e
  · rename_i i _
    cases hi : t.entries[i]? with
    | none => rw [hi] at e; cases e
    | some y =>
      rw [hi] at e
      simp only [Option.map_some, Option.some.injEq, Prod.mk.injEq] at e
      rw [← e.2, touch_len, len, len, List.length_eraseIdx]
      have := (List.getElem?_eq_some_iff.mp hi).1
      rw [if_pos this]
      omega

theorem removeEntry_debt [LawfulRaw] [LawfulCap] {t t' : RawTable T} {h p x} (e : t.removeEntry h p = some (x, t')) :
    t'.debt ≤ t.debt := (Room.removeEntry (G := Meter.debt) e).1

theorem getMut_debt [LawfulRaw] [LawfulCap] {t : RawTable T} {h p x w} (e : t.getMut h p = some (x, w)) (v : T) :
    (w v).debt ≤ t.debt := (Room.getMut (G := Meter.debt) e v).1

theorem clone_debt [LawfulRaw] [LawfulCap] (t : RawTable T) (c : T → T) : (t.clone c).debt ≤ t.debt :=
  (Room.clone (G := Meter.debt) c).1

end RawTable

/-! ### Bookkeeping -/

namespace Unw
variable {M α β : Type}

/-- `x` runs the items' code at no more than `c` places, plus those `Φ` has saved up for, which are then gone. -/
def Pays (Φ : M → Nat) (x : Unw M α) (m : M) (c : Nat) : Prop :=
  ∀ f, match x f m with
    | .done _ f' m' => f.fuse + Φ m' ≤ f'.fuse + Φ m + c
    | .panic none _ => f.fuse < Φ m + c
    | _ => True

variable {Φ : M → Nat} {m n : M} {c c' : Nat}

theorem Pays.mono {x : Unw M α} (h : Pays Φ x m c) (hc : c ≤ c') : Pays Φ x m c' := by
  intro f
  have h1 := h f
  cases e : x f m with
  | done a f' m' => rw [e] at h1; simp only at h1 ⊢; omega
  | panic w m' =>
    cases w with
    | none => rw [e] at h1; simp only at h1 ⊢; omega
    | some p => trivial
  | abort => trivial

theorem Pays.bind {x : Unw M α} {g : α → Unw M β} (h : Pays Φ x m c)
    (h' : ∀ a f f' m', x f m = .done a f' m' → Pays Φ (g a) m' c') : Pays Φ (x >>= g) m (c' + c) := by
  intro f
  have h1 := h f
  show match (match x f m with
    | .done a f' m' => g a f' m'
    | .panic why m' => Halt.panic why m'
    | .abort => .abort) with
    | .done _ f' m' => f.fuse + Φ m' ≤ f'.fuse + Φ m + (c' + c)
    | .panic none _ => f.fuse < Φ m + (c' + c)
    | _ => True
  cases e : x f m with
  | done a f' m' =>
    rw [e] at h1
    have h2 := h' a f f' m' e f'
    simp only at h1 ⊢
    cases e2 : g a f' m' with
    | done b f'' m'' => rw [e2] at h2; simp only at h2 ⊢; omega
    | panic w m'' =>
      cases w with
      | none => rw [e2] at h2; simp only at h2 ⊢; omega
      | some p => trivial
    | abort => trivial
  | panic w m' =>
    cases w with
    | none => rw [e] at h1; simp only at h1 ⊢; omega
    | some p => trivial
  | abort => trivial

theorem Pays.pure {a : α} : Pays Φ (Pure.pure a : Unw M α) m c := fun _ => Nat.le_add_right _ _

theorem Pays.fail {p : Panic} : Pays Φ (Unw.fail p : Unw M α) m c := fun _ => trivial

/-- the crate panics, whatever follows -/
theorem Pays.fail_bind {p : Panic} {g : β → Unw M α} : Pays Φ (Unw.fail p >>= g) m c := fun _ => trivial

theorem Pays.user : Pays Φ (Unw.user : Unw M Unit) m (c + 1) := by
  rintro ⟨k, s⟩
  cases k with
  | zero => show 0 < _; omega
  | succ k => show k + 1 + Φ m ≤ k + Φ m + (c + 1); omega

theorem Pays.user_bind {g : Unit → Unw M α} (h : Pays Φ (g ()) m c) : Pays Φ (Unw.user >>= g) m (c + 1) := by
  have := Pays.bind (x := Unw.user) (g := g) (Φ := Φ) (m := m) (c := 1) (c' := c) (Pays.user (c := 0)) ?_
  · exact this
  · rintro ⟨⟩ ⟨k, s⟩ f' m' e
    cases k with
    | zero => cases e
    | succ k => cases e; exact h

theorem Pays.get_bind {g : M → Unw M α} (h : Pays Φ (g m) m c) : Pays Φ (Unw.get >>= g) m c := fun f => h f

/-- `d` of what was saved up is spent -/
theorem Pays.set_save {d : Nat} {g : Unit → Unw M α} (hn : Φ n + d ≤ Φ m) (h : Pays Φ (g ()) n (c + d)) :
    Pays Φ (Unw.set n >>= g) m c := by
  intro f
  have h1 := h f
  show match g () f n with
    | .done _ f' m' => f.fuse + Φ m' ≤ f'.fuse + Φ m + c
    | .panic none _ => f.fuse < Φ m + c
    | _ => True
  cases e : g () f n with
  | done a f' m' => rw [e] at h1; simp only at h1 ⊢; omega
  | panic w m' =>
    cases w with
    | none => rw [e] at h1; simp only at h1 ⊢; omega
    | some p => trivial
  | abort => trivial

theorem Pays.set_bind {g : Unit → Unw M α} (hn : Φ n ≤ Φ m) (h : Pays Φ (g ()) n c) : Pays Φ (Unw.set n >>= g) m c :=
  .set_save (d := 0) hn h

theorem Pays.set (hn : Φ n ≤ Φ m) : Pays Φ (Unw.set n : Unw M Unit) m c := by
  intro f
  show f.fuse + Φ n ≤ f.fuse + Φ m + c
  omega

/-- only the value is looked at -/
theorem Pays.map {x : Unw M α} {g : α → β} (h : Pays Φ x m c) : Pays Φ (do return g (← x)) m c := by
  have := Pays.bind (g := fun a => (Pure.pure (g a) : Unw M β)) (c' := 0) h (fun _ _ _ _ _ => .pure)
  rwa [Nat.zero_add] at this

/-- two calls, one after the other -/
theorem Pays.seq {x : Unw M α} {g : α → Unw M β} {k : Nat} (h : Pays Φ x m c) (h' : ∀ a m', Pays Φ (g a) m' c') (hk : c + c' ≤ k) :
    Pays Φ (x >>= g) m k := (h.bind fun a _ _ m' _ => h' a m').mono (by omega)

/-- a call that runs no code of the items, and leaves what the main model says -/
theorem Pays.of_run {x : Unw M α} {r : Res (α × M)}
    (h : ∀ f, (x f m).agrees r ∧ (x f m).interrupted = false ∧ f.fuse ≤ (x f m).rest f.fuse + 0)
    (hΦ : ∀ a m', r = .ok (a, m') → Φ m' ≤ Φ m) : Pays Φ x m c := by
  intro f
  obtain ⟨h1, h2, h3⟩ := h f
  cases e : x f m with
  | done a f' m' =>
    rw [e] at h1 h3
    have := hΦ a m' h1
    simp only [Halt.rest] at h3 ⊢
    omega
  | panic w m' =>
    cases w with
    | none => rw [e] at h2; cases h2
    | some p => trivial
  | abort => trivial

/-- what `Pays` says of a call with enough to spend -/
theorem Pays.not_interrupted {x : Unw M α} (h : Pays Φ x m c) {f : Fate} (hf : Φ m + c ≤ f.fuse) : (x f m).interrupted = false := by
  have := h f
  cases e : x f m with
  | done => rfl
  | panic w m' =>
    cases w with
    | none => rw [e] at this; simp only at this; omega
    | some p => rfl
  | abort => rfl

end Unw

namespace RawTable
variable [RawImpl] {T M α : Type} {Φ : M → Nat} {m : M} {c k : Nat}

/-- moving the elements of a table -/
theorem pays_grow {op : TableOp} {t : RawTable T} {hasher : T → UInt64} {put : RawTable T → M} {after : RawTable T}
    (h : (if RawImpl.rehashes op t then t.len else 0) + Φ (put after) ≤ Φ m + c) :
    Unw.Pays Φ (t.grow op hasher put after) m c := by
  rintro ⟨f, s⟩
  simp only [grow]
  by_cases e : RawImpl.rehashes op t = true
  · rw [if_pos e] at h ⊢
    by_cases hk : f < t.entries.length
    · rw [if_pos hk]
      simp only [len] at h ⊢
      omega
    · rw [if_neg hk]
      simp only [len] at h
      show f + Φ (put after) ≤ f - t.entries.length + Φ m + c
      omega
  · rw [if_neg e] at h ⊢
    show f + Φ (put after) ≤ f + Φ m + c
    omega

variable [LawfulRaw] [LawfulCap]

/-- inserting an element costs two, growing included -/
theorem insert_pays [LawfulAmort] (t : RawTable T) (h : UInt64) (v : T) (hasher : T → UInt64) :
    (if RawImpl.rehashes (.insert h) t then t.len else 0) + (t.insert h v hasher).debt ≤ t.debt + 2 := by
  split
  · rename_i e
    have h1 := LawfulAmort.insert t h v hasher e
    have h2 := insert_len t h v hasher
    have h3 : RawImpl.growthLeft t = 0 := by
      rcases Nat.eq_zero_or_pos (RawImpl.growthLeft t) with h | h'
      · exact h
      · rw [LawfulCap.stay t h h'] at e; cases e
    simp only [debt, h2, h3]
    omega
  · have := (Meter.Lawful.insert (G := Meter.debt) t h v hasher).1
    omega

theorem pays_insert [LawfulAmort] {t : RawTable T} {h : UInt64} {v : T} {hasher : T → UInt64} {put : RawTable T → M}
    (h0 : Φ (put (t.insert h v hasher)) + t.debt ≤ Φ m + (t.insert h v hasher).debt + k) :
    Unw.Pays Φ (t.insertU h v hasher put) m (k + 2) := by
  refine pays_grow ?_
  have := insert_pays t h v hasher
  omega

theorem pays_insert_bind [LawfulAmort] {t : RawTable T} {h : UInt64} {v : T} {hasher : T → UInt64} {put : RawTable T → M}
    {g : Unit → Unw M α} (h0 : Φ (put (t.insert h v hasher)) + t.debt ≤ Φ m + (t.insert h v hasher).debt + k)
    (hg : Unw.Pays Φ (g ()) (put (t.insert h v hasher)) c) :
    Unw.Pays Φ (t.insertU h v hasher put >>= g) m (c + (k + 2)) := by
  refine (pays_insert h0).bind ?_
  rintro ⟨⟩ f f' m' e
  have : m' = put (t.insert h v hasher) := by
    have := follows_grow (t := t) (op := .insert h) (hasher := hasher) (put := put) (after := t.insert h v hasher) (m := m)
    have := this.agrees f
    rw [show (t.grow (.insert h) hasher put (t.insert h v hasher)) f m = .done () f' m' from e] at this
    cases this; rfl
  rw [this]; exact hg

/-- `reserve` hashes every element at most once -/
theorem reserve_pays (t : RawTable T) (n : Nat) (hasher : T → UInt64) :
    (if RawImpl.rehashes (.reserve n) t then t.len else 0) + (t.reserve n hasher).debt ≤ t.debt + t.len := by
  have := (Meter.Lawful.reserve (G := Meter.debt) t n hasher).1
  simp only [Nat.mul_zero] at this
  split <;> omega

omit [LawfulCap] in
/-- `shrink_to` hashes every element at most once, and the table may have to grow again soon -/
theorem shrinkTo_pays (t : RawTable T) (n : Nat) (hasher : T → UInt64) :
    (if RawImpl.rehashes (.shrink n) t then t.len else 0) + (t.shrinkTo n hasher).debt ≤ t.debt + 2 * t.len := by
  have h1 := debt_le (t.shrinkTo n hasher)
  rw [shrinkTo_len] at h1
  split <;> omega

end RawTable
end Verif
