import Verif.Raw
/-! Consequences of the table contract, in the form the refinement proofs use. -/

namespace Verif
open List

theorem perm_cons_of_mem {α} {a : α} {l : List α} (h : a ∈ l) : ∃ l', l.Perm (a :: l') := by
  obtain ⟨s, t, rfl⟩ := List.append_of_mem h
  exact ⟨s ++ t, List.perm_middle⟩

theorem getElem?_perm_eraseIdx {α} {l : List α} {i : Nat} {a : α} (h : l[i]? = some a) :
    l.Perm (a :: l.eraseIdx i) := by
  induction l generalizing i with
  | nil => simp at h
  | cons x xs ih =>
    cases i with
    | zero => simp at h; subst h; simp
    | succ i =>
      simp at h
      simp only [List.eraseIdx_cons_succ]
      exact ((ih h).cons x).trans (List.Perm.swap a x _)

theorem set_perm_eraseIdx {α} {l : List α} {i : Nat} {a b : α} (h : l[i]? = some a) :
    (l.set i b).Perm (b :: l.eraseIdx i) := by
  induction l generalizing i with
  | nil => simp at h
  | cons x xs ih =>
    cases i with
    | zero => simp
    | succ i =>
      simp at h
      simp only [List.set_cons_succ, List.eraseIdx_cons_succ]
      exact ((ih h).cons x).trans (List.Perm.swap b x _)

namespace RawTable
variable [RawImpl] [LawfulRaw] {T : Type}

theorem find_none {t : RawTable T} {h p} (hp : ∀ e ∈ t.entries, p e.2 = false) :
    RawImpl.find t h p = none := by
  cases hf : RawImpl.find t h p with
  | none => rfl
  | some i =>
    obtain ⟨e, he, hpe⟩ := LawfulRaw.find_sound t h p i hf
    rw [hp e (List.mem_of_getElem? he)] at hpe
    cases hpe

/-- A probe for the only matching element hits it. -/
theorem find_some {t : RawTable T} {h p e es} (ht : t.entries.Perm (e :: es)) (hh : e.1 = h)
    (hp : p e.2 = true) (hu : ∀ e' ∈ es, p e'.2 = false) :
    ∃ i, RawImpl.find t h p = some i ∧ t.entries[i]? = some e := by
  have hmem : e ∈ t.entries := ht.mem_iff.2 (by simp)
  cases hf : RawImpl.find t h p with
  | none => exact absurd hf (LawfulRaw.find_complete t h p e hmem hh hp)
  | some i =>
    obtain ⟨e', he', hpe'⟩ := LawfulRaw.find_sound t h p i hf
    have hm : e' ∈ e :: es := ht.mem_iff.1 (List.mem_of_getElem? he')
    rcases List.mem_cons.1 hm with rfl | hm
    · exact ⟨i, rfl, he'⟩
    · rw [hu e' hm] at hpe'; cases hpe'

theorem get_none {t : RawTable T} {h p} (hp : ∀ e ∈ t.entries, p e.2 = false) :
    t.get h p = none := by simp [get, find_none hp]

theorem getMut_none {t : RawTable T} {h p} (hp : ∀ e ∈ t.entries, p e.2 = false) :
    t.getMut h p = none := by simp [getMut, find_none hp]

theorem removeEntry_none {t : RawTable T} {h p} (hp : ∀ e ∈ t.entries, p e.2 = false) :
    t.removeEntry h p = none := by simp [removeEntry, find_none hp]

theorem get_some {t : RawTable T} {h p e es} (ht : t.entries.Perm (e :: es)) (hh : e.1 = h)
    (hp : p e.2 = true) (hu : ∀ e' ∈ es, p e'.2 = false) : t.get h p = some e.2 := by
  obtain ⟨i, hf, hi⟩ := find_some ht hh hp hu
  simp [get, hf, hi]

theorem getMut_some {t : RawTable T} {h p e es} (ht : t.entries.Perm (e :: es)) (hh : e.1 = h)
    (hp : p e.2 = true) (hu : ∀ e' ∈ es, p e'.2 = false) :
    ∃ w, t.getMut h p = some (e.2, w) ∧ ∀ v, (w v).entries.Perm ((e.1, v) :: es) := by
  obtain ⟨i, hf, hi⟩ := find_some ht hh hp hu
  refine ⟨fun v => { t with entries := t.entries.set i (e.1, v) },
    by simp only [getMut, hf, hi, Option.map_some], fun v => ?_⟩
  refine (set_perm_eraseIdx hi).trans (List.Perm.cons _ ?_)
  exact ((getElem?_perm_eraseIdx hi).symm.trans ht).cons_inv

theorem removeEntry_some {t : RawTable T} {h p e es} (ht : t.entries.Perm (e :: es)) (hh : e.1 = h)
    (hp : p e.2 = true) (hu : ∀ e' ∈ es, p e'.2 = false) :
    ∃ t', t.removeEntry h p = some (e.2, t') ∧ t'.entries.Perm es := by
  obtain ⟨i, hf, hi⟩ := find_some ht hh hp hu
  refine ⟨RawImpl.touch (.erase (allBut t.len i)) { t with entries := t.entries.eraseIdx i },
    by simp only [removeEntry, hf, hi, Option.map_some], ?_⟩
  refine (LawfulRaw.touch_perm _ _).trans ?_
  exact ((getElem?_perm_eraseIdx hi).symm.trans ht).cons_inv

omit [LawfulRaw] in
/-- Moving the elements changes nothing if each of them is stored under what the hasher says. -/
theorem rehash_eq {t : RawTable T} {op} {hasher : T → UInt64} (hh : ∀ e ∈ t.entries, hasher e.2 = e.1) :
    t.rehash op hasher = t := by
  rw [rehash]
  split
  · have : t.entries.map (fun e => (hasher e.2, e.2)) = t.entries :=
      (List.map_congr_left (f := fun e => (hasher e.2, e.2)) (g := id) fun e he => Prod.ext (hh e he) rfl).trans
        (List.map_id _)
    rw [this]
  · rfl

theorem insert_perm (t : RawTable T) (h v) {hasher : T → UInt64} (hh : ∀ e ∈ t.entries, hasher e.2 = e.1) :
    (t.insert h v hasher).entries.Perm ((h, v) :: t.entries) := by
  rw [insert, rehash_eq hh]
  exact LawfulRaw.touch_perm _ _

theorem clear_entries (t : RawTable T) : t.clear.entries = [] :=
  List.perm_nil.1 (LawfulRaw.touch_perm _ _)

theorem withCapacity_entries (n : Nat) : (withCapacity n : RawTable T).entries = [] :=
  List.perm_nil.1 (LawfulRaw.touch_perm _ _)

theorem reserve_perm (t : RawTable T) (n) {hasher : T → UInt64} (hh : ∀ e ∈ t.entries, hasher e.2 = e.1) :
    (t.reserve n hasher).entries.Perm t.entries := by
  rw [reserve, rehash_eq hh]
  exact LawfulRaw.touch_perm _ _

theorem shrinkTo_perm (t : RawTable T) (n) {hasher : T → UInt64} (hh : ∀ e ∈ t.entries, hasher e.2 = e.1) :
    (t.shrinkTo n hasher).entries.Perm t.entries := by
  rw [shrinkTo, rehash_eq hh]
  exact LawfulRaw.touch_perm _ _

end RawTable
end Verif
