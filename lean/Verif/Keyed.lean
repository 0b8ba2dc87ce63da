import Verif.RawLemmas
/-! Tables all of whose elements are stored under their own hash and are pairwise apart, and what the table
operations do to them.  Nothing is assumed about the elements beyond that. -/
namespace Verif.RawTable
variable [RawImpl] [LawfulRaw] {T : Type}

/-- every element is stored under its hash, any two elements satisfy `P`, every element satisfies `Q` -/
structure Keyed (hash : T → UInt64) (P : T → T → Prop) (Q : T → Prop) (t : RawTable T) : Prop where
  hash : ∀ e ∈ t.entries, hash e.2 = e.1
  apart : t.entries.Pairwise fun a b => P a.2 b.2
  all : ∀ e ∈ t.entries, Q e.2

variable {hash : T → UInt64} {P : T → T → Prop} {Q : T → Prop} {t t' : RawTable T}

omit [RawImpl] [LawfulRaw] in
theorem Keyed.of_perm (hP : ∀ a b, P a b → P b a) (h : Keyed hash P Q t) (hp : t'.entries.Perm t.entries) :
    Keyed hash P Q t' where
  hash e he := h.hash e (hp.mem_iff.1 he)
  apart := (hp.pairwise_iff fun h => hP _ _ h).2 h.apart
  all e he := h.all e (hp.mem_iff.1 he)

omit [RawImpl] [LawfulRaw] in
theorem Keyed.mono {Q' : T → Prop} (h : Keyed hash P Q t) (hQ : ∀ x, Q x → Q' x) : Keyed hash P Q' t :=
  ⟨h.hash, h.apart, fun e he => hQ _ (h.all e he)⟩

omit [RawImpl] [LawfulRaw] in
theorem Keyed.of_nil (h : t.entries = []) : Keyed hash P Q t :=
  ⟨by simp [h], by simp [h], by simp [h]⟩

theorem getMut_perm {h p x w} (e : t.getMut h p = some (x, w)) :
    p x = true ∧ ∃ k es, t.entries.Perm ((k, x) :: es) ∧ ∀ v, (w v).entries.Perm ((k, v) :: es) := by
  simp only [getMut] at e
  split at e
  · cases e
  · rename_i i hi
    obtain ⟨⟨k, y⟩, he, hp⟩ := LawfulRaw.find_sound t h p i hi
    rw [he] at e
    cases e
    exact ⟨hp, k, _, getElem?_perm_eraseIdx he, fun v => set_perm_eraseIdx he⟩

theorem removeEntry_perm {h p x} (e : t.removeEntry h p = some (x, t')) :
    p x = true ∧ ∃ k, t.entries.Perm ((k, x) :: t'.entries) := by
  simp only [removeEntry] at e
  split at e
  · cases e
  · rename_i i hi
    obtain ⟨⟨k, y⟩, he, hp⟩ := LawfulRaw.find_sound t h p i hi
    rw [he] at e
    cases e
    exact ⟨hp, k, (getElem?_perm_eraseIdx he).trans ((LawfulRaw.touch_perm (.erase (RawTable.allBut t.len i)) { t with entries := t.entries.eraseIdx i }).symm.cons _)⟩

theorem get_mem {h p x} (e : t.get h p = some x) : p x = true ∧ ∃ k, (k, x) ∈ t.entries := by
  simp only [get] at e
  split at e
  · cases e
  · rename_i i hi
    obtain ⟨⟨k, y⟩, he, hp⟩ := LawfulRaw.find_sound t h p i hi
    rw [he] at e
    cases e
    exact ⟨hp, k, List.mem_of_getElem? he⟩

/-- overwriting an element in place -/
theorem Keyed.write (hP : ∀ a b, P a b → P b a) (ht : Keyed hash P Q t) {h p x w} (e : t.getMut h p = some (x, w))
    {v : T} (hh : hash v = hash x) (hv : ∀ y, P x y → P v y) (hq : Q x → Q v) : Keyed hash P Q (w v) := by
  obtain ⟨-, k, es, h1, h2⟩ := getMut_perm e
  have h3 : Keyed hash P Q (⟨(k, x) :: es, 0⟩ : RawTable T) := ht.of_perm hP h1.symm
  refine Keyed.of_perm (t := ⟨(k, v) :: es, 0⟩) hP ⟨?_, ?_, ?_⟩ (h2 v)
  · intro e he
    rcases List.mem_cons.1 he with rfl | he
    · exact hh.trans (h3.hash (k, x) List.mem_cons_self)
    · exact h3.hash e (List.mem_cons_of_mem _ he)
  · exact List.pairwise_cons.2 ⟨fun y hy => hv _ ((List.pairwise_cons.1 h3.apart).1 y hy), (List.pairwise_cons.1 h3.apart).2⟩
  · intro e he
    rcases List.mem_cons.1 he with rfl | he
    · exact hq (h3.all (k, x) List.mem_cons_self)
    · exact h3.all e (List.mem_cons_of_mem _ he)

/-- taking an element out -/
theorem Keyed.removed (hP : ∀ a b, P a b → P b a) (ht : Keyed hash P Q t) {h p x} (e : t.removeEntry h p = some (x, t')) :
    Keyed hash P Q t' ∧ p x = true ∧ Q x ∧ ∀ e ∈ t'.entries, P x e.2 := by
  obtain ⟨hp, k, h1⟩ := removeEntry_perm e
  have h3 : Keyed hash P Q (⟨(k, x) :: t'.entries, 0⟩ : RawTable T) := ht.of_perm hP h1.symm
  exact ⟨⟨fun e he => h3.hash e (List.mem_cons_of_mem _ he), (List.pairwise_cons.1 h3.apart).2,
    fun e he => h3.all e (List.mem_cons_of_mem _ he)⟩, hp, h3.all _ List.mem_cons_self, (List.pairwise_cons.1 h3.apart).1⟩

/-- putting an element in -/
theorem Keyed.inserted (hP : ∀ a b, P a b → P b a) (ht : Keyed hash P Q t) {v : T} (hv : ∀ e ∈ t.entries, P v e.2)
    (hq : Q v) : Keyed hash P Q (t.insert (hash v) v hash) := by
  refine Keyed.of_perm (t := ⟨(hash v, v) :: t.entries, 0⟩) hP ⟨?_, ?_, ?_⟩ (insert_perm t _ _ ht.hash)
  · intro e he
    rcases List.mem_cons.1 he with rfl | he
    · rfl
    · exact ht.hash e he
  · exact List.pairwise_cons.2 ⟨hv, ht.apart⟩
  · intro e he
    rcases List.mem_cons.1 he with rfl | he
    · exact hq
    · exact ht.all e he

/-- a probe under the hash of an item it accepts never misses -/
theorem Keyed.get_isSome (ht : Keyed hash P Q t) {h : UInt64} {p : T → Bool} (hp : ∀ x, p x = true → hash x = h) :
    (t.get h p).isSome = t.toList.any p := by
  cases e : t.get h p with
  | some x =>
    obtain ⟨h1, k, h2⟩ := get_mem e
    exact (List.any_eq_true.2 ⟨x, List.mem_map.2 ⟨_, h2, rfl⟩, h1⟩).symm
  | none =>
    symm
    refine List.any_eq_false.2 fun x hx hpx => ?_
    obtain ⟨a, ha, rfl⟩ := List.mem_map.1 hx
    simp only [get] at e
    split at e
    · rename_i hf
      exact LawfulRaw.find_complete t h p a ha ((ht.hash a ha).symm.trans (hp _ hpx)) hpx hf
    · rename_i i hi
      obtain ⟨b, hb, -⟩ := LawfulRaw.find_sound t h p i hi
      simp [hb] at e

omit [LawfulRaw] in
theorem get_isSome_getMut (h : UInt64) (p : T → Bool) : (t.getMut h p).isSome = (t.get h p).isSome := by
  simp only [get, getMut]
  split <;> simp

omit [LawfulRaw] in
theorem get_isSome_removeEntry (h : UInt64) (p : T → Bool) : (t.removeEntry h p).isSome = (t.get h p).isSome := by
  simp only [get, removeEntry]
  split <;> simp

/-- a probe under the hash of the items it accepts misses only if there is none -/
theorem Keyed.absent_getMut (ht : Keyed hash P Q t) {h : UInt64} {p : T → Bool} (hp : ∀ x, p x = true → hash x = h)
    (hn : t.getMut h p = none) : ∀ e ∈ t.entries, p e.2 = false := by
  have h1 := get_isSome_getMut (t := t) h p
  rw [hn, ht.get_isSome hp] at h1
  intro e he
  have := List.any_eq_false.1 h1.symm e.2 (List.mem_map.2 ⟨e, he, rfl⟩)
  simpa using this

theorem Keyed.absent_removeEntry (ht : Keyed hash P Q t) {h : UInt64} {p : T → Bool} (hp : ∀ x, p x = true → hash x = h)
    (hn : t.removeEntry h p = none) : ∀ e ∈ t.entries, p e.2 = false := by
  have h1 := get_isSome_removeEntry (t := t) h p
  rw [hn, ht.get_isSome hp] at h1
  intro e he
  have := List.any_eq_false.1 h1.symm e.2 (List.mem_map.2 ⟨e, he, rfl⟩)
  simpa using this

/-- a probe that accepts one element and none that is away from it finds that element -/
theorem Keyed.get_eq (hP : ∀ a b, P a b → P b a) (ht : Keyed hash P Q t) {h : UInt64} {p : T → Bool}
    (hp : ∀ x, p x = true → hash x = h) {k : UInt64} {x : T} (hx : (k, x) ∈ t.entries) (hpx : p x = true)
    (hu : ∀ y, P x y → p y = false) : t.get h p = some x := by
  have h1 : (t.get h p).isSome = true := by
    rw [ht.get_isSome hp]
    exact List.any_eq_true.2 ⟨x, List.mem_map.2 ⟨_, hx, rfl⟩, hpx⟩
  obtain ⟨y, hy⟩ := Option.isSome_iff_exists.1 h1
  obtain ⟨hpy, k', hm⟩ := get_mem hy
  obtain ⟨es, hes⟩ : ∃ es, t.entries.Perm ((k, x) :: es) := by
    obtain ⟨as, bs, e⟩ := List.append_of_mem hx
    exact ⟨as ++ bs, by rw [e]; exact List.perm_middle⟩
  have ha := List.pairwise_cons.1 ((ht.of_perm (t' := ⟨(k, x) :: es, 0⟩) hP hes.symm).apart)
  rcases List.mem_cons.1 (hes.mem_iff.1 hm) with e | hin
  · cases e; exact hy
  · have := hu _ (ha.1 _ hin)
    rw [hpy] at this; cases this

/-- an element just put in is there -/
theorem mem_insert (ht : ∀ e ∈ t.entries, hash e.2 = e.1) (h : UInt64) (v : T) : (h, v) ∈ (t.insert h v hash).entries :=
  (insert_perm t h v ht).mem_iff.2 List.mem_cons_self

end Verif.RawTable
