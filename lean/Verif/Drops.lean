import Verif.CycleMap.Panics
/-
Destructors (`Drop` of the item types) that panic.  A destructor is `τ → α → Bool × τ`: `true` is a panic, `τ` is what
destructors remember between calls (a global, say).

What the language does (not part of /repo): when a value made of several items is dropped and the destructor of one of
them panics, the others are still dropped; a destructor that panics while a panic is being handled aborts the process.
-/
namespace Verif
open CycleMap (Ending)

variable {τ α : Type}

/-- dropping a value made of these items, in this order: how many destructors panic -/
def dropAll (d : τ → α → Bool × τ) : List α → τ → Nat × τ
  | [], t => (0, t)
  | a :: as, t =>
    let (b, t) := d t a
    let (k, t) := dropAll d as t
    ((if b then 1 else 0) + k, t)

/-- `drop_elements` of a hashbrown table: the elements are dropped one after another until a destructor panics, the
others are leaked -/
def dropUntil (d : τ → α → Bool × τ) : List α → τ → Bool × τ
  | [], t => (false, t)
  | a :: as, t =>
    match d t a with
    | (true, t) => (true, t)
    | (false, t) => dropUntil d as t

/-- Values made of items are dropped one after the other, up to and including the first with a destructor that panics: how many
destructors panicked, the values that were not dropped, and what the destructors remember. -/
def sweep {β : Type} (d : τ → α → Bool × τ) (items : β → List α) : List β → τ → Nat × List β × τ
  | [], t => (0, [], t)
  | b :: bs, t =>
    match dropAll d (items b) t with
    | (0, t) => sweep d items bs t
    | (n + 1, t) => (n + 1, bs, t)

/-- how a call ends in which this many panics happened -/
def endingOf : Nat → Ending
  | 0 => .returned
  | 1 => .panicked
  | _ => .aborted

theorem dropAll_append (d : τ → α → Bool × τ) (as bs : List α) (t : τ) :
    dropAll d (as ++ bs) t = ((dropAll d as t).1 + (dropAll d bs (dropAll d as t).2).1, (dropAll d bs (dropAll d as t).2).2) := by
  induction as generalizing t with
  | nil => simp [dropAll]
  | cons a as ih => simp [dropAll, ih, Nat.add_assoc]

theorem endingOf_aborted : ∀ {n : Nat}, 2 ≤ n → endingOf n = .aborted
  | _ + 2, _ => rfl

/-- an element and the others, if there is at most one element like it -/
theorem find_filter_perm {p : α → Bool} {c : List α} (h : c.Pairwise fun a b => ¬ (p a = true ∧ p b = true)) :
    ((c.find? p).toList ++ c.filter fun a => !p a).Perm c := by
  induction c with
  | nil => exact .refl _
  | cons a c ih =>
    have h := List.pairwise_cons.1 h
    cases ha : p a with
    | true =>
      have : c.filter (fun a => !p a) = c := List.filter_eq_self.2 fun b hb => by
        cases hp : p b with
        | false => rfl
        | true => exact absurd ⟨ha, hp⟩ (h.1 b hb)
      simp [ha, this]
    | false =>
      simp only [List.find?_cons, ha, List.filter_cons, Bool.not_false, if_true]
      exact List.perm_middle.trans ((ih h.2).cons a)

theorem dropUntil_calm {d : τ → α → Bool × τ} {as : List α} (h : ∀ t, ∀ a ∈ as, (d t a).1 = false) (t : τ) :
    (dropUntil d as t).1 = false := by
  induction as generalizing t with
  | nil => rfl
  | cons a as ih =>
    have h1 := h t a List.mem_cons_self
    have ih := ih (fun t b hb => h t b (List.mem_cons_of_mem _ hb)) (d t a).2
    simp only [dropUntil]
    split
    · rename_i e; rw [e] at h1; cases h1
    · rename_i e; rw [e] at ih; exact ih

variable {β γ : Type}

theorem sweep_map (d : τ → α → Bool × τ) (items : β → List α) (g : γ → β) (cs : List γ) (t : τ) :
    sweep d items (cs.map g) t = ((sweep d (fun c => items (g c)) cs t).1, (sweep d (fun c => items (g c)) cs t).2.1.map g,
      (sweep d (fun c => items (g c)) cs t).2.2) := by
  induction cs generalizing t with
  | nil => rfl
  | cons c cs ih =>
    simp only [List.map_cons, sweep]
    split
    · exact ih _
    · rfl

/-- what is left of a sweep is the end of the list, all of which is gone if nothing panicked -/
theorem sweep_spec (d : τ → α → Bool × τ) (items : β → List α) (bs : List β) (t : τ) :
    ∃ gone, bs = gone ++ (sweep d items bs t).2.1 ∧
      dropAll d (gone.flatMap items) t = ((sweep d items bs t).1, (sweep d items bs t).2.2) ∧
      ((sweep d items bs t).1 = 0 → (sweep d items bs t).2.1 = []) := by
  induction bs generalizing t with
  | nil => exact ⟨[], rfl, rfl, fun _ => rfl⟩
  | cons b bs ih =>
    simp only [sweep]
    split
    · rename_i t1 hk
      obtain ⟨g, h1, h2, h3⟩ := ih t1
      refine ⟨b :: g, by rw [List.cons_append, ← h1], ?_, h3⟩
      rw [List.flatMap_cons, dropAll_append, hk, h2]; simp
    · rename_i n t1 hk
      exact ⟨[b], rfl, by simpa using hk, fun h => by cases h⟩

end Verif
