import Verif.CycleMap.SpecLemmas
import Verif.Relate
/-!
Left and right exchanged: the call, the result and the contents with the roles of the two sides swapped, and what
the list machine of `CycleMap` makes of it.
-/
set_option linter.unusedSectionVars false
namespace Verif.OptionalPair
variable {L R : Type}

/-- the two components exchanged -/
def mirror : OptionalPair L R → OptionalPair R L
  | neither => neither
  | someLeft l => someRight l
  | someRight r => someLeft r
  | someBoth l r => someBoth r l

end Verif.OptionalPair

namespace Verif.CycleMap
open CycleSpec OptionalPair
variable {L R : Type} [BEq L] [BEq R]

/-- The call with left and right exchanged. -/
def Op.mirror : Op L R → Op R L
  | .insert l r => .insert r l
  | .remove l r => .remove r l
  | .removeViaLeft l => .removeViaRight l
  | .removeViaRight r => .removeViaLeft r
  | .swapLeft old new => .swapRight old new
  | .swapLeftChecked old e new => .swapRightChecked old e new
  | .swapLeftOrInsert old new r => .swapRightOrInsert old new r
  | .swapRight old new => .swapLeft old new
  | .swapRightChecked old e new => .swapLeftChecked old e new
  | .swapRightOrInsert old new l => .swapLeftOrInsert old new l
  | .getLeft r => .getRight r
  | .getRight l => .getLeft l
  | .containsLeft l => .containsRight l
  | .containsRight r => .containsLeft r
  | .arePaired l r => .arePaired r l
  | .len => .len
  | .isEmpty => .isEmpty
  | .clear => .clear
  | .iter => .iter
  | .iterLeft => .iterRight
  | .iterRight => .iterLeft
  | .drain n => .drain n
  | .drainFilter σ f s n => .drainFilter σ (fun s r l => f s l r) s n
  | .drainFilterAll σ f s => .drainFilterAll σ (fun s r l => f s l r) s
  | .retain σ f s => .retain σ (fun s r l => f s l r) s
  | .extend xs => .extend (xs.map Prod.swap)
  | .reserve n => .reserve n
  | .tryReserve n a b => .tryReserve n b a
  | .shrinkTo n => .shrinkTo n
  | .shrinkToFit => .shrinkToFit
  | .clone cl cr => .clone cr cl

/-- The result with left and right exchanged. -/
def Out.mirror : Out L R → Out R L
  | .unit => .unit
  | .bool b => .bool b
  | .nat n => .nat n
  | .left o => .right o
  | .right o => .left o
  | .pair o => .pair (o.map Prod.swap)
  | .inserted o => .inserted (o.mirror.map Prod.swap Prod.swap)
  | .swappedLeft o => .swappedRight (o.mapRight Prod.swap)
  | .swappedRight o => .swappedLeft (o.mapRight Prod.swap)
  | .lefts ls => .rights ls
  | .rights rs => .lefts rs
  | .pairs ps => .pairs (ps.map Prod.swap)

/-- The calls that treat left and right alike with contents `c`.  Left out: `insert` of a pair that is there, which returns
it as `SomeLeft` whichever side one looks from, and `swap_left_or_insert`, `swap_right_or_insert` where they insert and an
item is in the way: the former returns a displaced left item without its partner (C17), the latter panics (C18). -/
def Even (c : List (L × R)) : Op L R → Prop
  | .insert l r => hasPair c l r = false
  | .swapLeftOrInsert old new r => (findL c old).isSome = true ∨ findL c new = none ∧ findR c r = none
  | .swapRightOrInsert old new l => (findR c old).isSome = true ∨ findR c new = none ∧ findL c l = none
  | _ => True

/-- A history of such calls, however the visiting orders turn out. -/
def EvenRun (c : List (L × R)) : List (Op L R) → Prop
  | [] => True
  | op :: ops => Even c op ∧ ∀ o c', Step c op o c' → EvenRun c' ops

end Verif.CycleMap

namespace Verif.CycleSpec
open CycleMap OptionalPair
variable {L R : Type} [BEq L] [BEq R] {c : List (L × R)}

theorem findL_mirror (c : List (L × R)) (r : R) : findL (c.map Prod.swap) r = (findR c r).map Prod.swap := by
  simp only [findL, findR, List.find?_map]; rfl

theorem findR_mirror (c : List (L × R)) (l : L) : findR (c.map Prod.swap) l = (findL c l).map Prod.swap := by
  simp only [findL, findR, List.find?_map]; rfl

theorem hasPair_mirror (c : List (L × R)) (l : L) (r : R) : hasPair (c.map Prod.swap) r l = hasPair c l r := by
  simp only [hasPair, List.any_map]
  congr 1; funext p; exact Bool.and_comm _ _

theorem eraseL_mirror (c : List (L × R)) (r : R) : eraseL (c.map Prod.swap) r = (eraseR c r).map Prod.swap := by
  simp only [eraseL, eraseR, List.filter_map]; rfl

theorem eraseR_mirror (c : List (L × R)) (l : L) : eraseR (c.map Prod.swap) l = (eraseL c l).map Prod.swap := by
  simp only [eraseL, eraseR, List.filter_map]; rfl

theorem insert_mirror (c : List (L × R)) (l : L) (r : R) :
    (insert (c.map Prod.swap) r l).2 = (insert c l r).2.map Prod.swap := by
  simp only [insert, List.filter_map, List.map_cons]
  congr 3; funext p; exact Bool.and_comm _ _

theorem swapLeft_mirror (c : List (L × R)) (a b : R) :
    (swapLeft (c.map Prod.swap) a b).1 = (swapRight c a b).1.mapRight Prod.swap ∧
    (swapLeft (c.map Prod.swap) a b).2 = (swapRight c a b).2.map Prod.swap := by
  simp only [swapLeft, swapRight, findL_mirror]
  cases findR c a with
  | none => exact ⟨rfl, eraseL_mirror c b⟩
  | some p =>
    refine ⟨?_, ?_⟩
    · simp only [Option.map_some]
      cases b == a with
      | true => rfl
      | false => cases findR c b <;> rfl
    · simp only [Option.map_some, List.filter_map, List.map_cons]; rfl

theorem swapRight_mirror (c : List (L × R)) (a b : L) :
    (swapRight (c.map Prod.swap) a b).1 = (swapLeft c a b).1.mapRight Prod.swap ∧
    (swapRight (c.map Prod.swap) a b).2 = (swapLeft c a b).2.map Prod.swap := by
  simp only [swapLeft, swapRight, findR_mirror]
  cases findL c a with
  | none => exact ⟨rfl, eraseR_mirror c b⟩
  | some p =>
    refine ⟨?_, ?_⟩
    · simp only [Option.map_some]
      cases b == a with
      | true => rfl
      | false => cases findL c b <;> rfl
    · simp only [Option.map_some, List.filter_map, List.map_cons]; rfl

theorem insertAll_mirror (xs c : List (L × R)) :
    insertAll (c.map Prod.swap) (xs.map Prod.swap) = (insertAll c xs).map Prod.swap := by
  induction xs generalizing c with
  | nil => rfl
  | cons x xs ih =>
    simp only [insertAll, List.map_cons, List.foldl_cons] at ih ⊢
    rw [← ih]
    congr 1
    exact insert_mirror c x.1 x.2

theorem split_mirror {σ : Type} (f : σ → L → R → Bool × σ) (c : List (L × R)) (s : σ) :
    split (fun s (p : R × L) => f s p.2 p.1) (c.map Prod.swap) s =
      ((split (fun s p => f s p.1 p.2) c s).1.map Prod.swap, (split (fun s p => f s p.1 p.2) c s).2.1.map Prod.swap,
        (split (fun s p => f s p.1 p.2) c s).2.2) := by
  induction c generalizing s with
  | nil => rfl
  | cons p c ih =>
    simp only [List.map_cons, split, Prod.fst_swap, Prod.snd_swap]
    cases f s p.1 p.2 with
    | mk b s' => cases b <;> simp only [ih] <;> rfl

/-- `remove` finds the same pair from both sides -/
theorem findL_eq_findR [EquivBEq L] [EquivBEq R] (h : OneToOne c) {l : L} {r : R} (hp : hasPair c l r = true) :
    findL c l = findR c r ∧ eraseL c l = eraseR c r := by
  simp only [hasPair, List.any_eq_true, Bool.and_eq_true] at hp
  obtain ⟨p, hp, h1, h2⟩ := hp
  refine ⟨(findL_of_mem h hp h1).trans (findR_of_mem h hp h2).symm, ?_⟩
  apply List.filter_congr
  intro q hq
  congr 1
  rw [Bool.eq_iff_iff]
  constructor
  · intro e
    have := findL_of_mem h hq e
    rw [findL_of_mem h hp h1] at this
    cases this; exact h2
  · intro e
    have := findR_of_mem h hq e
    rw [findR_of_mem h hp h2] at this
    cases this; exact h1

theorem safe_mirror {op : Op L R} (hs : Safe c op) (he : Even c op) : Safe (c.map Prod.swap) op.mirror := by
  cases op <;> try exact trivial
  case swapLeftOrInsert old new r =>
    simp only [Op.mirror, Safe, findL_mirror, findR_mirror, Option.isSome_map, Option.map_eq_none_iff]
    exact he.imp id (·.2)
  case drain n => simpa [Op.mirror, Safe] using hs
  case clone => exact ⟨hs.2, hs.1⟩

/-- The list machine treats left and right alike. -/
theorem step_mirror [EquivBEq L] [EquivBEq R] (h1 : OneToOne c) {op : Op L R} (he : Even c op) {o : Out L R}
    {c' : List (L × R)} (h : Step c op o c') : Step (c.map Prod.swap) op.mirror o.mirror (c'.map Prod.swap) := by
  cases op <;> simp only [Step, Op.mirror, findL_mirror, findR_mirror, hasPair_mirror, eraseL_mirror, eraseR_mirror,
    Option.isSome_map] at h ⊢
  case insert l r =>
    obtain ⟨rfl, rfl⟩ := h
    refine ⟨?_, (insert_mirror c l r).symm⟩
    simp only [Even] at he
    simp only [Out.mirror, insert, hasPair_mirror, he, findL_mirror, findR_mirror]
    cases findL c l <;> cases findR c r <;> rfl
  case remove l r =>
    obtain ⟨rfl, rfl⟩ := h
    cases hp : hasPair c l r with
    | true => exact ⟨by simp only [Out.mirror, findL_eq_findR h1 hp, if_true], by simp only [if_true, findL_eq_findR h1 hp]⟩
    | false => exact ⟨rfl, rfl⟩
  case removeViaLeft | removeViaRight =>
    obtain ⟨rfl, rfl⟩ := h; exact ⟨rfl, rfl⟩
  case swapLeft a b =>
    obtain ⟨rfl, rfl⟩ := h
    exact ⟨by rw [(swapRight_mirror c a b).1]; rfl, (swapRight_mirror c a b).2.symm⟩
  case swapRight a b =>
    obtain ⟨rfl, rfl⟩ := h
    exact ⟨by rw [(swapLeft_mirror c a b).1]; rfl, (swapLeft_mirror c a b).2.symm⟩
  case swapLeftChecked a e b =>
    split at h
    · obtain ⟨rfl, rfl⟩ := h
      rename_i hc
      rw [if_pos hc]
      exact ⟨by rw [(swapRight_mirror c a b).1]; rfl, (swapRight_mirror c a b).2.symm⟩
    · obtain ⟨rfl, rfl⟩ := h
      rename_i hc
      rw [if_neg hc]
      exact ⟨rfl, rfl⟩
  case swapRightChecked a e b =>
    split at h
    · obtain ⟨rfl, rfl⟩ := h
      rename_i hc
      rw [if_pos hc]
      exact ⟨by rw [(swapLeft_mirror c a b).1]; rfl, (swapLeft_mirror c a b).2.symm⟩
    · obtain ⟨rfl, rfl⟩ := h
      rename_i hc
      rw [if_neg hc]
      exact ⟨rfl, rfl⟩
  case swapLeftOrInsert a b r =>
    split at h
    · obtain ⟨rfl, rfl⟩ := h
      rename_i hc
      rw [if_pos hc]
      exact ⟨by rw [(swapRight_mirror c a b).1]; rfl, (swapRight_mirror c a b).2.symm⟩
    · obtain ⟨rfl, rfl⟩ := h
      rename_i hc
      rw [if_neg hc]
      obtain ⟨e1, e2⟩ := he.resolve_left hc
      refine ⟨by rw [e2]; rfl, ?_, (insert_mirror c b r).symm⟩
      simp only [insert, e1, e2, ite_self]; rfl
  case swapRightOrInsert a b l =>
    split at h
    · obtain ⟨rfl, rfl⟩ := h
      rename_i hc
      rw [if_pos hc]
      exact ⟨by rw [(swapLeft_mirror c a b).1]; rfl, (swapLeft_mirror c a b).2.symm⟩
    · obtain ⟨-, rfl, rfl⟩ := h
      rename_i hc
      rw [if_neg hc]
      obtain ⟨e1, e2⟩ := he.resolve_left hc
      refine ⟨?_, (insert_mirror c l b).symm⟩
      simp only [insert, findL_mirror, findR_mirror, e1, e2]
      cases hasPair (c.map Prod.swap) b l <;> rfl
  case getLeft | getRight =>
    obtain ⟨rfl, rfl⟩ := h
    refine ⟨?_, rfl⟩
    simp only [Out.mirror, Option.map_map]; rfl
  case containsLeft | containsRight =>
    obtain ⟨rfl, rfl⟩ := h
    refine ⟨?_, rfl⟩
    simp only [Out.mirror, List.any_map]; rfl
  case arePaired => obtain ⟨rfl, rfl⟩ := h; exact ⟨rfl, rfl⟩
  case len => obtain ⟨rfl, rfl⟩ := h; exact ⟨by simp [Out.mirror], rfl⟩
  case isEmpty => obtain ⟨rfl, rfl⟩ := h; exact ⟨by simp [Out.mirror], rfl⟩
  case clear => obtain ⟨rfl, rfl⟩ := h; exact ⟨rfl, rfl⟩
  case iter => obtain ⟨d, hd, rfl, rfl⟩ := h; exact ⟨_, hd.map _, rfl, rfl⟩
  case iterLeft | iterRight =>
    obtain ⟨d, hd, rfl, rfl⟩ := h
    refine ⟨d, ?_, rfl, rfl⟩
    rw [List.map_map]; exact hd
  case drain => obtain ⟨hn, d, hd, rfl, rfl⟩ := h; exact ⟨by simpa using hn, _, hd.map _, rfl, rfl⟩
  case drainFilter σ f s n =>
    obtain ⟨d, hd, rfl, rfl⟩ := h
    refine ⟨_, hd.map _, ?_, ?_⟩
    · rw [split_mirror]; simp only [Out.mirror, List.map_take]
    · rw [split_mirror]
  case drainFilterAll σ f s =>
    obtain ⟨d, hd, rfl, rfl⟩ := h
    exact ⟨_, hd.map _, by rw [split_mirror]; rfl, by rw [split_mirror]⟩
  case retain σ f s =>
    obtain ⟨d, hd, rfl, rfl⟩ := h
    exact ⟨_, hd.map _, rfl, by rw [split_mirror]⟩
  case extend xs => obtain ⟨rfl, rfl⟩ := h; exact ⟨rfl, (insertAll_mirror xs c).symm⟩
  case tryReserve n a b => obtain ⟨rfl, rfl⟩ := h; exact ⟨by simp only [Out.mirror, Bool.and_comm], rfl⟩
  case clone cl cr =>
    obtain ⟨rfl, rfl⟩ := h
    refine ⟨rfl, ?_⟩
    simp only [List.map_map]; rfl
  all_goals obtain ⟨rfl, rfl⟩ := h; exact ⟨rfl, rfl⟩

theorem orderFree_mirror {op : Op L R} (h : OrderFree op) : OrderFree op.mirror := by
  cases op <;> try exact h
  case drainFilterAll | retain =>
    obtain ⟨g, hg⟩ := h
    exact ⟨fun r l => g l r, fun s r l => hg s l r⟩

/-- If the mirrored call returns the mirrored result, the call is no exception. -/
theorem even_of_step [EquivBEq L] [EquivBEq R] {op : Op L R} {o : Out L R} {o' : Out R L} {c₁ : List (L × R)} {c₂ : List (R × L)}
    (h : Step c op o c₁) (h' : Step (c.map Prod.swap) op.mirror o' c₂) (hoo : SameOut o.mirror o') : Even c op := by
  cases op <;> try exact trivial
  case insert l r =>
    obtain ⟨rfl, -⟩ := h
    obtain ⟨rfl, -⟩ := h'
    refine Classical.byContradiction fun hn => ?_
    simp only [Even, Bool.not_eq_false] at hn
    have hl : ∃ p, findL c l = some p := by
      rw [← Option.isSome_iff_exists, findL_isSome_eq]
      simp only [hasPair, List.any_eq_true, Bool.and_eq_true] at hn ⊢
      obtain ⟨p, hp, h1, _⟩ := hn
      exact ⟨p, hp, h1⟩
    have hr : ∃ p, findR c r = some p := by
      rw [← Option.isSome_iff_exists, findR_isSome_eq]
      simp only [hasPair, List.any_eq_true, Bool.and_eq_true] at hn ⊢
      obtain ⟨p, hp, _, h1⟩ := hn
      exact ⟨p, hp, h1⟩
    obtain ⟨p, hl⟩ := hl
    obtain ⟨q, hr⟩ := hr
    simp [insert, hn, hasPair_mirror, findL_mirror, hl, hr, Out.mirror, SameOut, ofPair, OptionalPair.mirror,
      OptionalPair.map] at hoo
  case swapLeftOrInsert a b r =>
    simp only [Step, Op.mirror, findL_mirror, findR_mirror, Option.isSome_map, Option.map_eq_none_iff] at h h'
    refine Classical.byContradiction fun hn => ?_
    simp only [Even, not_or] at hn
    rw [if_neg hn.1] at h h'
    obtain ⟨rfl, -⟩ := h
    obtain ⟨h1, rfl, -⟩ := h'
    cases hb : findL c b with
    | none => exact hn.2 ⟨hb, h1⟩
    | some p =>
      simp [insert, hb, h1, Out.mirror, SameOut, ofPair, mapLeft, mapRight] at hoo
  case swapRightOrInsert a b l =>
    simp only [Step, Op.mirror, findL_mirror, Option.isSome_map] at h h'
    refine Classical.byContradiction fun hn => ?_
    simp only [Even, not_or] at hn
    rw [if_neg hn.1] at h h'
    obtain ⟨h1, rfl, -⟩ := h
    obtain ⟨rfl, -⟩ := h'
    cases hb : findR c b with
    | none => exact hn.2 ⟨hb, h1⟩
    | some p =>
      simp [insert, hb, h1, findL_mirror, findR_mirror, Out.mirror, SameOut, ofPair, mapLeft, mapRight] at hoo

end Verif.CycleSpec
