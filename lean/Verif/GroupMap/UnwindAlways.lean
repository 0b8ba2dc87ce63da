import Verif.GroupMap.UnwindFollows
/-! What holds of every `GroupMap` also after calls that ended with a panic: each item is stored under its own hash and
left items are pairwise different.  (Ids may be in use twice then.) -/
set_option linter.unusedSectionVars false
set_option linter.unusedSimpArgs false
namespace Verif.GroupMap
open GroupSpec Unw
open CycleMap (bind_ok)

variable [RawImpl] [LawfulRaw] {L R : Type} [BEq L] [BEq R] [EquivBEq L] [EquivBEq R]
variable {m m' : GroupMap L R} {hb : BuildHasher L R}

def DiffL (a b : LeftItem L) : Prop := (a.value == b.value) = false
def AnyR (_ _ : RightItem R) : Prop := True

theorem DiffL.symm (a b : LeftItem L) (h : DiffL a b) : DiffL b a := by rw [DiffL, BEq.comm]; exact h
omit [RawImpl] [LawfulRaw] [BEq R] [EquivBEq R] in
theorem AnyR.symm (a b : RightItem R) (_ : AnyR a b) : AnyR b a := trivial

/-- left items under their own hash, pairwise different, with `Q` -/
abbrev OwnL (hb : BuildHasher L R) (Q : LeftItem L → Prop) (t : RawTable (LeftItem L)) : Prop :=
  RawTable.Keyed (·.hashWith hb.hl) DiffL Q t

/-- right items under their own hash -/
abbrev OwnR (hb : BuildHasher L R) (t : RawTable (RightItem R)) : Prop :=
  RawTable.Keyed (·.hashWith hb.hr) AnyR (fun _ => True) t

/-- what every `GroupMap` made with `hb` satisfies -/
structure Sane (hb : BuildHasher L R) (m : GroupMap L R) : Prop where
  left : OwnL hb (fun _ => True) m.left
  right : OwnR hb m.right
  hb : m.hb = hb

variable {Q : LeftItem L → Prop}

theorem OwnL.write {t : RawTable (LeftItem L)} (ht : OwnL hb (fun _ => True) t) {h p x w}
    (e : t.getMut h p = some (x, w)) {a : UInt64} {i : Nat} : OwnL hb (fun _ => True) (w { x with hash := a, rid := i }) :=
  RawTable.Keyed.write (v := { x with hash := a, rid := i }) DiffL.symm ht e rfl (fun _ h => h) (fun h => h)

theorem OwnR.write {t : RawTable (RightItem R)} (ht : OwnR hb t) {h p x w}
    (e : t.getMut h p = some (x, w)) {s : PairSet} : OwnR hb (w { x with pairs := s }) :=
  RawTable.Keyed.write (v := { x with pairs := s }) AnyR.symm ht e rfl (fun _ h => h) (fun h => h)

/-- a left item is put in that equals none of the others -/
theorem OwnL.add {t : RawTable (LeftItem L)} {l : L} (ht : OwnL hb (fun x => (l == x.value) = false) t) (a : UInt64) (i j : Nat) :
    OwnL hb (fun _ => True) (t.insert (hb.hl l) ⟨l, a, i, j⟩ (·.hashWith hb.hl)) :=
  RawTable.Keyed.inserted (hash := (·.hashWith hb.hl)) (v := ⟨l, a, i, j⟩) DiffL.symm
    (ht.mono fun _ _ => trivial) (fun e he => ht.all e he) trivial

theorem OwnR.add {t : RawTable (RightItem R)} (ht : OwnR hb t) (r : R) (s : PairSet) (i : Nat) :
    OwnR hb (t.insert (hb.hr r) ⟨r, s, i⟩ (·.hashWith hb.hr)) :=
  RawTable.Keyed.inserted (hash := (·.hashWith hb.hr)) (v := ⟨r, s, i⟩) AnyR.symm ht (fun _ _ => trivial) trivial

theorem OwnL.interrupted {t : RawTable (LeftItem L)} (ht : OwnL hb Q t) (s) : OwnL hb Q (t.interrupted s (·.hashWith hb.hl)) :=
  RawTable.Keyed.interrupted DiffL.symm ht s

theorem OwnR.interrupted {t : RawTable (RightItem R)} (ht : OwnR hb t) (s) : OwnR hb (t.interrupted s (·.hashWith hb.hr)) :=
  RawTable.Keyed.interrupted AnyR.symm ht s

theorem OwnL.absent {t : RawTable (LeftItem L)} (ht : OwnL hb Q t) {l : L}
    (hn : t.getMut (hb.hl l) (equivalentKeyLeft l) = none) : OwnL hb (fun x => (l == x.value) = false) t :=
  ⟨ht.hash, ht.apart, fun e he => BEq.symm_false (ht.absent_getMut (hash_left hb l) hn e he)⟩

/-- every way a call can end leaves such a map -/
abbrev Keeps {α : Type} (hb : BuildHasher L R) (x : Unw (GroupMap L R) α) (m : GroupMap L R) : Prop :=
  Ends x m (fun _ m' => Sane hb m') (fun _ m' => Sane hb m')

theorem Keeps.map {α β : Type} {x : Unw (GroupMap L R) α} {g : α → β} (h : Keeps hb x m) : Keeps hb (do return g (← x)) m :=
  Ends.bind h fun _ _ e => Ends.pure e

theorem Keeps.void {β : Type} {x : Unw (GroupMap L R) Unit} {b : β} (h : Keeps hb x m) : Keeps hb (do x; return b) m :=
  Ends.bind h fun _ _ e => Ends.pure e

theorem ends_set {J : Unit → GroupMap L R → Prop} {I : Option Panic → GroupMap L R → Prop} {n : GroupMap L R} (h : J () n) :
    Ends (Unw.set n) m J I (fun _ => True) := fun _ _ => ⟨rfl, h⟩

theorem arePairedU_keeps (h : Sane hb m) (l : L) (r : R) : Ends (arePairedU l r) m (fun _ m' => m' = m) (fun _ m' => Sane hb m') :=
  .user_bind h <| .user_bind h <| .user_bind h <| .user_bind h <| .get_bind <| .pure rfl

/-- after `remove_left` no left item equals the given one -/
theorem removeLeftU_keeps (h : Sane hb m) (l : L) :
    Ends (removeLeftU l) m (fun _ m' => Sane hb m' ∧ OwnL hb (fun x => (l == x.value) = false) m'.left) (fun _ m' => Sane hb m') := by
  obtain ⟨hl, hr, rfl⟩ := h
  have h : Sane m.hb m := ⟨hl, hr, rfl⟩
  refine .user_bind h <| .user_bind h <| .get_bind ?_
  simp only
  cases h1 : m.left.removeEntry (m.hb.hl l) (equivalentKeyLeft l) with
  | none => exact .pure ⟨h, hl.hash, hl.apart, fun e he => BEq.symm_false (hl.absent_removeEntry (hash_left m.hb l) h1 e he)⟩
  | some x =>
    obtain ⟨c1, c2, c3, c4⟩ := hl.removed DiffL.symm h1
    refine .set_bind ?_
    cases h2 : m.right.getMut x.1.hash (rightWithLeftPair (m.hb.hl l, x.1.id)) with
    | none => exact .fail ⟨c1, hr, rfl⟩
    | some y =>
      refine .set_bind <| .pure ⟨⟨c1, hr.write h2, rfl⟩, c1.hash, c1.apart, fun e he => ?_⟩
      rw [BEq.congr_left (BEq.symm (show (x.1.value == l) = true from c2))]; exact c4 e he

/-- a call that takes left items away -/
abbrev Takes (hb : BuildHasher L R) (Q : LeftItem L → Prop) {α : Type} (x : Unw (GroupMap L R) α) (m : GroupMap L R) : Prop :=
  Ends x m (fun _ m' => Sane hb m' ∧ OwnL hb Q m'.left) (fun _ m' => Sane hb m')

theorem removeAllU_keeps (b : Bool) (ks : List (UInt64 × Nat)) (h : Sane hb m) (hQ : OwnL hb Q m.left) :
    Takes hb Q (removeAllU b ks) m := by
  induction ks generalizing m with
  | nil => exact .pure ⟨h, hQ⟩
  | cons k ks ih =>
    refine .get_bind ?_
    cases h1 : m.left.removeEntry k.1 (leftWithLeftId k.2) with
    | none => exact .fail h
    | some x =>
      obtain ⟨c1, -⟩ := h.left.removed DiffL.symm h1
      obtain ⟨c2, -⟩ := hQ.removed DiffL.symm h1
      have h' : Sane hb { m with left := x.2 } := ⟨c1, h.right, h.hb⟩
      refine .set_bind ?_
      cases b
      · exact (ih h' c2).bind fun _ _ e => .pure e
      · exact .user_bind h' <| .user_bind h' <| (ih h' c2).bind fun _ _ e => .pure e

theorem removeRightU_keeps (r : R) (h : Sane hb m) (hQ : OwnL hb Q m.left) : Takes hb Q (removeRightU r) m := by
  refine .user_bind h <| .user_bind h <| .get_bind ?_
  cases h1 : m.right.removeEntry (m.hb.hr r) (equivalentKeyRight r) with
  | none => exact .pure ⟨h, hQ⟩
  | some x =>
    refine .set_bind <| Ends.bind (removeAllU_keeps true _ ?_ ?_) fun _ _ e => .pure e
    · exact ⟨h.left, (h.right.removed AnyR.symm h1).1, h.hb⟩
    · exact hQ

theorem removeViaHashAndIdU_keeps (a : UInt64) (i : Nat) (h : Sane hb m) : Keeps hb (removeViaHashAndIdU a i) m := by
  refine .get_bind ?_
  cases h1 : m.right.removeEntry a (rightWithRightId i) with
  | none => exact .pure h
  | some x =>
    refine .set_bind <| Ends.bind (removeAllU_keeps (Q := fun _ => True) false _ ?_ ?_) fun _ _ e => .pure e.1
    · exact ⟨h.left, (h.right.removed AnyR.symm h1).1, h.hb⟩
    · exact h.left

theorem removeU_keeps (h : Sane hb m) (l : L) (r : R) : Keeps hb (removeU l r) m := by
  refine (arePairedU_keeps h l r).bind ?_
  rintro b _ rfl
  split
  · exact (removeRightU_keeps r h h.left).mono (fun _ _ e => e.1) fun _ _ e => e
  · exact .pure h

theorem insertU_keeps (h : Sane hb m) (l : L) (r : R) : Keeps hb (insertU l r) m := by
  obtain ⟨hl, hr, rfl⟩ := h
  have h : Sane m.hb m := ⟨hl, hr, rfl⟩
  refine .user_bind h <| .user_bind h <| .user_bind h <| .user_bind h <| .get_bind ?_
  simp only
  cases h1 : m.left.getMut (m.hb.hl l) (equivalentKeyLeft l) with
  | none =>
    have k := OwnL.add (hl.absent h1) (m.hb.hr r)
    cases h2 : m.right.getMut (m.hb.hr r) (equivalentKeyRight r) with
    | none =>
      refine RawTable.ends_grow_bind (fun _ s _ => ⟨hl.interrupted _, hr, rfl⟩) <| .get_bind <|
        RawTable.ends_grow_bind (fun _ s _ => ⟨k _ _, hr.interrupted _, rfl⟩) <| .get_bind <| ends_set ?_
      exact ⟨k _ _, hr.add _ _ _, rfl⟩
    | some y =>
      refine .set_bind <| RawTable.ends_grow_bind (fun _ s _ => ⟨hl.interrupted _, hr.write h2, rfl⟩) <| .get_bind <|
        ends_set ?_
      exact ⟨k _ _, hr.write h2, rfl⟩
  | some x =>
    cases h2 : m.right.getMut (m.hb.hr r) (equivalentKeyRight r) with
    | none =>
      simp only
      cases h3 : m.right.getMut x.1.hash (rightWithLeftPair (m.hb.hl l, x.1.id)) with
      | none => exact .fail h
      | some y =>
        refine .set_bind <| RawTable.ends_grow_bind (fun _ s _ => ⟨hl.write h1, (hr.write h3).interrupted _, rfl⟩) <| .get_bind <|
          ends_set ?_
        exact ⟨hl.write h1, (hr.write h3).add _ _ _, rfl⟩
    | some y =>
      refine .set_bind ?_
      cases h3 : (y.2 { y.1 with pairs := y.1.pairs.insert (m.hb.hl l, x.1.id) }).getMut x.1.hash (rightWithRightId x.1.rid) with
      | none => exact .fail ⟨hl, hr.write h2, rfl⟩
      | some z => exact ends_set ⟨hl.write h1, (hr.write h2).write h3, rfl⟩

theorem insertRemoveU_keeps (h : Sane hb m) (l : L) (r : R) : Keeps hb (insertRemoveU l r) m := by
  refine (removeLeftU_keeps h l).bind fun _ m1 h1 => (removeRightU_keeps r h1.1 h1.2).bind fun _ m2 h2 => ?_
  obtain ⟨⟨hl, hr, rfl⟩, hQ⟩ := h2
  have h2 : Sane m2.hb m2 := ⟨hl, hr, rfl⟩
  have k := OwnL.add hQ (m2.hb.hr r) m2.rightCounter m2.leftCounter
  refine .user_bind h2 <| .user_bind h2 <| .get_bind <|
    RawTable.ends_grow_bind (fun _ s _ => ⟨hl.interrupted _, hr, rfl⟩) <| .get_bind <|
    RawTable.ends_grow_bind (fun _ s _ => ⟨k, hr.interrupted _, rfl⟩) <| .pure ⟨k, hr.add _ _ _, rfl⟩

theorem insertLeftU_keeps (h : Sane hb m) (l : L) (r : R) : Keeps hb (insertLeftU l r) m := by
  refine .user_bind h <| .user_bind h <| .get_bind ?_
  simp only
  cases h1 : m.right.getMut (m.hb.hr r) (equivalentKeyRight r) with
  | none => exact .pure h
  | some y =>
    refine .user_bind h <| .set_bind <| Ends.bind (removeLeftU_keeps ?_ l) fun _ m1 h1 => ?_
    · exact ⟨h.left, h.right.write h1, h.hb⟩
    · obtain ⟨⟨hl, hr, e⟩, hQ⟩ := h1
      have k := OwnL.add hQ (m.hb.hr r) y.1.id m1.leftCounter
      rw [show m.hb = m1.hb from h.hb.trans e.symm]
      subst e
      rw [show m.hb = m1.hb from h.hb] at k
      exact .get_bind <| RawTable.ends_grow_bind (fun _ s _ => ⟨hl.interrupted _, hr, rfl⟩) <| .pure ⟨k, hr, rfl⟩

theorem insertRightU_keeps (h : Sane hb m) (r : R) : Keeps hb (insertRightU r) m := by
  refine (removeRightU_keeps r h h.left).bind fun _ m1 h1 => ?_
  obtain ⟨⟨hl, hr, rfl⟩, -⟩ := h1
  exact .user_bind ⟨hl, hr, rfl⟩ <| .get_bind <|
    RawTable.ends_grow_bind (fun _ s _ => ⟨hl, hr.interrupted _, rfl⟩) <| .pure ⟨hl, hr.add _ _ _, rfl⟩

theorem rehashAllU_keeps (a : UInt64) (ks : List (UInt64 × Nat)) (h : Sane hb m) : Keeps hb (rehashAllU a ks) m := by
  induction ks generalizing m with
  | nil => exact .pure h
  | cons k ks ih =>
    refine .get_bind ?_
    cases h1 : m.left.getMut k.1 (leftWithLeftId k.2) with
    | none => exact .fail h
    | some x => exact .set_bind <| ih ⟨h.left.write h1, h.right, h.hb⟩

theorem swapRightU_keeps (h : Sane hb m) (a b : R) : Keeps hb (swapRightU a b) m := by
  refine .user_bind h <| .user_bind h <| .get_bind ?_
  cases h1 : m.right.getMut (m.hb.hr a) (equivalentKeyRight a) with
  | none => exact (insertRightU_keeps h b).bind fun _ _ e => .pure e
  | some y =>
    obtain ⟨hl, hr, rfl⟩ := h
    refine .set_bind <| .user_bind ⟨hl, hr.write h1, rfl⟩ <|
      RawTable.ends_grow_bind (fun _ s _ => ⟨hl, (hr.write h1).interrupted _, rfl⟩) <| .get_bind <| .set_bind <|
      rehashAllU_keeps _ _ ⟨hl, (hr.write h1).add _ _ _, rfl⟩

theorem swapRightRemoveU_keeps (h : Sane hb m) (a b : R) : Keeps hb (swapRightRemoveU a b) m := by
  refine .user_bind h <| .user_bind h <| .get_bind ?_
  cases h1 : m.right.removeEntry (m.hb.hr a) (equivalentKeyRight a) with
  | none => exact (insertRightU_keeps h b).bind fun _ _ e => .pure e
  | some y =>
    obtain ⟨hl, hr, rfl⟩ := h
    have hy := (hr.removed AnyR.symm h1).1
    refine .set_bind <| .user_bind ⟨hl, hy, rfl⟩ <|
      RawTable.ends_grow_bind (fun _ s _ => ⟨hl, OwnR.interrupted hy _, rfl⟩) <| .get_bind <| .set_bind <|
      Ends.bind (rehashAllU_keeps _ _ ?_) fun _ _ e => .pure e
    exact ⟨hl, OwnR.add hy _ _ _, rfl⟩

theorem pairU_keeps (h : Sane hb m) (l : L) (r : R) : Keeps hb (pairU l r) m := by
  refine .user_bind h <| .user_bind h <| .user_bind h <| .user_bind h <| .get_bind ?_
  simp only
  cases h1 : m.left.getMut (m.hb.hl l) (equivalentKeyLeft l) with
  | none => exact .pure h
  | some x =>
    cases m.right.get (m.hb.hr r) (equivalentKeyRight r) with
    | none => exact .pure h
    | some y =>
      refine .set_bind ?_
      cases h2 : m.right.getMut x.1.hash (rightWithRightId x.1.rid) with
      | none => exact .fail ⟨h.left.write h1, h.right, h.hb⟩
      | some z =>
        have i : Sane hb { m with
            left := x.2 { x.1 with hash := m.hb.hr r, rid := y.id },
            right := z.2 { z.1 with pairs := z.1.pairs.remove (m.hb.hl l, x.1.id) } } :=
          ⟨h.left.write h1, h.right.write h2, h.hb⟩
        refine .set_bind <| .user_bind i ?_
        cases h3 : (z.2 { z.1 with pairs := z.1.pairs.remove (m.hb.hl l, x.1.id) }).getMut (m.hb.hr r) (equivalentKeyRight r) with
        | none => exact .fail i
        | some w => exact .set_bind <| .pure ⟨h.left.write h1, (h.right.write h2).write h3, h.hb⟩

theorem retainPairedScanU_keeps {σ : Type} (h : Sane hb m) (f : σ → L → R → Option Bool × σ) (ls : List (LeftItem L)) (st : σ) :
    Ends (retainPairedScanU f ls st) m (fun _ m' => m' = m) (fun _ m' => Sane hb m') := by
  induction ls generalizing st with
  | nil => exact .pure rfl
  | cons l ls ih =>
    refine .get_bind ?_
    cases m.right.get l.hash (rightWithRightId l.rid) with
    | none => exact .fail h
    | some r =>
      simp only
      cases h2 : f st l.value r.value with
      | mk o st' =>
        cases o with
        | none => exact fun _ _ => h
        | some o =>
          cases o
          · exact ih st'
          · refine .user_bind h <| .user_bind h ?_
            split
            · exact .fail h
            · refine (ih st').bind ?_
              rintro ps _ rfl
              exact .pure rfl

theorem retainPairedDrop_own {ks : List (UInt64 × Nat)} {t : RawTable (LeftItem L)} (ht : OwnL hb Q t) :
    OwnL hb Q (retainPairedDrop t ks) := by
  induction ks generalizing t with
  | nil => exact ht
  | cons k ks ih =>
    simp only [retainPairedDrop]
    split
    · exact ih ht
    · rename_i h1
      exact ih (ht.removed DiffL.symm h1).1

theorem retainPairedU_keeps {σ : Type} (h : Sane hb m) (f : σ → L → R → Option Bool × σ) (st : σ) :
    Keeps hb (retainPairedU f st) m := by
  refine .get_bind <| (retainPairedScanU_keeps h f _ st).bind ?_
  rintro ks _ rfl
  exact ends_set ⟨retainPairedDrop_own h.left, h.right, h.hb⟩

theorem retainUnpairedScanU_keeps {σ : Type} (h : Sane hb m) (f : σ → R → Option Bool × σ) (ls : List R) (st : σ) :
    Ends (retainUnpairedScanU f ls st) m (fun _ m' => m' = m) (fun _ m' => Sane hb m') := by
  induction ls generalizing st with
  | nil => exact .pure rfl
  | cons r ls ih =>
    simp only [retainUnpairedScanU]
    cases h2 : f st r with
    | mk o st' =>
      cases o with
      | none => exact fun _ _ => h
      | some o =>
        cases o
        · exact ih st'
        · refine .user_bind h <| .user_bind h <| .get_bind ?_
          split
          · exact .fail h
          · refine (ih st').bind ?_
            rintro ps _ rfl
            exact .pure rfl

theorem retainUnpairedDropU_keeps (h : Sane hb m) (ks : List (UInt64 × Nat)) : Keeps hb (retainUnpairedDropU ks) m := by
  induction ks generalizing m with
  | nil => exact .pure h
  | cons k ks ih => exact (removeViaHashAndIdU_keeps k.1 k.2 h).bind fun _ _ e => ih e

theorem retainUnpairedU_keeps {σ : Type} (h : Sane hb m) (f : σ → R → Option Bool × σ) (st : σ) :
    Keeps hb (retainUnpairedU f st) m := by
  refine .get_bind <| (retainUnpairedScanU_keeps h f _ st).bind ?_
  rintro ks _ rfl
  exact retainUnpairedDropU_keeps h ks

theorem user_keeps (h : Sane hb m) : Keeps hb Unw.user m :=
  (Ends.user h).mono (fun _ _ e => e ▸ h) fun _ _ e => e

theorem extendU_keeps (h : Sane hb m) (xs : List (L × R)) : Keeps hb (extendU xs) m := by
  induction xs generalizing m with
  | nil => exact user_keeps h
  | cons x xs ih => exact .user_bind h <| (insertU_keeps h x.1 x.2).bind fun _ _ e => ih e

theorem extendOptU_keeps (h : Sane hb m) (xs : List (Option L × R)) : Keeps hb (extendOptU xs) m := by
  induction xs generalizing m with
  | nil => exact user_keeps h
  | cons x xs ih =>
    obtain ⟨o, r⟩ := x
    cases o with
    | some l => exact .user_bind h <| (insertU_keeps h l r).bind fun _ _ e => ih e
    | none => exact .user_bind h <| (insertRightU_keeps h r).bind fun _ _ e => ih e

theorem quiet_keeps {α : Type} (h : Sane hb m) (r : GroupMap L R → Res α) : Keeps hb (quiet r) m := by
  refine .get_bind ?_
  cases r m
  · exact .fail h
  · exact .pure h

theorem clone_sane (h : Sane hb m) {cl : L → L} {cr : R → R} (hl : ∀ x, (cl x == x) = true)
    (hr : ∀ x, (cr x == x) = true) : Sane hb (m.clone cl cr) where
  left := by
    refine ⟨?_, ?_, fun _ _ => trivial⟩
    · intro e he
      obtain ⟨a, ha, rfl⟩ := List.mem_map.1 he
      exact (hb.hl_congr _ _ (hl _)).trans (h.left.hash a ha)
    · refine List.pairwise_map.2 (h.left.apart.imp fun {a b} hab => ?_)
      show (cl a.2.value == cl b.2.value) = false
      rw [BEq.congr_left (hl _), BEq.congr_right (hl _)]
      exact hab
  right := by
    refine ⟨?_, List.pairwise_iff_getElem.2 fun _ _ _ _ _ => trivial, fun _ _ => trivial⟩
    intro e he
    obtain ⟨a, ha, rfl⟩ := List.mem_map.1 he
    exact (hb.hr_congr _ _ (hr _)).trans (h.right.hash a ha)
  hb := h.hb

/-- the clones made by a history use lawful `Clone` implementations -/
def LawfulCalls (calls : List (Fate × Call L R)) : Prop :=
  ∀ f cl cr, (f, Call.plain (.clone cl cr)) ∈ calls → (∀ x, (cl x == x) = true) ∧ (∀ x, (cr x == x) = true)

theorem callU_keeps (h : Sane hb m) (f : Fate) (call : Call L R) (hc : LawfulCalls [(f, call)]) : Keeps hb (callU call) m := by
  cases call with
  | plain op =>
    cases op
    case insert l r => exact .void (insertU_keeps h l r)
    case insertRemove l r => exact (insertRemoveU_keeps h l r).bind fun _ _ e => .pure e
    case insertLeft l r => exact .map (insertLeftU_keeps h l r)
    case insertRight r => exact .map (insertRightU_keeps h r)
    case swapRight a b => exact .void (swapRightU_keeps h a b)
    case swapRightRemove a b => exact .map (swapRightRemoveU_keeps h a b)
    case pair l r => exact .map (pairU_keeps h l r)
    case remove l r => exact .map (removeU_keeps h l r)
    case removeLeft l => exact (removeLeftU_keeps h l).bind fun _ _ e => .pure e.1
    case removeRight r => exact (removeRightU_keeps r h h.left).bind fun _ _ e => .pure e.1
    case getRight => exact .user_bind h <| .user_bind h <| .get_bind <| .pure h
    case getLeftIter r => exact .user_bind h <| .user_bind h <| Keeps.map (quiet_keeps h _)
    case containsLeft => exact .user_bind h <| .user_bind h <| .get_bind <| .pure h
    case containsRight => exact .user_bind h <| .user_bind h <| .get_bind <| .pure h
    case isRightPaired => exact .user_bind h <| .user_bind h <| .get_bind <| .pure h
    case arePaired l r => exact (arePairedU_keeps h l r).bind fun _ _ e => .pure (e ▸ h)
    case lenLeft => exact .get_bind <| .pure h
    case lenRight => exact .get_bind <| .pure h
    case isEmpty => exact .get_bind <| .pure h
    case clear =>
      exact .get_bind <| .set_bind <| .pure ⟨.of_nil (RawTable.clear_entries _), .of_nil (RawTable.clear_entries _), h.hb⟩
    case iter => exact .map (quiet_keeps h _)
    case iterPaired => exact .map (quiet_keeps h _)
    case iterUnpaired => exact .get_bind <| .pure h
    case iterLeft => exact .get_bind <| .pure h
    case iterRight => exact .get_bind <| .pure h
    case retainPaired σ f s => exact .void (retainPairedU_keeps h _ s)
    case retainUnpaired σ f s => exact .void (retainUnpairedU_keeps h _ s)
    case extend xs => exact .void (extendU_keeps h xs)
    case extendOpt xs => exact .void (extendOptU_keeps h xs)
    case clone cl cr =>
      obtain ⟨h1, h2⟩ := hc f cl cr (by simp)
      exact .user_bind h <| .get_bind <| .set_bind <| .pure (clone_sane h h1 h2)
  | retainPaired σ g s => exact .void (retainPairedU_keeps h g s)
  | retainUnpaired σ g s => exact .void (retainUnpairedU_keeps h g s)

theorem runU_sane {calls : List (Fate × Call L R)} (h : Sane hb m) (hc : LawfulCalls calls) (e : m.runU calls = some m') :
    Sane hb m' := by
  induction calls generalizing m with
  | nil => cases e; exact h
  | cons c calls ih =>
    obtain ⟨f, call⟩ := c
    simp only [runU] at e
    have h1 := callU_keeps h f call (fun f cl cr hm => hc f cl cr (by
      rcases List.mem_cons.1 hm with hm | hm
      · rw [← hm]; exact List.mem_cons_self
      · cases hm)) f trivial
    have hc' : LawfulCalls calls := fun f cl cr hm => hc f cl cr (List.mem_cons_of_mem _ hm)
    cases h2 : callU call f m with
    | done a f' m1 => rw [h2] at e h1; exact ih h1.2 hc' e
    | panic w m1 => rw [h2] at e h1; exact ih h1 hc' e
    | abort => rw [h2] at e; cases e

theorem withCapacity_sane (n : Nat) (hb : BuildHasher L R) : Sane hb (withCapacityAndHasher n hb) :=
  ⟨.of_nil (RawTable.withCapacity_entries _), .of_nil (RawTable.withCapacity_entries _), rfl⟩

end Verif.GroupMap
