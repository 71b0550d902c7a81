import Verif.UObj.Inv

/-!
C179-C182: the names of objects, the release of their data, `Info.named`.
-/

namespace Verif.UObj

open Verif.Pkg (decN isDigit val numeral_decN)

/-- The interpreter after a history. -/
def after (ops : List Op) : St := run start ops

theorem inv_after (ops : List Op) : Inv (after ops) := inv_run ops inv_start

/-! ### Reading a name -/

theorem lastBar_none : ∀ {s : Str}, (95 : UInt8) ∉ s → lastBar s = none
  | [], _ => rfl
  | c :: s, h => by
    simp only [List.mem_cons, not_or] at h
    rw [lastBar, lastBar_none h.2]
    simp only [if_neg (fun e : c = 95 => h.1 e.symm)]

theorem lastBar_append : ∀ (a : Str) {b : Str}, (95 : UInt8) ∉ b → lastBar (a ++ 95 :: b) = some (a, b)
  | [], b, h => by rw [List.nil_append, lastBar, lastBar_none h]; rfl
  | c :: a, b, h => by rw [List.cons_append, lastBar, lastBar_append a h]

theorem lastBar_sound : ∀ {s : Str} {q : Str × Str}, lastBar s = some q → s = q.1 ++ 95 :: q.2 ∧ (95 : UInt8) ∉ q.2
  | [], q, h => by cases h
  | c :: s, q, h => by
    rw [lastBar] at h
    cases hl : lastBar s with
    | some p =>
      rw [hl] at h
      simp only [Option.some.injEq] at h
      subst h
      obtain ⟨h1, h2⟩ := lastBar_sound hl
      exact ⟨by rw [h1]; rfl, h2⟩
    | none =>
      rw [hl] at h
      simp only [] at h
      split at h
      · rename_i hc
        injection h with h
        subst h
        subst hc
        refine ⟨rfl, ?_⟩
        exact bar_of_none hl
      · cases h
where
  bar_of_none : ∀ {s : Str}, lastBar s = none → (95 : UInt8) ∉ s
    | [], _ => by simp
    | c :: s, h => by
      rw [lastBar] at h
      cases hl : lastBar s with
      | some p => rw [hl] at h; cases h
      | none =>
        rw [hl] at h
        simp only [] at h
        split at h
        · cases h
        · rename_i hc
          simp only [List.mem_cons, not_or]
          exact ⟨fun e => hc e.symm, bar_of_none hl⟩

theorem digit_not {c d : UInt8} (h : isDigit c = true) (hd : isDigit d = false) : c ≠ d := by
  intro e; rw [e, hd] at h; cases h

theorem bar_decN (n : Nat) : (95 : UInt8) ∉ decN n :=
  fun h => absurd rfl (digit_not ((numeral_decN n).2.1 _ h) (by decide))

theorem takeWhile_all {s : Str} {p : UInt8 → Bool} (h : ∀ c ∈ s, p c = true) : s.takeWhile p = s := by
  induction s with
  | nil => rfl
  | cons c s ih => rw [List.takeWhile_cons, h c (by simp)]; simp [ih (fun x hx => h x (by simp [hx]))]

/-- `atoi` of digits, up to the largest `int`. -/
theorem atoi_digits {d : Str} (hd : ∀ c ∈ d, isDigit c = true) (hv : val d < 2 ^ 31) : atoi d = val d := by
  have h1 : d.dropWhile isSpace = d := by
    cases d with
    | nil => rfl
    | cons c s =>
      have hc := hd c (by simp)
      rw [List.dropWhile_cons]
      have : isSpace c = false := by
        unfold isDigit at hc
        unfold isSpace
        simp only [Bool.and_eq_true, decide_eq_true_eq] at hc
        have n1 : c ≠ 32 := by intro e; rw [e] at hc; revert hc; decide
        have n2 : ¬ c ≤ 13 := by
          intro e
          have : c.toNat ≤ 13 := e
          omega
        simp [n1, n2]
      rw [this]; rfl
  have h2 : signed d = strtol false d := by
    cases d with
    | nil => rfl
    | cons c s =>
      have hc := hd c (by simp)
      rw [signed, if_neg (digit_not hc (by decide)), if_neg (digit_not hc (by decide))]
  have h3 : strtol false d = val d := by
    unfold strtol
    rw [takeWhile_all hd]
    simp only [Bool.false_eq_true, if_false]
    have : min (val d) (2 ^ 63 - 1) = val d := by omega
    rw [this]
  unfold atoi int32
  rw [h1, h2, h3]
  omega

theorem entry_mem {ty : Ty} {i : Int} {o : Nat} (h : entry ty i = some o) : ∃ n : Nat, (n : Int) = i ∧ (n, o) ∈ ty.tbl := by
  unfold entry at h
  cases hf : ty.tbl.find? fun e => decide ((e.1 : Int) = i) with
  | none => rw [hf] at h; cases h
  | some e =>
    rw [hf] at h
    simp only [Option.map_some, Option.some.injEq] at h
    have h1 := List.mem_of_find?_eq_some hf
    have h2 := List.find?_some hf
    simp only [decide_eq_true_eq] at h2
    subst h
    exact ⟨e.1, h2, h1⟩

theorem entry_of_mem {ty : Ty} (hn : (ty.tbl.map fun e => e.1).Nodup) {i o : Nat} (h : (i, o) ∈ ty.tbl) :
    entry ty (i : Int) = some o := by
  cases he : entry ty (i : Int) with
  | none =>
    unfold entry at he
    simp only [Option.map_eq_none_iff, List.find?_eq_none, decide_eq_true_eq] at he
    exact absurd rfl (he _ h)
  | some x =>
    obtain ⟨n, h1, h2⟩ := entry_mem he
    have : n = i := by omega
    subst this
    rw [inv_free.nodup_snd hn h2 h]

/-! ### C179 -/

/-- C179: `Info.named(String(x))`, and wherever else an object is given by name, the name of an object leads back to it,
as long as the object exists; for up to 2^31-1 objects of a type. -/
theorem C179_back_partial (ops : List Op) (o : Nat) (u : UObj) (hg : (after ops).gone = false)
    (ho : (after ops).objs o = some u) (hi : u.idx < 2 ^ 31) : fromName (after ops) (toName u) = .obj o := by
  have h := inv_after ops
  obtain ⟨ty, h1, h2⟩ := h.link o u ho (h.live hg o u ho)
  have hl : lastBar (toName u) = some (35 :: u.type, decN u.idx) := by
    show lastBar ((35 :: u.type) ++ 95 :: decN u.idx) = _
    exact lastBar_append _ (bar_decN _)
  obtain ⟨-, d2, d3⟩ := numeral_decN u.idx
  unfold fromName
  rw [if_neg (by simp [toName]), hl]
  simp only [List.drop_one, List.tail_cons, tyOf_of_mem h.names h1]
  rw [atoi_digits d2 (by rw [d3]; exact hi), d3, entry_of_mem (h.keys _ _ h1) h2]

theorem toName_inj {u v : UObj} (h : toName u = toName v) : u.type = v.type ∧ u.idx = v.idx := by
  have h1 : lastBar (toName u) = some (35 :: u.type, decN u.idx) := lastBar_append (35 :: u.type) (bar_decN _)
  have h2 : lastBar (toName v) = some (35 :: v.type, decN v.idx) := lastBar_append (35 :: v.type) (bar_decN _)
  rw [h, h2] at h1
  injection h1 with h1
  injection h1 with h3 h4
  refine ⟨((List.cons.inj h3).2).symm, ?_⟩
  have e := (numeral_decN u.idx).2.2
  rw [← h4, (numeral_decN v.idx).2.2] at e
  exact e.symm

/-- C179: two objects that exist have different names. -/
theorem C179_distinct (ops : List Op) (o o' : Nat) (u u' : UObj) (hg : (after ops).gone = false)
    (ho : (after ops).objs o = some u) (ho' : (after ops).objs o' = some u') (hn : toName u = toName u') : o = o' := by
  have h := inv_after ops
  obtain ⟨h1, h2⟩ := toName_inj hn
  obtain ⟨ty, h3, h4⟩ := h.link o u ho (h.live hg o u ho)
  obtain ⟨ty', h5, h6⟩ := h.link o' u' ho' (h.live hg o' u' ho')
  rw [← h1] at h5
  have := mem_unique h.names h3 h5
  subst this
  rw [h2] at h4
  exact inv_free.nodup_snd (h.keys _ _ h3) h4 h6

/-- The number of objects of a type made so far. -/
def made (st : St) (t : Str) : Nat := match tyOf st.types t with
  | some ty => ty.idx
  | none => 0

theorem gone_step {st : St} (h : st.gone = true) (op : Op) : (step st op).gone = true := by
  cases op with
  | register t => simp [step, register, h]
  | new t o => simp [step, new, h]
  | free o => simp only [step, free]; split <;> exact h
  | delete => rfl

theorem issued_gone : ∀ (ops : List Op) {st : St}, st.gone = true → issued st ops = []
  | [], _, _ => rfl
  | .register t :: l, st, h => issued_gone l (gone_step h (.register t))
  | .free o :: l, st, h => issued_gone l (gone_step h (.free o))
  | .delete :: l, st, h => issued_gone l (gone_step h .delete)
  | .new t o :: l, st, h => by
    have h1 : (new st t o).2 = none := by simp [new, h]
    rw [issued, h1]
    exact issued_gone l (gone_step h (.new t o))

/-- The counter of a type never goes down while there is an interpreter. -/
theorem tyOf_map_add {l : List (Str × Ty)} (t s : Str) (o : Nat) : tyOf (l.map (addTo t o)) s =
    (tyOf l s).map fun ty => if s = t then ⟨ty.idx + 1, (ty.idx + 1, o) :: ty.tbl⟩ else ty := by
  induction l with
  | nil => rfl
  | cons p l ih =>
    unfold tyOf at ih ⊢
    rw [List.map_cons, List.find?_cons, List.find?_cons, addTo_fst]
    by_cases hp : p.1 = s
    · simp only [hp, decide_true, Option.map_some, Option.some.injEq]
      unfold addTo
      rw [hp]
      split <;> rfl
    · simp only [hp, decide_false]
      exact ih

theorem tyOf_map_drop {l : List (Str × Ty)} (t s : Str) (i : Nat) : tyOf (l.map (dropFrom t i)) s =
    (tyOf l s).map fun ty => if s = t then ⟨ty.idx, ty.tbl.filter fun e => decide (e.1 ≠ i)⟩ else ty := by
  induction l with
  | nil => rfl
  | cons p l ih =>
    unfold tyOf at ih ⊢
    rw [List.map_cons, List.find?_cons, List.find?_cons, dropFrom_fst]
    by_cases hp : p.1 = s
    · simp only [hp, decide_true, Option.map_some, Option.some.injEq]
      unfold dropFrom
      rw [hp]
      split <;> rfl
    · simp only [hp, decide_false]
      exact ih

theorem made_register (st : St) (t s : Str) : made (register st t) s = made st s := by
  unfold register
  split
  · rfl
  · split
    · rfl
    · rename_i ht
      unfold made
      simp only [tyOf, List.find?_cons]
      by_cases hs : t = s
      · subst hs
        simp only [decide_true, Option.map_some]
        have : (st.types.find? fun p => decide (p.1 = t)).map (fun p => p.2) = none := ht
        rw [this]
      · simp only [hs, decide_false]

theorem made_new (st : St) (t s : Str) (o : Nat) : made (new st t o).1 s =
    match (new st t o).2 with
    | some _ => if s = t then made st s + 1 else made st s
    | none => made st s := by
  unfold new
  split
  · rfl
  · split
    · rfl
    · split
      · rfl
      · rename_i ty hty
        unfold made
        simp only [tyOf_map_add]
        by_cases hs : s = t
        · subst hs
          simp [hty]
        · cases tyOf st.types s <;> simp [hs]

theorem new_some {st : St} {t : Str} {o i : Nat} (h : (new st t o).2 = some i) : i = made st t + 1 := by
  unfold new at h
  split at h
  · cases h
  · split at h
    · cases h
    · split at h
      · cases h
      · rename_i ty hty
        simp only [Option.some.injEq] at h
        simp only [made, hty]
        exact h.symm

theorem made_free (st : St) (o : Nat) (s : Str) : made (free st o) s = made st s := by
  unfold free
  split
  · rfl
  · rename_i u _
    unfold made
    cases hl : u.linked with
    | false => simp only [Bool.false_eq_true, if_false]
    | true =>
      simp only [if_true, tyOf_map_drop]
      cases tyOf st.types s with
      | none => rfl
      | some ty =>
        simp only [Option.map_some]
        by_cases hs : s = u.type
        · rw [if_pos hs]
        · rw [if_neg hs]

/-- A name given out from a state on is above the counter of its type. -/
theorem issued_above : ∀ (ops : List Op) (st : St) (n : Str), n ∈ issued st ops →
    ∃ t i, n = toName ⟨t, i, none, true⟩ ∧ made st t < i
  | [], _, _, h => by simp [issued] at h
  | .register t :: l, st, n, h => by
    obtain ⟨s, i, h1, h2⟩ := issued_above l (register st t) n h
    exact ⟨s, i, h1, by rwa [made_register] at h2⟩
  | .free o :: l, st, n, h => by
    obtain ⟨s, i, h1, h2⟩ := issued_above l (free st o) n h
    exact ⟨s, i, h1, by rwa [made_free] at h2⟩
  | .delete :: l, st, n, h => by
    have e : issued st (.delete :: l) = [] := issued_gone l (show (step st .delete).gone = true from rfl)
    rw [e] at h
    cases h
  | .new t o :: l, st, n, h => by
    rw [issued] at h
    cases hn : (new st t o).2 with
    | none =>
      rw [hn] at h
      obtain ⟨s, i, h1, h2⟩ := issued_above l _ n h
      rw [made_new, hn] at h2
      exact ⟨s, i, h1, h2⟩
    | some j =>
      rw [hn] at h
      simp only [List.mem_cons] at h
      rcases h with h | h
      · exact ⟨t, j, h, by rw [new_some hn]; exact Nat.lt_succ_self _⟩
      · obtain ⟨s, i, h1, h2⟩ := issued_above l _ n h
        rw [made_new, hn] at h2
        refine ⟨s, i, h1, ?_⟩
        simp only [] at h2
        split at h2 <;> omega

theorem issued_nodup : ∀ (ops : List Op) (st : St), (issued st ops).Nodup
  | [], _ => by simp [issued]
  | .register t :: l, st => issued_nodup l (register st t)
  | .free o :: l, st => issued_nodup l (free st o)
  | .delete :: l, st => by
    have e : issued st (.delete :: l) = [] := issued_gone l (show (step st .delete).gone = true from rfl)
    rw [e]
    simp
  | .new t o :: l, st => by
    rw [issued]
    cases hn : (new st t o).2 with
    | none => exact issued_nodup l _
    | some j =>
      simp only [List.nodup_cons]
      refine ⟨fun hm => ?_, issued_nodup l _⟩
      obtain ⟨s, i, h1, h2⟩ := issued_above l _ _ hm
      obtain ⟨h3, h4⟩ := toName_inj h1
      simp only [] at h3 h4
      have h5 := new_some hn
      rw [made_new, hn] at h2
      simp only [← h3, if_true] at h2
      omega

/-- C179: no name is given twice, not even after the object has gone. -/
theorem C179_fresh (ops : List Op) : (issued start ops).Nodup := issued_nodup ops start

/-! ### C180 -/

/-- C180: the data of an object is released at most once, over the whole history. -/
theorem C180_once (ops : List Op) : (after ops).freed.Nodup := (inv_after ops).once

/-- C180: as long as the interpreter and the object exist, the object has its data, which has not been released and
belongs to no other object. -/
theorem C180_alive (ops : List Op) (o : Nat) (u : UObj) (hg : (after ops).gone = false)
    (ho : (after ops).objs o = some u) : ∃ d, u.data = some d ∧ d ∉ (after ops).freed ∧
      ∀ o' u', (after ops).objs o' = some u' → u'.data = some d → o' = o := by
  have h := inv_after ops
  obtain ⟨d, hd⟩ := h.data o u ho (h.live hg o u ho)
  exact ⟨d, hd, (h.held o u d ho hd).2, fun o' u' h1 h2 => h.inj o' o u' u d h1 ho h2 hd⟩

/-- C180: when the interpreter has been deleted, the data of all objects ever made has been released. -/
theorem C180_end (ops : List Op) (d : Nat) (hg : (after ops).gone = true) (hd : d < (after ops).nd) :
    d ∈ (after ops).freed := by
  have h := inv_after ops
  rcases h.all d hd with h1 | ⟨o, u, h1, h2⟩
  · exact h1
  · rw [(h.dead hg o u h1).1] at h2; cases h2

/-- C180: when the last reference to an object goes, its data is released. -/
theorem C180_free (ops : List Op) (o : Nat) (u : UObj) (d : Nat) (ho : (after ops).objs o = some u)
    (hd : u.data = some d) : d ∈ (after (ops ++ [.free o])).freed ∧ (after (ops ++ [.free o])).objs o = none := by
  have e : after (ops ++ [.free o]) = free (after ops) o := by simp [after, run, step]
  rw [e]
  unfold free
  rw [ho]
  simp [hd, upd]

/-- No block is used after it has been given back. -/
def Safe (l : List Mem) : Prop := ∀ a x b, l = a ++ .free x :: b → Mem.read x ∉ b ∧ Mem.free x ∉ b

/-- C180: withdrawing a type while the interpreter exists (unloading a module) reads and frees memory that has been
given back. -/
theorem C180_unregister_refuted (st : St) (t : Str) (ty : Ty) (hg : st.gone = false) (ht : tyOf st.types t = some ty) :
    ¬ Safe (unregister st t) := by
  intro h
  have e : unregister st t = [.read .entry, .read .reg, .read .tbl, .free .tbl] ++ Mem.free .reg ::
      [.free .entry, .read .entry, .free .reg] := by
    unfold unregister
    rw [ht]
    simp [hg]
  exact (h _ _ _ e).2 (by simp)

/-! ### C181 -/

/-- C181: `Info.named(type)` lists the objects of the type that exist, each once; it fails exactly for types that are
not in `Info.named()`. -/
theorem C181_listed (ops : List Op) (t : Str) (hg : (after ops).gone = false) :
    (named (after ops) t = none ↔ t ∉ namedTypes (after ops)) ∧
    ∀ l, named (after ops) t = some l → l.Nodup ∧ ∀ o, o ∈ l ↔ ∃ u, (after ops).objs o = some u ∧ u.type = t := by
  have h := inv_after ops
  unfold named namedTypes
  cases ht : tyOf (after ops).types t with
  | none => exact ⟨⟨fun _ => tyOf_none ht, fun _ => rfl⟩, (fun l e => by cases e)⟩
  | some ty =>
    have hm := tyOf_mem ht
    refine ⟨⟨(fun e => by cases e), fun e => absurd (List.mem_map.2 ⟨_, hm, rfl⟩) e⟩, ?_⟩
    intro l e
    simp only [Option.map_some, Option.some.injEq] at e
    subst e
    constructor
    · have hk := h.keys t ty hm
      have he := h.entry t ty hm
      revert hk he
      generalize ty.tbl = tbl
      intro hk he
      induction tbl with
      | nil => simp
      | cons p tbl ih =>
        simp only [List.map_cons, List.nodup_cons] at hk ⊢
        refine ⟨fun hx => ?_, ih hk.2 (fun i o hi => he i o (by simp [hi]))⟩
        obtain ⟨e, h1, h2⟩ := List.mem_map.1 hx
        obtain ⟨u, u1, -, u3, -⟩ := he p.1 p.2 (by simp)
        obtain ⟨v, v1, -, v3, -⟩ := he e.1 e.2 (by simp [h1])
        rw [h2, u1] at v1
        injection v1 with v1
        subst v1
        exact hk.1 (List.mem_map.2 ⟨e, h1, by rw [← v3, u3]⟩)
    · intro o
      constructor
      · intro hx
        obtain ⟨e, h1, h2⟩ := List.mem_map.1 hx
        obtain ⟨u, u1, u2, -⟩ := h.entry t ty hm e.1 e.2 h1
        rw [h2] at u1
        exact ⟨u, u1, u2⟩
      · rintro ⟨u, u1, u2⟩
        obtain ⟨ty', h1, h2⟩ := h.link o u u1 (h.live hg o u u1)
        rw [u2] at h1
        have := mem_unique h.names hm h1
        subst this
        exact List.mem_map.2 ⟨_, h2, rfl⟩

/-! ### C182 -/

/-- C182: what a text that begins with `#` leads to is an object that exists, whose type is the text up to the last `_`
and whose number is the number `atoi` finds behind. -/
theorem C182_sound (ops : List Op) (s : Str) (o : Nat) (h : fromName (after ops) s = .obj o) :
    ∃ u rest, (after ops).objs o = some u ∧ s = 35 :: (u.type ++ 95 :: rest) ∧ (95 : UInt8) ∉ rest ∧
      atoi rest = u.idx := by
  have hi := inv_after ops
  unfold fromName at h
  split at h
  · cases h
  rename_i hh
  split at h
  · cases h
  rename_i q hq
  split at h
  · cases h
  rename_i ty hty
  split at h
  · cases h
  rename_i x he
  injection h with h
  subst h
  obtain ⟨n, h1, h2⟩ := entry_mem he
  obtain ⟨u, u1, u2, u3, -⟩ := hi.entry _ _ (tyOf_mem hty) n x h2
  obtain ⟨h3, h4⟩ := lastBar_sound hq
  refine ⟨u, q.2, u1, ?_, h4, by rw [← h1, u3]⟩
  rw [u2]
  obtain ⟨a, b⟩ := q
  simp only [] at h3 ⊢
  cases a with
  | nil =>
    rw [h3] at hh
    exact absurd (by show (95 : UInt8) ≠ 35; decide) hh
  | cons c a =>
    rw [h3] at hh
    simp only [List.cons_append, List.headD_cons, ne_eq, Decidable.not_not] at hh
    rw [h3, hh]
    rfl

/-- C182: a text that begins with `#` and names no type of the interpreter ends the program:
`Info.named("#nosuch_1")`. -/
theorem C182_unknown_refuted (ops : List Op) (t d : Str) (ht : t ∉ namedTypes (after ops)) (hd : (95 : UInt8) ∉ d) :
    fromName (after ops) (35 :: (t ++ 95 :: d)) = .crash := by
  have hl : lastBar (35 :: (t ++ 95 :: d)) = some (35 :: t, d) := lastBar_append (35 :: t) hd
  have hn : tyOf (after ops).types t = none := by
    cases h : tyOf (after ops).types t with
    | none => rfl
    | some ty => exact absurd (List.mem_map.2 ⟨_, tyOf_mem h, rfl⟩) ht
  unfold fromName
  rw [if_neg (by simp), hl]
  simp only [List.drop_one, List.tail_cons, hn]

/-- A history with one file. -/
def oneFile : List Op := [.register (asc "Sqlite"), .register (asc "File"), .new (asc "File") 7]

/-- C182: texts that are no name of an object lead to one: what follows the digits is not looked at, and the number is
cut to 32 bits. -/
theorem C182_loose_refuted : fromName (after oneFile) (asc "#File_1junk") = .obj 7 ∧
    fromName (after oneFile) (asc "#File_ 01") = .obj 7 ∧ fromName (after oneFile) (asc "#File_4294967297") = .obj 7 := by
  decide +kernel

/-- The hypotheses can be met: an object with its name, released, and a second one with another name. -/
example : fromName (after oneFile) (asc "#File_1") = .obj 7 ∧ named (after oneFile) (asc "File") = some [7] ∧
    (after oneFile).gone = false ∧
    fromName (after (oneFile ++ [.free 7, .new (asc "File") 7])) (asc "#File_1") = .none ∧
    issued start (oneFile ++ [.free 7, .new (asc "File") 7]) = [asc "#File_1", asc "#File_2"] ∧
    (after (oneFile ++ [.free 7, .new (asc "File") 7])).freed = [0] ∧
    (after (oneFile ++ [.free 7, .new (asc "File") 7, .delete])).freed = [1, 0] ∧
    (after (oneFile ++ [.free 7, .new (asc "File") 7, .delete, .free 7])).freed = [1, 0] := by
  decide +kernel

end Verif.UObj
