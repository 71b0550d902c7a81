import Verif.Opt.Frame

/-!
C125 for options inside sub-options; C126 (a refused value changes nothing); C127 (a refused object of options).
-/

namespace Verif.Opt

open Verif.Value (Num roundNum one)

/-! ### C125, sub-options -/

mutual
/-- Every option that has this place in its field is locked, or is a group of options in which this is so. -/
def ClosedK (c : Call) : Kind → Nat → Loc → Prop
  | .sub s, a, l => Closed c s a l
  | k, a, l => ¬ Owns k a l
/-- The same for a table. -/
def Closed (c : Call) : Specs → Nat → Loc → Prop
  | .nil, _, _ => True
  | .cons _ o f k s, b, l => (Locked c f ∨ ClosedK c k (b + o) l) ∧ Closed c s b l
end

mutual
/-- There is no `null` among the values, at any depth. -/
def V.NoNull : V → Prop
  | .null => False
  | .obj m => m.NoNull
  | _ => True
def Mems.NoNull : Mems → Prop
  | .nil => True
  | .cons _ v m => v.NoNull ∧ m.NoNull
end

theorem Closed.mem {c : Call} {b : Nat} {l : Loc} : ∀ {s : Specs} {o : Opt}, Closed c s b l → o ∈ s.list →
    Locked c o.fl ∨ ClosedK c o.k (b + o.off) l
  | .nil, _, _, h => by simp [Specs.list] at h
  | .cons n f off k s, o, hc, h => by
    simp only [Closed] at hc
    simp only [Specs.list, List.mem_cons] at h
    rcases h with rfl | h
    · exact hc.1
    · exact Closed.mem hc.2 h

mutual
theorem setOpt_closed (c : Call) (k : Kind) (a : Nat) (v : V) (r : Rec) (l : Loc) (hk : k.Ok) (hu : c.update = true)
    (hn : v.NoNull) (h : ClosedK c k a l) : Same r (setOpt c k a v r).1 l := by
  cases k with
  | sub s =>
    simp only [Kind.Ok] at hk
    simp only [ClosedK] at h
    cases v with
    | obj ms =>
      simp only [V.NoNull] at hn
      simp only [setOpt, fin_fst]
      exact finish_same c s a _ l r hk (procLoop_closed c s a ms r l hk hu hn h) (Or.inl hu)
    | null => simp [V.NoNull] at hn
    | undef => simp only [setOpt]; exact Same.refl r l
    | bool _ => simp only [setOpt]; exact Same.refl r l
    | num _ => simp only [setOpt]; exact Same.refl r l
    | str _ => simp only [setOpt]; exact Same.refl r l
    | arr _ => simp only [setOpt]; exact Same.refl r l
    | func _ => simp only [setOpt]; exact Same.refl r l
  | bool => simp only [ClosedK] at h; simp only [setOpt]; exact setLeaf_same c _ a v r l hk h
  | int sg n => simp only [ClosedK] at h; simp only [setOpt]; exact setLeaf_same c _ a v r l hk h
  | number => simp only [ClosedK] at h; simp only [setOpt]; exact setLeaf_same c _ a v r l hk h
  | ref q => simp only [ClosedK] at h; simp only [setOpt]; exact setLeaf_same c _ a v r l hk h
  | strbuf n => simp only [ClosedK] at h; simp only [setOpt]; exact setLeaf_same c _ a v r l hk h
  | enum _ _ _ _ _ _ => simp only [ClosedK] at h; simp only [setOpt]; exact setLeaf_same c _ a v r l hk h
  | bitset _ _ _ => simp only [ClosedK] at h; simp only [setOpt]; exact setLeaf_same c _ a v r l hk h
theorem procLoop_closed (c : Call) (s : Specs) (b : Nat) (ms : Mems) (r : Rec) (l : Loc) (hk : s.Ok)
    (hu : c.update = true) (hn : ms.NoNull) (h : Closed c s b l) : Same r (procLoop c s b ms r).1 l := by
  cases ms with
  | nil => simp only [procLoop]; exact Same.refl r l
  | cons name v rest =>
    simp only [Mems.NoNull] at hn
    simp only [procLoop]
    split
    · split
      · exact procLoop_closed c s b rest r l hk hu hn.2 h
      · exact Same.refl r l
    · rename_i o ho
      refine andThen_same _ _ r l ?_ (procLoop_closed c s b rest _ l hk hu hn.2 h)
      refine step_same c o _ r l (fun _ h2 => ?_)
      rcases h.mem (optFind_mem ho) with h3 | h3
      · rw [h3.barred hu] at h2; cases h2
      · exact setOpt_closed c o.k _ v r l (hk.mem (optFind_mem ho)) hu hn.1 h3
end

/-- C125, at any depth: `conf` with an object in which nothing is `null` changes no locked option, be it of the table
or inside sub-options. -/
theorem C125_nested_partial (c : Call) (s : Specs) (b : Nat) (ms : Mems) (r : Rec) (l : Loc) (hs : s.Ok)
    (hu : c.update = true) (hn : ms.NoNull) (hl : Closed c s b l) :
    Same r (process c s b (some (.obj ms)) r).1 l := by
  simp only [process]
  exact finish_same c s b _ l r hs (procLoop_closed c s b ms r l hs hu hn hl) (Or.inl hu)

/-- The beginning of the table of the interpreter's `subOpts` (src/jsiInterp.c:57-60): `blacklist`, set only when the
interpreter is made, names the packages that may not be loaded; `istty` is read-only. -/
def subOpts : Specs :=
  .cons (asc "blacklist") 0 { initOnly := true } (.ref .strkey)
    (.cons (asc "compat") 8 {} .bool (.cons (asc "istty") 9 { readOnly := true } .bool .nil))

/-- Interpreter options with this group. -/
def interpOpts : Specs := .cons (asc "subOpts") 16 {} (.sub subOpts) (.cons (asc "maxDepth") 8 {} (.int true 4) .nil)

/-- An interpreter for which two packages are disabled. -/
def rec1 : Rec := setRef rec0 16 (some (.str (asc "Sqlite,Socket")))

/-- `conf({subOpts:null})` empties the list of disabled packages, though it is to be set only at creation; given by
name it is refused. -/
theorem C125_null_refuted :
    (process { update := true } interpOpts 0 (some (.obj (.cons (asc "subOpts") .null .nil))) rec1).2 = .ok ∧
    (process { update := true } interpOpts 0 (some (.obj (.cons (asc "subOpts") .null .nil))) rec1).1.ref 16 = none ∧
    (process { update := true } interpOpts 0
      (some (.obj (.cons (asc "subOpts") (.obj (.cons (asc "blacklist") (.str []) .nil)) .nil))) rec1).2 = .err ∧
    rec1.ref 16 = some (.str (asc "Sqlite,Socket")) := by
  refine ⟨by decide +kernel, by rfl, by decide +kernel, rfl⟩

/-- The hypotheses of `C125_nested_partial` are met by this table, this option and the last call. -/
example : interpOpts.Ok ∧ Closed { update := true } interpOpts 0 (.ref 16) ∧ Owns (.ref .strkey) 16 (.ref 16) ∧
    (Mems.cons (asc "subOpts") (.obj (.cons (asc "blacklist") (.str []) .nil)) .nil).NoNull := by
  refine ⟨?_, ?_, ?_, ?_⟩
  · simp [interpOpts, subOpts, Specs.Ok, Kind.Ok]
  · simp [interpOpts, subOpts, Closed, ClosedK, Locked, Owns]
  · simp [Owns]
  · simp [Mems.NoNull, V.NoNull]

/-- The hypotheses of `C124_only_named` and `C125_locked` are met by the group itself. -/
example : subOpts.Ok ∧ Apart subOpts 16 ∧ Locked { update := true } { initOnly := true } ∧
    ⟨asc "blacklist", 0, { initOnly := true }, .ref .strkey⟩ ∈ subOpts.list := by
  refine ⟨?_, ?_, Or.inr (Or.inl rfl), ?_⟩
  · simp [subOpts, Specs.Ok, Kind.Ok]
  · intro o ho o' ho'
    simp only [subOpts, Specs.list, List.mem_cons, List.not_mem_nil, or_false] at ho ho'
    rcases ho with rfl | rfl | rfl <;> rcases ho' with rfl | rfl | rfl <;>
      first | exact Or.inl rfl | (right; rintro l ⟨h1, h2⟩; simp only [Owns] at h1 h2; rw [h1] at h2; simp at h2)
  · simp [subOpts, Specs.list]

/-! ### C126 -/

theorem fin_err {c : Call} (hc : c.incr = false) {p : Rec × Rc} : (fin c p).2 = p.2 := by
  obtain ⟨r, e⟩ := p
  cases e <;> simp [fin, hc]

/-- C126: an option that refuses a value is as before, unless it is a floating number. -/
theorem C126_refused_partial (c : Call) (k : Kind) (a : Nat) (v : V) (r : Rec) (hc : c.incr = false)
    (hk : k ≠ .number) (hs : ∀ s, k ≠ .sub s) (h : (setOpt c k a v r).2 ≠ .ok) : (setOpt c k a v r).1 = r := by
  cases k with
  | sub s => exact absurd rfl (hs s)
  | number => exact absurd rfl hk
  | bool =>
    simp only [setOpt] at h ⊢
    cases v <;> simp only [setLeaf] at h ⊢
    rw [fin_err hc] at h
    exact absurd rfl h
  | int sg n =>
    simp only [setOpt] at h ⊢
    cases v <;> simp only [setLeaf] at h ⊢
    revert h
    unfold setInt
    repeat' split
    all_goals simp
  | ref q =>
    simp only [setOpt, setLeaf, fin_err hc, fin_fst] at h ⊢
    revert h
    unfold setRefK
    repeat' split
    all_goals simp
  | strbuf n =>
    simp only [setOpt, setLeaf, fin_err hc, fin_fst] at h ⊢
    revert h
    unfold setStrbuf
    repeat' split
    all_goals simp
  | enum _ _ _ _ _ _ =>
    simp only [setOpt, setLeaf, fin_err hc, fin_fst] at h ⊢
    revert h
    unfold setEnum
    repeat' split
    all_goals simp
  | bitset _ _ _ =>
    simp only [setOpt, setLeaf, fin_err hc, fin_fst] at h ⊢
    revert h
    unfold setBitset
    repeat' split
    all_goals simp

/-- A floating number refuses NaN only after it has stored it. -/
theorem C126_nan_refuted : (setOpt {} .number 0 (.num .nan) rec0).2 = .err ∧
    (setOpt {} .number 0 (.num .nan) rec0).1.num 0 = .nan ∧ rec0.num 0 ≠ .nan := by
  refine ⟨by decide +kernel, by decide +kernel, by decide +kernel⟩

/-- An option that cannot be incremented is set all the same, with an error. -/
theorem C126_incr_refuted : (setOpt { incr := true } .bool 0 (.bool true) rec0).2 = .err ∧
    (setOpt { incr := true } .bool 0 (.bool true) rec0).1.raw 0 = 1 ∧ rec0.raw 0 = 0 := by
  refine ⟨by decide +kernel, by decide +kernel, rfl⟩

/-- The hypotheses of `C126_refused_partial` are met: a name that is not in the list. -/
example : (setOpt {} (.enum [asc "rows", asc "json"] true 4 false false false) 0 (.str (asc "xml")) rec0).2 = .err := by
  decide +kernel

/-! ### C127 -/

/-- An object with these members. -/
def Mems.ofList : List (Str × V) → Mems
  | [] => .nil
  | kv :: l => .cons kv.1 kv.2 (Mems.ofList l)

theorem ofList_list : ∀ m : Mems, Mems.ofList m.list = m
  | .nil => rfl
  | .cons k v m => by simp [Mems.list, Mems.ofList, ofList_list m]

/-- The loop stops at the first member that is not in order. -/
theorem procLoop_split (c : Call) (s : Specs) (b : Nat) : ∀ (ms : List (Str × V)) (r : Rec),
    (procLoop c s b (Mems.ofList ms) r).2.1 ≠ .ok → ∃ pre kv post r1, ms = pre ++ kv :: post ∧
      (procLoop c s b (Mems.ofList pre) r).1 = r1 ∧ (procLoop c s b (Mems.ofList pre) r).2.1 = .ok ∧
      (procLoop c s b (Mems.ofList [kv]) r1).1 = (procLoop c s b (Mems.ofList ms) r).1 ∧
      (procLoop c s b (Mems.ofList [kv]) r1).2.1 = (procLoop c s b (Mems.ofList ms) r).2.1
  | [], r, h => by simp [Mems.ofList, procLoop] at h
  | kv :: ms, r, h => by
    cases hf : optFind s kv.1 with
    | none =>
      by_cases hi : c.ignoreExtra = true
      · have e : ∀ l r, procLoop c s b (Mems.ofList (kv :: l)) r = procLoop c s b (Mems.ofList l) r := by
          intro l r
          simp [Mems.ofList, procLoop, hf, hi]
        rw [e] at h ⊢
        obtain ⟨pre, kv', post, r1, h1, h2, h3, h4⟩ := procLoop_split c s b ms r h
        exact ⟨kv :: pre, kv', post, r1, by rw [h1]; rfl, by rw [e]; exact h2, by rw [e]; exact h3, h4⟩
      · refine ⟨[], kv, ms, r, rfl, by simp [Mems.ofList, procLoop], by simp [Mems.ofList, procLoop], ?_, ?_⟩
        · simp [Mems.ofList, procLoop, hf, hi]
        · simp [Mems.ofList, procLoop, hf, hi]
    | some o =>
      have e : ∀ l r, procLoop c s b (Mems.ofList (kv :: l)) r =
          andThen (step c o (setOpt c o.k (b + o.off) kv.2) r) (procLoop c s b (Mems.ofList l)) := by
        intro l r
        simp [Mems.ofList, procLoop, hf]
      rw [e] at h
      cases hp : step c o (setOpt c o.k (b + o.off) kv.2) r with
      | mk r1 q =>
        obtain ⟨ee, d⟩ := q
        cases ee with
        | ok =>
          rw [hp] at h
          simp only [andThen] at h
          obtain ⟨pre, kv', post, r2, h1, h2, h3, h4⟩ := procLoop_split c s b ms r1 h
          refine ⟨kv :: pre, kv', post, r2, by rw [h1]; rfl, ?_, ?_, ?_⟩
          · rw [e, hp]; simp only [andThen]; exact h2
          · rw [e, hp]; simp only [andThen]; exact h3
          · rw [e ms r, hp]; simp only [andThen]; exact h4
        | err =>
          refine ⟨[], kv, ms, r, rfl, by simp [Mems.ofList, procLoop], by simp [Mems.ofList, procLoop], ?_, ?_⟩
          · rw [e, e, hp]; simp [andThen]
          · rw [e, e, hp]; simp [andThen]
        | crash =>
          refine ⟨[], kv, ms, r, rfl, by simp [Mems.ofList, procLoop], by simp [Mems.ofList, procLoop], ?_, ?_⟩
          · rw [e, e, hp]; simp [andThen]
          · rw [e, e, hp]; simp [andThen]

theorem finish_update {c : Call} {s : Specs} {b : Nat} (hu : c.update = true) (p : Rec × Rc × List Str) :
    finish c s b p = (p.1, p.2.1) := by
  obtain ⟨r, e, d⟩ := p
  cases e <;> simp [finish, missing, hu]

/-- C127: when `conf` fails, there is a member it fails at: the members before it stay set, those after it are not
looked at, and the rest is what this member alone does. -/
theorem C127_stops_partial (c : Call) (s : Specs) (b : Nat) (ms : Mems) (r : Rec) (hu : c.update = true)
    (h : (process c s b (some (.obj ms)) r).2 ≠ .ok) :
    ∃ pre kv post r1, ms.list = pre ++ kv :: post ∧
      process c s b (some (.obj (Mems.ofList pre))) r = (r1, .ok) ∧
      process c s b (some (.obj (Mems.ofList [kv]))) r1 = process c s b (some (.obj ms)) r := by
  simp only [process, finish_update hu] at h ⊢
  have h' := h
  rw [← ofList_list ms] at h'
  obtain ⟨pre, kv, post, r1, h1, h2, h3, h4, h5⟩ := procLoop_split c s b ms.list r h'
  rw [ofList_list] at h4 h5
  exact ⟨pre, kv, post, r1, h1, by rw [h2, h3], by rw [h4, h5]⟩

/-- C127: `conf` is not all or nothing: the first option stays set when the second is refused. -/
theorem C127_atomic_refuted :
    (process { update := true } subOpts 0
      (some (.obj (.cons (asc "compat") (.bool true) (.cons (asc "istty") (.bool true) .nil)))) rec0).2 = .err ∧
    (process { update := true } subOpts 0
      (some (.obj (.cons (asc "compat") (.bool true) (.cons (asc "istty") (.bool true) .nil)))) rec0).1.raw 8 = 1 ∧
    rec0.raw 8 = 0 := by
  refine ⟨by decide +kernel, by decide +kernel, rfl⟩

end Verif.Opt
