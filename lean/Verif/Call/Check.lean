import Verif.Call.Bind
/-!
# Checking arguments and results (C119, C120)
-/
namespace Verif.Call

/-! ## Specification -/

/-- A value is of a type, as the table in lib/www/md/Functions.md has it: Boolean, Number and String objects count
as what they wrap, an array is not an `object`, `void` is the type of nothing (for results). -/
def HasTy : Ty → Val → Prop
  | .any, _ => True
  | .number, .num _ => True
  | .number, .obj .num _ _ => True
  | .string, .str _ => True
  | .string, .obj .str _ _ => True
  | .boolean, .bool _ => True
  | .boolean, .obj .bool _ _ => True
  | .array, .obj .object true _ => True
  | .object, .obj .object false _ => True
  | .function, .obj .function _ _ => True
  | .regexp, .obj .regexp _ _ => True
  | .userobj, .obj .userobj _ _ => True
  | .iterobj, .obj .iter _ _ => True
  | .null, .null => True
  | .undefined, .undef => True
  | _, _ => False

/-- The types of a parameter: those declared, and that of its default. -/
def Declares (d : Decl) (t : Ty) : Prop := d.tys t = true ∨ ∃ v, d.dflt = some v ∧ v.ty = t

/-- An argument that is given is in order: it is of one of the types of the parameter; where the parameter has
none, anything but undefined is in order (and undefined too with `noundef`). -/
def ArgOk (noundef : Bool) (d : Decl) (v : Val) : Prop :=
  (∃ t, Declares d t ∧ HasTy t v) ∨ ((∀ t, ¬ Declares d t) ∧ (v ≠ .undef ∨ noundef = true))

/-- As many arguments as there are parameters; those from the first default on can be left out; with `...` there
can be more. -/
def CountOk (ds : List Decl) (varargs : Bool) (argc : Nat) : Prop :=
  (ds.takeWhile (fun d => d.dflt.isNone)).length ≤ argc ∧ (varargs = false → argc ≤ ds.length)

/-- A result is in order: it is of one of the types, undefined being `void`. -/
def RetOk (ret : Tys) (v : Val) : Prop :=
  (∀ t, ret t = false) ∨ ret .any = true ∨ (v = .undef ∧ ret .void = true) ∨ (v ≠ .undef ∧ ∃ t, ret t = true ∧ HasTy t v)

/-! ## One check -/

theorem isNone_iff (t : Tys) : isNone t = true ↔ ∀ x, t x = false := by
  unfold isNone allTy
  constructor
  · intro h x
    simp at h
    obtain ⟨h1, h2, h3, h4, h5, h6, h7, h8, h9, h10, h11, h12, h13⟩ := h
    cases x <;> assumption
  · intro h; simp [h]

theorem anyFits_iff (t : Tys) (v : Val) (ha : t .any = false) : anyFits t v = true ↔ ∃ x, t x = true ∧ HasTy x v := by
  constructor
  · intro h
    unfold anyFits at h
    simp only [Bool.or_eq_true, Bool.and_eq_true] at h
    rcases h with ((((((((((h | h) | h) | h) | h) | h) | h) | h) | h) | h) | h)
    · refine ⟨_, h.1, ?_⟩; cases v <;> simp_all [isUndef, HasTy]
    · refine ⟨_, h.1, ?_⟩
      cases v with
      | obj ot a i => cases ot <;> simp_all [isNumber, HasTy]
      | _ => simp_all [isNumber, HasTy]
    · refine ⟨_, h.1, ?_⟩
      cases v with
      | obj ot a i => cases ot <;> simp_all [isString, HasTy]
      | _ => simp_all [isString, HasTy]
    · refine ⟨_, h.1, ?_⟩
      cases v with
      | obj ot a i => cases ot <;> simp_all [isBoolean, HasTy]
      | _ => simp_all [isBoolean, HasTy]
    · refine ⟨_, h.1, ?_⟩
      cases v with
      | obj ot a i => cases ot <;> cases a <;> simp_all [isArray, HasTy]
      | _ => simp_all [isArray, HasTy]
    · refine ⟨_, h.1, ?_⟩
      cases v with
      | obj ot a i => cases ot <;> simp_all [isOt, HasTy]
      | _ => simp_all [isOt, HasTy]
    · refine ⟨_, h.1, ?_⟩
      cases v with
      | obj ot a i => cases ot <;> simp_all [isOt, HasTy]
      | _ => simp_all [isOt, HasTy]
    · refine ⟨_, h.1, ?_⟩
      cases v with
      | obj ot a i => cases ot <;> simp_all [isOt, HasTy]
      | _ => simp_all [isOt, HasTy]
    · refine ⟨_, h.1, ?_⟩
      cases v with
      | obj ot a i => cases ot <;> simp_all [isOt, HasTy]
      | _ => simp_all [isOt, HasTy]
    · refine ⟨_, h.1, ?_⟩
      cases v with
      | obj ot a i => cases ot <;> cases a <;> simp_all [isOt, isArray, HasTy]
      | _ => simp_all [isOt, HasTy]
    · refine ⟨_, h.1, ?_⟩; cases v <;> simp_all [isNull, HasTy]
  · rintro ⟨x, hx, hv⟩
    unfold anyFits
    cases v with
    | obj ot a i =>
      cases x <;> cases ot <;> cases a <;> first
        | (simp [HasTy] at hv; done)
        | (rw [ha] at hx; cases hx; done)
        | simp [hx, isNumber, isString, isBoolean, isArray, isOt]
    | _ =>
      cases x <;> first
        | (simp [HasTy] at hv; done)
        | (rw [ha] at hx; cases hx; done)
        | simp [hx, isUndef, isNumber, isString, isBoolean, isNull]

/-- Checking is on and a mismatch is an error. -/
def Strict (c : Chk) : Prop := c.noCheck = false ∧ c.noError = false

theorem declTys_iff (d : Decl) (t : Ty) : declTys d t = true ↔ Declares d t := by
  unfold declTys Declares
  cases d.dflt with
  | none => simp
  | some v =>
    simp only [union, single, Bool.or_eq_true, decide_eq_true_eq, Option.some.injEq, exists_eq_left']
    constructor
    · rintro (h | h)
      · exact Or.inl h
      · exact Or.inr h.symm
    · rintro (h | h)
      · exact Or.inl h
      · exact Or.inr h.symm

theorem declares_none (d : Decl) : isNone (declTys d) = true ↔ ∀ t, ¬ Declares d t := by
  rw [isNone_iff]
  constructor
  · intro h t ht; rw [← declTys_iff, h t] at ht; cases ht
  · intro h t
    cases hd : declTys d t with
    | false => rfl
    | true => exact absurd ((declTys_iff d t).mp hd) (h t)

theorem isUndef_iff (v : Val) : isUndef v = true ↔ v = .undef := by cases v <;> simp [isUndef]

theorem hasTy_undef (t : Ty) : HasTy t .undef ↔ t = .undefined ∨ t = .any := by cases t <;> simp [HasTy]

/-- The check of an argument that is given. -/
theorem argCheck_given {c : Chk} (hs : Strict c) (d : Decl) (v : Val) : (argCheck c (declTys d) v false false).2 = true ↔ ArgOk c.noundef d v := by
  have hx := declTys_iff d
  have hn := declares_none d
  unfold argCheck fail
  rw [hs.1, hs.2]
  simp only [Bool.false_eq_true, if_false, Bool.not_false, Bool.and_true, Bool.false_and]
  split
  · rename_i h
    simp only [Bool.and_eq_true, Bool.not_eq_true', Bool.or_eq_false_iff] at h
    obtain ⟨⟨hu, hnu⟩, h1, h2⟩ := h
    have hv := (isUndef_iff v).mp hu
    subst hv
    simp only [Bool.false_eq_true, false_iff]
    rintro (⟨t, ht, hty⟩ | ⟨_, h | h⟩)
    · rcases (hasTy_undef t).mp hty with e | e
      · subst e; rw [← hx, h1] at ht; cases ht
      · subst e; rw [← hx, h2] at ht; cases ht
    · exact h rfl
    · rw [hnu] at h; cases h
  · rename_i h
    have h' : v = .undef → c.noundef = false → declTys d .undefined = true ∨ declTys d .any = true := by
      intro e1 e2
      cases hu : declTys d .undefined with
      | true => exact Or.inl rfl
      | false => cases ha : declTys d .any with
        | true => exact Or.inr rfl
        | false => exact absurd (by simp [(isUndef_iff v).mpr e1, e2, hu, ha]) h
    split
    · rename_i hno
      simp only [true_iff]
      refine Or.inr ⟨hn.mp hno, ?_⟩
      by_cases hv : v = .undef
      · cases hnu : c.noundef with
        | true => exact Or.inr rfl
        | false =>
          have hall := (isNone_iff _).mp hno
          rcases h' hv hnu with h | h <;> rw [hall] at h <;> cases h
      · exact Or.inl hv
    · rename_i hno
      split
      · rename_i hany
        simp only [true_iff]
        exact Or.inl ⟨.any, (hx .any).mp hany, by simp [HasTy]⟩
      · rename_i hany
        have hany : declTys d .any = false := by simpa using hany
        have hf := anyFits_iff (declTys d) v hany
        have key : ArgOk c.noundef d v ↔ ∃ x, declTys d x = true ∧ HasTy x v := by
          constructor
          · rintro (⟨t, ht, hty⟩ | ⟨hall, _⟩)
            · exact ⟨t, (hx t).mpr ht, hty⟩
            · exact absurd (hn.mpr hall) hno
          · rintro ⟨t, ht, hty⟩; exact Or.inl ⟨t, (hx t).mp ht, hty⟩
        rw [key, ← hf]
        split
        · rename_i hfit; simp [hfit]
        · rename_i hfit
          simp only [Bool.false_eq_true, false_iff]
          exact hfit

/-- A default is always in order. -/
theorem argCheck_default {c : Chk} (d : Decl) {v : Dflt} (hd : d.dflt = some v) : argCheck c (declTys d) v.val false true = (c, true) := by
  have hty : declTys d v.ty = true := (declTys_iff d v.ty).mpr (Or.inr ⟨v, hd, rfl⟩)
  unfold argCheck
  simp only [Bool.not_true, Bool.and_false, Bool.false_and, Bool.false_eq_true, if_false, Bool.true_and]
  split; · rfl
  split; · rfl
  split; · rfl
  rename_i hany
  have hany : declTys d .any = false := by simpa using hany
  split; · rfl
  rename_i hv
  have : anyFits (declTys d) v.val = true := by
    rw [anyFits_iff _ _ hany]
    cases v with
    | void => exact absurd (by simp [Dflt.val, isUndef]; exact hty) hv
    | undefined => exact ⟨_, hty, by simp [Dflt.val, Dflt.ty, HasTy]⟩
    | null => exact ⟨_, hty, by simp [Dflt.val, Dflt.ty, HasTy]⟩
    | bool b => exact ⟨_, hty, by simp [Dflt.val, Dflt.ty, HasTy]⟩
    | num b => exact ⟨_, hty, by simp [Dflt.val, Dflt.ty, HasTy]⟩
    | str b => exact ⟨_, hty, by simp [Dflt.val, Dflt.ty, HasTy]⟩
  rw [if_pos this]

theorem argCheck_ok_state {c : Chk} (hs : Strict c) {t : Tys} {v : Val} {r d : Bool} (h : (argCheck c t v r d).2 = true) : (argCheck c t v r d).1 = c := by
  revert h
  unfold argCheck fail
  rw [hs.1, hs.2]
  simp only [Bool.false_eq_true, if_false]
  repeat' split
  all_goals simp

/-! ## The number of arguments -/

theorem mkParams_snoc (ds : List Decl) (d : Decl) : mkParams (ds ++ [d]) = argInsert (mkParams ds) d := by
  unfold mkParams; rw [List.foldl_append]; rfl

/-- Induction on the right end. -/
theorem snocInd {α : Type} {P : List α → Prop} (h0 : P []) (hs : ∀ l a, P l → P (l ++ [a])) (l : List α) : P l := by
  have : ∀ r : List α, P r.reverse := by
    intro r
    induction r with
    | nil => exact h0
    | cons a r ih => rw [List.reverse_cons]; exact hs _ a ih
  have h := this l.reverse
  rwa [List.reverse_reverse] at h

theorem mkParams_args (ds : List Decl) : (mkParams ds).args = ds.map (fun d => ⟨d.name, declTys d, d.dflt⟩) := by
  induction ds using snocInd with
  | h0 => rfl
  | hs l a ih => rw [mkParams_snoc]; simp [argInsert, ih]

theorem takeWhile_snoc (l : List Decl) (a : Decl) :
    ((l ++ [a]).takeWhile (fun d => d.dflt.isNone)).length =
      if (l.takeWhile (fun d => d.dflt.isNone)).length = l.length then (if a.dflt.isNone then l.length + 1 else l.length)
      else (l.takeWhile (fun d => d.dflt.isNone)).length := by
  induction l with
  | nil => cases hd : a.dflt <;> simp [List.takeWhile, hd]
  | cons b l ih =>
    cases hb : b.dflt with
    | some v => simp [List.takeWhile_cons, hb]
    | none =>
      have e1 : ((b :: l ++ [a]).takeWhile (fun d => d.dflt.isNone)).length = ((l ++ [a]).takeWhile (fun d => d.dflt.isNone)).length + 1 := by
        simp [List.takeWhile_cons, hb]
      have e2 : ((b :: l).takeWhile (fun d => d.dflt.isNone)).length = (l.takeWhile (fun d => d.dflt.isNone)).length + 1 := by
        simp [List.takeWhile_cons, hb]
      rw [e1, e2, ih, List.length_cons]
      by_cases hx : (l.takeWhile (fun d => d.dflt.isNone)).length = l.length
      · rw [hx, if_pos rfl, if_pos rfl]; split <;> rfl
      · rw [if_neg hx, if_neg (by omega)]

theorem takeWhile_le (l : List Decl) : (l.takeWhile (fun d => d.dflt.isNone)).length ≤ l.length := by
  induction l with
  | nil => simp
  | cons a l ih => rw [List.takeWhile_cons]; split <;> simp <;> omega

/-- The place of the first default, and how many parameters are before it. -/
theorem firstDef_spec (ds : List Decl) :
    (if (mkParams ds).firstDef > 0 then (mkParams ds).firstDef - 1 else (mkParams ds).args.length) = (ds.takeWhile (fun d => d.dflt.isNone)).length
    ∧ ((mkParams ds).firstDef = 0 ↔ (ds.takeWhile (fun d => d.dflt.isNone)).length = ds.length) := by
  induction ds using snocInd with
  | h0 => exact ⟨rfl, by simp [mkParams]⟩
  | hs l a ih =>
    have hle := takeWhile_le l
    rw [mkParams_snoc, takeWhile_snoc]
    unfold argInsert
    have hlen : (mkParams l).args.length = l.length := by rw [mkParams_args]; simp
    simp only [List.length_append, List.length_cons, List.length_nil, hlen] at ih ⊢
    obtain ⟨i1, i2⟩ := ih
    by_cases hz : (mkParams l).firstDef = 0
    · have hfull := i2.mp hz
      rw [if_pos hfull]
      cases hd : a.dflt with
      | none => simp [hz]
      | some v => simp [hz]
    · have hnf : (l.takeWhile (fun d => d.dflt.isNone)).length ≠ l.length := fun h => hz (i2.mpr h)
      have hfd : (if a.dflt.isSome = true ∧ (mkParams l).firstDef = 0 then l.length + 1 else (mkParams l).firstDef) = (mkParams l).firstDef :=
        if_neg (fun h => hz h.2)
      rw [if_neg hnf, hfd]
      rw [if_pos (by omega)] at i1 ⊢
      exact ⟨i1, ⟨fun h => absurd h hz, fun h => by omega⟩⟩

theorem countCheck_iff {c : Chk} (hs : Strict c) (ds : List Decl) (f : Fn) (hf : f.ps = mkParams ds) (n : Nat) :
    (countCheck c f n).2 = true ↔ CountOk ds f.varargs n := by
  have h1 := (firstDef_spec ds).1
  have hlen : (mkParams ds).args.length = ds.length := by rw [mkParams_args]; simp
  unfold countCheck CountOk fail
  rw [hs.1, hs.2, hf, h1, hlen]
  simp only [Bool.false_eq_true, if_false]
  split
  · rename_i h
    simp only [Bool.false_eq_true, false_iff]
    rintro ⟨h2, h3⟩
    rcases h with h | ⟨h4, h5⟩
    · omega
    · have := h3 h4; omega
  · rename_i h
    simp only [true_iff]
    refine ⟨?_, fun hv => ?_⟩
    · rcases Nat.lt_or_ge n (ds.takeWhile fun d => d.dflt.isNone).length with hx | hx
      · exact absurd (Or.inl hx) h
      · exact hx
    · rcases Nat.lt_or_ge ds.length n with hx | hx
      · exact absurd (Or.inr ⟨hv, hx⟩) h
      · exact hx

theorem countCheck_state {c : Chk} (hs : Strict c) (f : Fn) (n : Nat) (h : (countCheck c f n).2 = true) : (countCheck c f n).1 = c := by
  revert h
  unfold countCheck fail
  rw [hs.1, hs.2]
  simp only [Bool.false_eq_true, if_false]
  repeat' split
  all_goals simp

/-! ## The loop -/

theorem bindAll_false (o : Nat) (ps : List Param) : ∀ (i : Nat) (c : Chk) (h : Heap), (bindAll o i ps (c, false, h)).2.1 = false := by
  induction ps with
  | nil => intro i c h; rfl
  | cons p ps ih =>
    intro i c h
    show (bindAll o (i + 1) ps (bindOne o i p (c, false, h))).2.1 = false
    have : ∃ h', bindOne o i p (c, false, h) = (c, false, h') := by
      unfold bindOne
      cases argCell h o i with
      | some x => exact ⟨_, rfl⟩
      | none => cases p.dflt with
        | none => exact ⟨_, rfl⟩
        | some d => exact ⟨_, rfl⟩
    obtain ⟨h', e⟩ := this
    rw [e]; exact ih _ _ _

/-- The parameter as it is kept. -/
def keep (d : Decl) : Param := ⟨d.name, declTys d, d.dflt⟩

theorem bindOne_given {o i : Nat} {d : Decl} {c : Chk} {h : Heap} {x : Nat} (he : argCell h o i = some x) :
    bindOne o i (keep d) (c, true, h) = ((argCheck c (declTys d) (h.val x) false false).1, (argCheck c (declTys d) (h.val x) false false).2, bindH o i (keep d) h) := by
  unfold bindOne bindH; rw [he]; rfl

theorem bindOne_missing {o i : Nat} {d : Decl} {c : Chk} {h : Heap} (he : argCell h o i = none) :
    bindOne o i (keep d) (c, true, h) = (c, true, bindH o i (keep d) h) := by
  unfold bindOne bindH; rw [he]
  show (match d.dflt with
    | some v => if true = true then ((argCheck c (declTys d) v.val false true).1, (argCheck c (declTys d) v.val false true).2, insertNew h o d.name v.val) else _
    | none => (c, true, insertNew h o d.name Val.undef)) = (c, true, insertNew h o d.name (expected (keep d) none))
  cases hd : d.dflt with
  | none => simp [expected, keep, hd]
  | some v => simp [argCheck_default d hd, expected, keep, hd]

theorem bindAll_iff {c : Chk} (hs : Strict c) (o : Nat) (ds : List Decl) : ∀ (i : Nat) (h : Heap), CellsOk h o →
    ((bindAll o i (ds.map keep) (c, true, h)).2.1 = true ↔ ∀ j d v, ds[j]? = some d → argVal h o (i + j) = some v → ArgOk c.noundef d v) := by
  induction ds with
  | nil => intro i h _; simp [bindAll]
  | cons d ds ih =>
    intro i h hc
    have hx := bindH_ext o i (keep d) h
    have hrest : ∀ j v, argVal (bindH o i (keep d) h) o (i + 1 + j) = some v ↔ argVal h o (i + (j + 1)) = some v := by
      intro j v; rw [hx.argVal hc]
      have : i + 1 + j = i + (j + 1) := by omega
      rw [this]
    show (bindAll o (i + 1) (ds.map keep) (bindOne o i (keep d) (c, true, h))).2.1 = true ↔ _
    have hih := ih (i + 1) (bindH o i (keep d) h) (hx.cellsOk hc)
    have hall : (∀ j e v, (d :: ds)[j]? = some e → argVal h o (i + j) = some v → ArgOk c.noundef e v) ↔
        (∀ v, argVal h o i = some v → ArgOk c.noundef d v) ∧
        ∀ j e v, ds[j]? = some e → argVal (bindH o i (keep d) h) o (i + 1 + j) = some v → ArgOk c.noundef e v := by
      constructor
      · intro h'
        exact ⟨fun v hv => h' 0 d v rfl hv, fun j e v he hv => h' (j + 1) e v he ((hrest j v).mp hv)⟩
      · rintro ⟨h1, h2⟩ j e v he hv
        cases j with
        | zero =>
          have : d = e := by simpa using he
          subst this; exact h1 v hv
        | succ j => exact h2 j e v (by simpa using he) ((hrest j v).mpr hv)
    rw [hall]
    cases he : argCell h o i with
    | none =>
      rw [bindOne_missing he, hih]
      have : argVal h o i = none := by unfold argVal; rw [he]; rfl
      rw [this]; simp
    | some x =>
      rw [bindOne_given he]
      have hv : argVal h o i = some (h.val x) := by unfold argVal; rw [he]; rfl
      rw [hv]
      have hg := argCheck_given hs d (h.val x)
      cases hb : (argCheck c (declTys d) (h.val x) false false).2 with
      | false =>
        rw [bindAll_false]
        rw [hb] at hg
        constructor
        · intro h'; cases h'
        · rintro ⟨h', _⟩; exact absurd (h' _ rfl) (fun hh => by have := hg.mpr hh; cases this)
      | true =>
        rw [argCheck_ok_state hs hb, hih]
        rw [hb] at hg
        have := hg.mp rfl
        constructor
        · intro h'; exact ⟨fun v e => by cases e; exact this, h'⟩
        · rintro ⟨_, h'⟩; exact h'

theorem share_iff (ds : List Decl) (f : Fn) (hf : f.ps = mkParams ds) (o : Nat) (s : Chk × Heap) (hs : Strict s.1) (hc : CellsOk s.2 o) :
    (share f o s).2.1 = true ↔ CountOk ds f.varargs (s.2.objs o).elems.length ∧
      ∀ i d v, ds[i]? = some d → argVal s.2 o i = some v → ArgOk s.1.noundef d v := by
  unfold share
  have hcc := countCheck_iff hs ds f hf (s.2.objs o).elems.length
  have hps : f.ps.args = ds.map keep := by rw [hf, mkParams_args]; rfl
  cases hb : (countCheck s.1 f (s.2.objs o).elems.length).2 with
  | false =>
    rw [hb] at hcc
    simp only [Bool.false_and, Bool.false_eq_true, false_iff]
    rintro ⟨h, _⟩; exact absurd (hcc.mpr h) (by simp)
  | true =>
    rw [countCheck_state hs f _ hb, hps]
    have := bindAll_iff hs o ds 0 s.2 hc
    simp only [Nat.zero_add] at this
    rw [Bool.true_and, this]
    rw [hb] at hcc
    constructor
    · intro h; exact ⟨hcc.mp rfl, h⟩
    · rintro ⟨_, h⟩; exact h

/-- **C119.** With checking on (`noCheck` and `noError` off): the body is reached exactly when the number of
arguments is right and every argument given is of a type of its parameter; otherwise there is an exception and
the body is not started. -/
theorem C119_checked (ds : List Decl) (f : Fn) (hf : f.ps = mkParams ds) (o : Nat) (this : Val) (cons : Bool) (s : Chk × Heap)
    (hs : Strict s.1) (hc : CellsOk s.2 o) :
    ((CountOk ds f.varargs (s.2.objs o).elems.length ∧ ∀ i d v, ds[i]? = some d → argVal s.2 o i = some v → ArgOk s.1.noundef d v)
      → ∃ h', Starts (callSub f · o this cons s) f o this cons (s.1, h')) ∧
    (¬ (CountOk ds f.varargs (s.2.objs o).elems.length ∧ ∀ i d v, ds[i]? = some d → argVal s.2 o i = some v → ArgOk s.1.noundef d v)
      → Refused (callSub f · o this cons s)) := by
  have hi := share_iff ds f hf o s hs hc
  rcases callSub_cases f o this cons s with ⟨h1, h⟩ | ⟨h1, h⟩
  · refine ⟨fun _ => ?_, fun hn => absurd (hi.mp h1) hn⟩
    have hcnt : (countCheck s.1 f (s.2.objs o).elems.length).2 = true := by
      unfold share at h1; exact (Bool.and_eq_true _ _ ▸ h1 : _ ∧ _).1
    have hst : (share f o s).1 = s.1 := by
      unfold share at h1 ⊢
      rw [countCheck_state hs f _ hcnt] at h1 ⊢
      have hps : f.ps.args = ds.map keep := by rw [hf, mkParams_args]; rfl
      rw [hps] at h1 ⊢
      have h2 := (Bool.and_eq_true _ _ ▸ h1 : _ ∧ _).2
      have gen : ∀ (ds : List Decl) (i : Nat) (h : Heap), (bindAll o i (ds.map keep) (s.1, true, h)).2.1 = true →
          (bindAll o i (ds.map keep) (s.1, true, h)).1 = s.1 := by
        intro ds
        induction ds with
        | nil => intro i h _; rfl
        | cons d ds ih =>
          intro i h hb
          have e : bindAll o i ((d :: ds).map keep) (s.1, true, h) = bindAll o (i + 1) (ds.map keep) (bindOne o i (keep d) (s.1, true, h)) := rfl
          rw [e] at hb ⊢
          cases he : argCell h o i with
          | none => rw [bindOne_missing he] at hb ⊢; exact ih _ _ hb
          | some x =>
            rw [bindOne_given he] at hb ⊢
            cases hb2 : (argCheck s.1 (declTys d) (h.val x) false false).2 with
            | false => rw [hb2, bindAll_false] at hb; cases hb
            | true =>
              rw [hb2, argCheck_ok_state hs hb2] at hb
              rw [argCheck_ok_state hs hb2]
              exact ih _ _ hb
      exact gen ds 0 s.2 h2
    rw [hst] at h
    exact ⟨_, h⟩
  · refine ⟨fun hy => ?_, fun _ => h⟩
    rw [hi.mpr hy] at h1; cases h1

/-- **C119** … With `noCheck` set nothing is checked: every call reaches the body. -/
theorem C119_no_check (f : Fn) (o : Nat) (this : Val) (cons : Bool) (s : Chk × Heap) (hn : s.1.noCheck = true) :
    ∃ h', Starts (callSub f · o this cons s) f o this cons (s.1, h') := by
  have ha : ∀ t v r d, argCheck s.1 t v r d = (s.1, true) := by intro t v r d; unfold argCheck; rw [if_pos hn]
  have hcnt : ∀ n, countCheck s.1 f n = (s.1, true) := by intro n; unfold countCheck; rw [if_pos hn]
  have gen : ∀ (ps : List Param) (i : Nat) (h : Heap), (bindAll o i ps (s.1, true, h)).1 = s.1 ∧ (bindAll o i ps (s.1, true, h)).2.1 = true := by
    intro ps
    induction ps with
    | nil => intro i h; exact ⟨rfl, rfl⟩
    | cons p ps ih =>
      intro i h
      have e : bindAll o i (p :: ps) (s.1, true, h) = bindAll o (i + 1) ps (bindOne o i p (s.1, true, h)) := rfl
      have : ∃ h', bindOne o i p (s.1, true, h) = (s.1, true, h') := by
        unfold bindOne
        cases argCell h o i with
        | some x => simp [ha]
        | none => cases p.dflt with
          | none => exact ⟨_, rfl⟩
          | some d => simp [ha]
      obtain ⟨h', e'⟩ := this
      rw [e, e']; exact ih _ _
  have hg := gen f.ps.args 0 s.2
  rcases callSub_cases f o this cons s with ⟨_, h⟩ | ⟨h1, _⟩
  · have hst : (share f o s).1 = s.1 := by unfold share; rw [hcnt]; exact hg.1
    rw [hst] at h
    exact ⟨_, h⟩
  · unfold share at h1
    rw [hcnt] at h1
    simp [hg.2] at h1

theorem argCheck_noError {c : Chk} (hn : c.noError = true) (t : Tys) (v : Val) (r d : Bool) :
    (argCheck c t v r d).2 = true ∧ (argCheck c t v r d).1.noError = true := by
  have hm : (mismatch c).noError = true := by unfold mismatch; split <;> exact hn
  unfold argCheck fail
  repeat' split
  all_goals first | exact ⟨rfl, hn⟩ | exact ⟨hn, hm⟩

/-- **C119** … With `noError` set there are only warnings: every call reaches the body. -/
theorem C119_no_error (f : Fn) (o : Nat) (this : Val) (cons : Bool) (s : Chk × Heap) (hn : s.1.noError = true) :
    ∃ e, Starts (callSub f · o this cons s) f o this cons e := by
  have hm : (mismatch s.1).noError = true := by unfold mismatch; split <;> exact hn
  have hcnt : ∀ n, (countCheck s.1 f n).2 = true ∧ (countCheck s.1 f n).1.noError = true := by
    intro n; unfold countCheck fail; repeat' split
    all_goals first | exact ⟨rfl, hn⟩ | exact ⟨hn, hm⟩
  have gen : ∀ (ps : List Param) (i : Nat) (c : Chk) (h : Heap), c.noError = true → (bindAll o i ps (c, true, h)).2.1 = true := by
    intro ps
    induction ps with
    | nil => intro i c h _; rfl
    | cons p ps ih =>
      intro i c h hc
      have e : bindAll o i (p :: ps) (c, true, h) = bindAll o (i + 1) ps (bindOne o i p (c, true, h)) := rfl
      have : ∃ c' h', bindOne o i p (c, true, h) = (c', true, h') ∧ c'.noError = true := by
        unfold bindOne
        cases argCell h o i with
        | some x =>
          have := argCheck_noError hc p.tys (h.val x) false false
          exact ⟨_, _, by simp only [if_true]; rw [this.1], this.2⟩
        | none => cases p.dflt with
          | none => exact ⟨_, _, rfl, hc⟩
          | some d =>
            have := argCheck_noError hc p.tys d.val false true
            exact ⟨_, _, by simp only [if_true]; rw [this.1], this.2⟩
      obtain ⟨c', h', e', hc'⟩ := this
      rw [e, e']; exact ih _ _ _ hc'
  rcases callSub_cases f o this cons s with ⟨_, h⟩ | ⟨h1, _⟩
  · exact ⟨_, h⟩
  · unfold share at h1
    rw [(hcnt _).1, gen _ _ _ _ (hcnt _).2] at h1
    cases h1

/-! ## The value returned (C120) -/

theorem argCheck_ret {c : Chk} (hs : Strict c) (t : Tys) (v : Val) : (argCheck c t v true false).2 = true ↔ RetOk t v := by
  have hn := isNone_iff t
  unfold argCheck fail
  rw [hs.1, hs.2]
  simp only [Bool.false_eq_true, if_false, Bool.not_true, Bool.and_false, Bool.false_and, Bool.true_and]
  split
  · rename_i h; simp only [true_iff]; exact Or.inl (hn.mp h)
  · rename_i h
    split
    · rename_i ha; simp only [true_iff]; exact Or.inr (Or.inl ha)
    · rename_i ha
      have ha : t .any = false := by simpa using ha
      split
      · rename_i hu
        have hv := (isUndef_iff v).mp hu
        split
        · rename_i hvo; simp only [true_iff]; exact Or.inr (Or.inr (Or.inl ⟨hv, hvo⟩))
        · rename_i hvo
          simp only [Bool.false_eq_true, false_iff]
          rintro (h1 | h1 | h1 | h1)
          · exact h (hn.mpr h1)
          · rw [ha] at h1; cases h1
          · exact hvo h1.2
          · exact h1.1 hv
      · rename_i hu
        have hv : v ≠ .undef := fun e => hu ((isUndef_iff v).mpr e)
        have hf := anyFits_iff t v ha
        split
        · rename_i hft; simp only [true_iff]; exact Or.inr (Or.inr (Or.inr ⟨hv, hf.mp hft⟩))
        · rename_i hft
          simp only [Bool.false_eq_true, false_iff]
          rintro (h1 | h1 | h1 | h1)
          · exact h (hn.mpr h1)
          · rw [ha] at h1; cases h1
          · exact hv h1.1
          · exact hft (hf.mpr h1.2)

theorem checkRet_iff (f : Fn) {c : Chk} (h : Heap) (v : Val) (hs : Strict c) (hr : c.noreturn = false) :
    (RetOk f.ret v → checkRet f false ((c, h), some v) = ((c, h), some v)) ∧
    (¬ RetOk f.ret v → ∃ c', checkRet f false ((c, h), some v) = ((c', h), none)) := by
  have ha := argCheck_ret hs f.ret v
  unfold checkRet
  simp only [hr, and_true, true_and]
  constructor
  · intro hok
    have := ha.mpr hok
    split
    · rw [argCheck_ok_state hs this]
    · rfl
  · intro hok
    have hno : isNone f.ret = false := by
      cases hx : isNone f.ret with
      | false => rfl
      | true => exact absurd (Or.inl ((isNone_iff _).mp hx)) hok
    rw [if_pos hno]
    rw [if_neg (fun h => hok (ha.mp h))]
    exact ⟨_, rfl⟩

/-- **C120.** A body that is reached and returns `v` with checking on: `v` is the result of the call when it is of
a type declared for the result (undefined when `void` is), else there is an exception.  So no caller gets a value
of another type. -/
theorem C120_result (call : Body → (Chk × Heap) × Option Val) (f : Fn) (o : Nat) (this : Val) (e : Chk × Heap) (body : Body)
    (hst : Starts call f o this false e) {c : Chk} {h : Heap} {v : Val} (hb : body o this e = ((c, h), some v)) (hs : Strict c)
    (hr : c.noreturn = false) :
    (RetOk f.ret v → call body = ((c, h), some v)) ∧ (¬ RetOk f.ret v → ∃ c', call body = ((c', h), none)) := by
  rw [hst body, hb]
  exact checkRet_iff f h v hs hr

/-- **C120** … An exception in the body is an exception of the call, with nothing checked. -/
theorem C120_exception (call : Body → (Chk × Heap) × Option Val) (f : Fn) (o : Nat) (this : Val) (cons : Bool) (e : Chk × Heap) (body : Body)
    (hst : Starts call f o this cons e) {p : Chk × Heap} (hb : body o this e = (p, none)) : call body = (p, none) := by
  rw [hst body, hb]; rfl

/-- **C120** … With `noreturn`, or called as a constructor, the value is not checked. -/
theorem C120_unchecked (call : Body → (Chk × Heap) × Option Val) (f : Fn) (o : Nat) (this : Val) (cons : Bool) (e : Chk × Heap) (body : Body)
    (hst : Starts call f o this cons e) {p : (Chk × Heap) × Option Val} (hb : body o this e = p) (hn : cons = true ∨ p.1.1.noreturn = true) : call body = p := by
  rw [hst body, hb]
  unfold checkRet
  cases p.2 with
  | none => rfl
  | some v =>
    dsimp only
    rw [if_neg]
    rintro ⟨h1, _, h2⟩
    rcases hn with h | h
    · rw [h1] at h; cases h
    · rw [h2] at h; cases h

end Verif.Call
