import Verif.Call.Check
/-!
# Types as texts, signatures shown and read again (C121)
-/
namespace Verif.Call

/-- The word for a type. -/
def word : Ty → List UInt8
  | .any => asc "any"
  | .number => asc "number"
  | .string => asc "string"
  | .boolean => asc "boolean"
  | .array => asc "array"
  | .function => asc "function"
  | .object => asc "object"
  | .regexp => asc "regexp"
  | .userobj => asc "userobj"
  | .iterobj => asc "iterobj"
  | .null => asc "null"
  | .undefined => asc "undefined"
  | .void => asc "void"

/-- One line of `jsi_typeName`: `if (typ&X) Jsi_DSAppend(dStr, (i++?"|":""), "x", NULL);`. -/
def appendTy (t : Tys) (a : List UInt8 × Nat) (x : Ty) : List UInt8 × Nat :=
  if t x then (a.1 ++ (if a.2 = 0 then [] else [124]) ++ word x, a.2 + 1) else a

/-- The lines of `jsi_typeName`, in order. -/
def order : List Ty := [.number, .string, .boolean, .array, .function, .object, .regexp, .userobj, .iterobj, .null, .undefined, .void]

/-- `jsi_typeName`.  src/jsiFunc.c:124-144. -/
def typeName (t : Tys) : List UInt8 := if isNone t || t .any then asc "any" else (order.foldl (appendTy t) ([], 0)).1

/-- The parts of a text between the bars, `Jsi_SplitStr(tname, …, "|", …)`.  src/jsiUtils.c:2306-2343. -/
def bars : List UInt8 → List (List UInt8)
  | [] => [[]]
  | c :: r =>
    if c = 124 then [] :: bars r
    else match bars r with
      | [] => [[c]]
      | p :: ps => (c :: p) :: ps

/-- The words that are known; the others get a warning and no type.  src/jsiFunc.c:102-121. -/
def typeGet1 (s : List UInt8) : Tys := fun x => decide (s = word x)

/-- `jsi_typeGet`.  src/jsiFunc.c:82-122.  (It is never negative, so the loop is never left early.) -/
def typeGet (s : List UInt8) : Tys :=
  if 124 ∈ s then (bars s).foldl (fun t p => union t (typeGet1 p)) noTys else typeGet1 s

/-! ## Proofs -/

theorem word_noBar (x : Ty) : 124 ∉ word x := by cases x <;> decide +kernel

theorem word_inj {x y : Ty} (h : word x = word y) : x = y := by
  revert h; cases x <;> cases y <;> first | (intro _; rfl) | (intro h; exact absurd h (by decide +kernel))

theorem bars_noBar {s : List UInt8} (h : 124 ∉ s) : bars s = [s] := by
  induction s with
  | nil => rfl
  | cons c r ih =>
    simp only [List.mem_cons, not_or] at h
    unfold bars
    rw [if_neg (fun e => h.1 e.symm), ih h.2]

theorem bars_append {s : List UInt8} (h : 124 ∉ s) (r : List UInt8) : bars (s ++ 124 :: r) = s :: bars r := by
  induction s with
  | nil => simp [bars]
  | cons c s ih =>
    simp only [List.mem_cons, not_or] at h
    have e : bars (c :: (s ++ 124 :: r)) = match bars (s ++ 124 :: r) with
      | [] => [[c]]
      | p :: ps => (c :: p) :: ps := by
      rw [bars, if_neg (fun e => h.1 e.symm)]
    show bars (c :: (s ++ 124 :: r)) = _
    rw [e, ih h.2]

/-- Words with bars between them. -/
def joined : List Ty → List UInt8
  | [] => []
  | [x] => word x
  | x :: y :: r => word x ++ 124 :: joined (y :: r)

theorem bars_joined (x : Ty) (l : List Ty) : bars (joined (x :: l)) = (x :: l).map word := by
  induction l generalizing x with
  | nil => exact bars_noBar (word_noBar x)
  | cons y l ih =>
    show bars (word x ++ 124 :: joined (y :: l)) = _
    rw [bars_append (word_noBar x), ih y]; rfl

/-- Words each after a bar. -/
def tail : List Ty → List UInt8
  | [] => []
  | x :: r => 124 :: (word x ++ tail r)

theorem joined_tail (x : Ty) (l : List Ty) : joined (x :: l) = word x ++ tail l := by
  induction l generalizing x with
  | nil => simp [joined, tail]
  | cons y l ih => show word x ++ 124 :: joined (y :: l) = _; rw [ih y]; rfl

theorem fold_tail (t : Tys) (l : List Ty) : ∀ a n, (l.foldl (appendTy t) (a, n + 1)).1 = a ++ tail (l.filter (fun x => t x)) := by
  induction l with
  | nil => intro a n; simp [tail]
  | cons x l ih =>
    intro a n
    show (l.foldl (appendTy t) (appendTy t (a, n + 1) x)).1 = _
    cases hx : t x with
    | true =>
      have e : appendTy t (a, n + 1) x = (a ++ [124] ++ word x, n + 1 + 1) := by simp [appendTy, hx]
      rw [e, ih]; simp [hx, tail]
    | false =>
      have e : appendTy t (a, n + 1) x = (a, n + 1) := by simp [appendTy, hx]
      rw [e, ih]; simp [hx]

theorem fold_joined (t : Tys) (l : List Ty) : (l.foldl (appendTy t) ([], 0)).1 = joined (l.filter (fun x => t x)) := by
  induction l with
  | nil => rfl
  | cons x l ih =>
    show (l.foldl (appendTy t) (appendTy t ([], 0) x)).1 = _
    cases hx : t x with
    | true =>
      have e : appendTy t ([], 0) x = (word x, 0 + 1) := by simp [appendTy, hx]
      rw [e, fold_tail t l (word x) 0]
      simp [hx, joined_tail]
    | false =>
      have e : appendTy t ([], 0) x = ([], 0) := by simp [appendTy, hx]
      rw [e, ih]; simp [hx]

theorem fold_union (l : List Ty) : ∀ (t : Tys) (x : Ty), ((l.map word).foldl (fun t p => union t (typeGet1 p)) t) x = (t x || decide (x ∈ l)) := by
  induction l with
  | nil => intro t x; simp
  | cons y l ih =>
    intro t x
    show ((l.map word).foldl _ (union t (typeGet1 (word y)))) x = _
    rw [ih]
    unfold union typeGet1
    have : decide (word y = word x) = decide (x = y) := by
      by_cases h : x = y
      · subst h; simp
      · simp [h]; intro e; exact h (word_inj e).symm
    rw [this]
    simp [Bool.or_assoc]

theorem bar_joined (x y : Ty) (l : List Ty) : 124 ∈ joined (x :: y :: l) := by
  show 124 ∈ word x ++ 124 :: joined (y :: l); simp

theorem typeGet_joined (l : List Ty) (h : l ≠ []) (x : Ty) : typeGet (joined l) x = decide (x ∈ l) := by
  match l, h with
  | [y], _ =>
    show typeGet (word y) x = _
    unfold typeGet typeGet1
    rw [if_neg (word_noBar y)]
    by_cases h : x = y
    · subst h; simp
    · simp [h]; intro e; exact h (word_inj e).symm
  | y :: z :: l, _ =>
    unfold typeGet
    rw [if_pos (bar_joined y z l), bars_joined, fold_union]
    simp [noTys]

theorem mem_order (x : Ty) (h : x ≠ .any) : x ∈ order := by cases x <;> first | (exact absurd rfl h) | (simp [order])

/-- **C121.** A set of types, none of them `any`, is shown as a text that stands for just that set. -/
theorem C121_types {t : Tys} (h0 : ∃ x, t x = true) (ha : t .any = false) : typeGet (typeName t) = t := by
  obtain ⟨x0, hx0⟩ := h0
  have hn : isNone t = false := by
    cases h : isNone t with
    | false => rfl
    | true => rw [(isNone_iff t).mp h] at hx0; cases hx0
  unfold typeName
  rw [hn, ha]
  simp only [Bool.or_self, Bool.false_eq_true, if_false]
  rw [fold_joined]
  have hmem : ∀ x, x ∈ order.filter (fun x => t x) ↔ t x = true := by
    intro x
    rw [List.mem_filter]
    constructor
    · exact fun h => h.2
    · intro h
      refine ⟨mem_order x ?_, h⟩
      intro e; subst e; rw [ha] at h; cases h
  have hne : order.filter (fun x => t x) ≠ [] := by
    intro e
    have := (hmem x0).mpr hx0
    rw [e] at this; cases this
  funext x
  rw [typeGet_joined _ hne]
  cases hx : t x with
  | true => simpa using (hmem x).mpr hx
  | false => simp only [decide_eq_false_iff_not]; rw [hmem, hx]; simp

/-- **C121** … A set with `any` is shown as `any`, which takes every value just as the set does. -/
theorem C121_any {t : Tys} (ha : t .any = true) : typeName t = asc "any" ∧ typeGet (typeName t) .any = true := by
  have h : typeName t = asc "any" := by unfold typeName; rw [ha]; simp
  refine ⟨h, ?_⟩
  rw [h]; decide +kernel

/-- **C121** … A text names exactly the types whose words are between its bars. -/
theorem C121_words (s : List UInt8) (x : Ty) : typeGet s x = true ↔ word x ∈ bars s := by
  unfold typeGet
  split
  · have gen : ∀ (l : List (List UInt8)) (t : Tys), (l.foldl (fun t p => union t (typeGet1 p)) t) x = true ↔ t x = true ∨ word x ∈ l := by
      intro l
      induction l with
      | nil => intro t; simp
      | cons p l ih =>
        intro t
        show (l.foldl _ (union t (typeGet1 p))) x = true ↔ _
        rw [ih]
        simp only [union, typeGet1, Bool.or_eq_true, decide_eq_true_eq, List.mem_cons]
        constructor
        · rintro ((h | h) | h)
          · exact Or.inl h
          · exact Or.inr (Or.inl h.symm)
          · exact Or.inr (Or.inr h)
        · rintro (h | h | h)
          · exact Or.inl (Or.inl h)
          · exact Or.inl (Or.inr h.symm)
          · exact Or.inr h
    rw [gen]; simp [noTys]
  · rename_i h
    rw [bars_noBar h]
    simp [typeGet1, eq_comm]

/-! ## Signatures -/

/-- What is written for a parameter: its name, the types if any, the default if any. -/
structure Shown where
  name : Name
  tys : Option (List UInt8)
  dflt : Option Dflt

/-- The bit that is taken away because the default implies it: `JSI_TT_NULL` or `1<<vt`, so for `void`, which is
an undefined value, that of `undefined`.  src/jsiFunc.c:646-647. -/
def shownBit : Dflt → Ty
  | .void => .undefined
  | d => d.ty

/-- The default as it is written: `Jsi_ValueGetDString` writes `undefined` for `void` too.
src/jsiFunc.c:652.  (That the texts of numbers and strings are read back as they were is not shown here.) -/
def shownDflt : Dflt → Dflt
  | .void => .undefined
  | d => d

/-- The types that are left to write. -/
def leftTys (p : Param) : Tys :=
  match p.dflt with
  | none => p.tys
  | some d => fun x => p.tys x && !decide (x = shownBit d)

/-- One parameter in `jsi_FuncArgsToString` with types.  src/jsiFunc.c:641-655. -/
def showParam (p : Param) : Shown :=
  ⟨p.name, if isNone (leftTys p) then none else some (typeName (leftTys p)), p.dflt.map shownDflt⟩

/-- Reading it again: the types written, then `jsi_argInsert`. -/
def readParam (s : Shown) : Param :=
  ⟨s.name, declTys ⟨s.name, (s.tys.map typeGet).getD noTys, s.dflt⟩, s.dflt⟩

/-- Taking and giving checks are the same. -/
def SameChecks (s t : Tys) : Prop := ∀ c v r d, argCheck c s v r d = argCheck c t v r d

theorem sameChecks_any {s t : Tys} (hs : s .any = true) (ht : t .any = true) : SameChecks s t := by
  have : ∀ u : Tys, u .any = true → ∀ c v r d, argCheck c u v r d = (c, true) := by
    intro u hu c v r d
    unfold argCheck
    rw [hu]
    simp only [Bool.or_true, Bool.not_true, Bool.and_false, Bool.false_eq_true, if_false, if_true]
    split; · rfl
    split <;> rfl
  intro c v r d
  rw [this s hs, this t ht]

/-- **C121** … A parameter shown with its types and read again checks its arguments as before and has the same
default, if the default is not `void`. -/
theorem C121_signature_partial (d : Decl) (hv : d.dflt ≠ some .void) :
    (readParam (showParam (keep d))).dflt = d.dflt ∧ (readParam (showParam (keep d))).name = d.name
    ∧ SameChecks (readParam (showParam (keep d))).tys (declTys d) := by
  have hD : d.dflt.map shownDflt = d.dflt := by
    cases hd : d.dflt with
    | none => rfl
    | some v => cases v <;> first | rfl | exact absurd hd hv
  have hB : ∀ v, d.dflt = some v → shownBit v = v.ty := by
    intro v e; cases v <;> first | rfl | exact absurd e hv
  have hty : ∀ v, d.dflt = some v → declTys d v.ty = true := fun v e => (declTys_iff d v.ty).mpr (Or.inr ⟨v, e, rfl⟩)
  refine ⟨hD, rfl, ?_⟩
  -- the set that is read
  have hread : (readParam (showParam (keep d))).tys = declTys ⟨d.name, ((showParam (keep d)).tys.map typeGet).getD noTys, d.dflt⟩ := by
    show declTys ⟨d.name, _, d.dflt.map shownDflt⟩ = _
    rw [hD]
  rw [hread]
  have hleft : ∀ x, leftTys (keep d) x = (declTys d x && !decide (∃ v, d.dflt = some v ∧ v.ty = x)) := by
    intro x
    unfold leftTys keep
    dsimp only
    cases hd : d.dflt with
    | none => simp
    | some v => simp only [hB v hd, Option.some.injEq, exists_eq_left', eq_comm]
  have hunion : ∀ (u : Tys) x, declTys ⟨d.name, u, d.dflt⟩ x = (u x || decide (∃ v, d.dflt = some v ∧ v.ty = x)) := by
    intro u x
    unfold declTys union single
    dsimp only
    cases hd : d.dflt with
    | none => simp
    | some v => simp [eq_comm]
  by_cases ha : leftTys (keep d) .any = true
  · apply sameChecks_any
    · rw [hunion]
      have hn : isNone (leftTys (keep d)) = false := by
        cases h : isNone (leftTys (keep d)) with
        | false => rfl
        | true => rw [(isNone_iff _).mp h] at ha; cases ha
      unfold showParam
      rw [hn]
      simp only [Bool.false_eq_true, if_false, Option.map_some, Option.getD_some]
      rw [(C121_any ha).2]; rfl
    · rw [hleft] at ha
      exact (Bool.and_eq_true _ _ ▸ ha : _ ∧ _).1
  · have ha : leftTys (keep d) .any = false := by simpa using ha
    have hback : ((showParam (keep d)).tys.map typeGet).getD noTys = leftTys (keep d) := by
      unfold showParam
      cases hn : isNone (leftTys (keep d)) with
      | true =>
        funext x
        rw [(isNone_iff _).mp hn x]; rfl
      | false =>
        simp only [Bool.false_eq_true, if_false, Option.map_some, Option.getD_some]
        apply C121_types _ ha
        apply Classical.byContradiction
        intro hne
        have : isNone (leftTys (keep d)) = true := by
          rw [isNone_iff]
          intro x
          cases hx : leftTys (keep d) x with
          | false => rfl
          | true => exact absurd ⟨x, hx⟩ hne
        rw [this] at hn; cases hn
    rw [hback]
    have heq : declTys ⟨d.name, leftTys (keep d), d.dflt⟩ = declTys d := by
      funext x
      rw [hunion, hleft]
      by_cases hx : ∃ v, d.dflt = some v ∧ v.ty = x
      · obtain ⟨v, e1, e2⟩ := hx
        have : declTys d x = true := by rw [← e2]; exact hty v e1
        simp [this, e1, e2]
      · simp [hx]
    rw [heq]
    intro c v r dd; rfl

/-- **C121** is not so for `void`: `function f(a=void)` is shown as `function f(a:void=undefined)`, which takes an
undefined argument that the function itself refuses. -/
theorem C121_void_refuted : ∃ d : Decl, ∃ c v, Strict c ∧ (argCheck c (declTys d) v false false).2 = false ∧
    (argCheck c (readParam (showParam (keep d))).tys v false false).2 = true ∧ (showParam (keep d)).tys = some (asc "void")
    ∧ (showParam (keep d)).dflt = some .undefined :=
  ⟨⟨asc "a", noTys, some .void⟩, ⟨false, false, false, false, 0, 50⟩, .undef, ⟨rfl, rfl⟩, by decide +kernel, by decide +kernel, by decide +kernel, rfl⟩

example : typeName (union (single .string) (single .number)) = asc "number|string" := by decide +kernel
example : typeGet (asc "string|number|function") .function = true := by decide +kernel

end Verif.Call
