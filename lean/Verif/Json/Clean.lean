import Verif.Json.Props
import Verif.Str.Model
import Mathlib.Data.List.TakeWhile
/-!
# Values passed between interpreters (C199)

`Jsi_CleanValue` (src/jsiInterp.c 227-274).  What is not a scalar is written as JSON, not strict (keys that are names are written
without quotes), and read again.  Numbers are whole numbers, as in the module Json; functions and other objects are not modelled.
-/
namespace Verif.Json

/-- `Jsi_StrIsAlnum`.  src/jsiUtils.c:510-525. -/
def nameStart (c : UInt8) : Bool := (65 ≤ c && c ≤ 90) || (97 ≤ c && c ≤ 122) || c == 95

/-- The same, after the first character. -/
def nameChar (c : UInt8) : Bool := nameStart c || (48 ≤ c && c ≤ 57)

/-- A key is written without quotes; `kw` are the words of the language (lexkeyTbl).  src/jsiUtils.c:693-694. -/
def bareKey (kw : List (List UInt8)) (k : List UInt8) : Bool :=
  match k with
  | [] => false
  | c :: t => nameStart c && t.all nameChar && !kw.contains k

/-- A key as it is written.  src/jsiUtils.c:693-698. -/
def keyText (kw : List (List UInt8)) (k : List UInt8) : List UInt8 :=
  if bareKey kw k then k else [34] ++ k ++ [34]

mutual
/-- `jsiValueGetString` with JSI_OUTPUT_JSON alone: as `str`, but for the keys.  src/jsiUtils.c:681-900. -/
def strN (kw : List (List UInt8)) (maxDepth : Nat) (d : Nat) (v : JVal) : Option (List UInt8) :=
  if 0 < maxDepth ∧ maxDepth < d then none
  else match v with
  | .undef => some (asc "undefined")
  | .null => some (asc "null")
  | .bool b => some (if b then asc "true" else asc "false")
  | .num n => some (dec n)
  | .str o s => some (quote (strBytes o s))
  | .arr .nil => some (asc "[]")
  | .arr (.cons v t) => (strNArr kw maxDepth (d + 1) true (.cons v t)).map (fun b => asc "[ " ++ b ++ asc " ]")
  | .obj .nil => some (asc "{}")
  | .obj (.cons k v t) => (strNObj kw maxDepth (d + 1) true (.cons k v t)).map (fun b => asc "{ " ++ b ++ asc " }")
/-- The elements.  src/jsiUtils.c:853-868. -/
def strNArr (kw : List (List UInt8)) (maxDepth : Nat) (d : Nat) (isFirst : Bool) (l : JArr) : Option (List UInt8) :=
  match l with
  | .nil => some []
  | .cons v t => (strN kw maxDepth d v).bind fun a => (strNArr kw maxDepth d false t).map fun b =>
      (if isFirst then [] else asc ", ") ++ a ++ b
/-- The properties.  src/jsiUtils.c:681-704. -/
def strNObj (kw : List (List UInt8)) (maxDepth : Nat) (d : Nat) (isFirst : Bool) (l : JObj) : Option (List UInt8) :=
  match l with
  | .nil => some []
  | .cons k v t =>
    if v = .undef then strNObj kw maxDepth d false t
    else (strN kw maxDepth d v).bind fun a => (strNObj kw maxDepth d false t).map fun b =>
      (if isFirst then [] else asc ", ") ++ keyText kw k ++ [58] ++ a ++ b
end

/-- Written and read again; `none`: "bad JSON parse in subinterp".  src/jsiInterp.c:265-271. -/
def cleanText (kw : List (List UInt8)) (maxDepth cap : Nat) (v : JVal) : Option JVal :=
  match strN kw maxDepth 0 v with
  | none => none
  | some t => match parse false cap t with
    | .ok w => some w
    | .error _ => none

/-- `Jsi_CleanValue`; `isKey`: isstrkey of a string object.  src/jsiInterp.c:227-274. -/
def clean (kw : List (List UInt8)) (maxDepth cap : Nat) (isKey : Bool) (v : JVal) : Option JVal :=
  match v with
  | .undef => some .undef
  | .null => some .null
  | .bool b => some (.bool b)
  | .num n => some (.num n)
  | .str false s => some (.str false (Str.cstr s))
  | .str true s => some (.str false (if isKey then Str.cstr s else s))
  | .arr l => cleanText kw maxDepth cap (.arr l)
  | .obj l => cleanText kw maxDepth cap (.obj l)

/-! ## Theorems -/

/-- **C199 (part).** undefined, null, booleans and numbers are passed as they are. -/
theorem C199_scalar_partial (kw : List (List UInt8)) (md cap : Nat) (k : Bool) (v : JVal)
    (h : v = .undef ∨ v = .null ∨ (∃ b, v = .bool b) ∨ ∃ n, v = .num n) : clean kw md cap k v = some v := by
  rcases h with rfl | rfl | ⟨b, rfl⟩ | ⟨n, rfl⟩ <;> rfl

/-- **C199 (part).** A string without a NUL is passed as it is. -/
theorem C199_string_partial (kw : List (List UInt8)) (md cap : Nat) (k o : Bool) (s : List UInt8) (h : 0 ∉ s) :
    clean kw md cap k (.str o s) = some (.str false s) := by
  have e : Str.cstr s = s := by
    unfold Str.cstr
    rw [List.takeWhile_eq_self_iff]
    intro c hc
    simp only [decide_eq_true_eq]
    intro h0
    exact h (h0 ▸ hc)
  cases o with
  | false => show some (JVal.str false (Str.cstr s)) = _; rw [e]
  | true => cases k with
    | false => rfl
    | true => show some (JVal.str false (Str.cstr s)) = _; rw [e]

/-! ## Where it is not so -/

/-- **C199 refuted.** A string is cut off at a NUL. -/
theorem C199_nul_refuted (kw : List (List UInt8)) (md cap : Nat) :
    clean kw md cap false (.str false [97, 0, 98]) = some (.str false [97]) := rfl

/-- **C199 refuted.** undefined in an array (as all arguments of a call are) becomes null, … -/
theorem C199_undefined_refuted : clean [] 0 9 false (.arr (.cons .undef .nil)) = some (.arr (.cons .null .nil)) := by decide +kernel

/-- … and a character beyond U+FFFF another. -/
theorem C199_emoji_refuted : clean [] 0 9 false (.arr (.cons (.str true [0xf0, 0x9f, 0x98, 0x80]) .nil)) =
    some (.arr (.cons (.str true [0xef, 0x98, 0x80]) .nil)) := by decide +kernel

/-! ## Cases -/

/-- `[1, "é", {ab: [true]}]` -/
def sampleArr : JVal := .arr (.cons (.num 1) (.cons (.str false [0xc3, 0xa9])
  (.cons (.obj (.cons (asc "ab") (.arr (.cons (.bool true) .nil)) .nil)) .nil)))

example : sampleArr.Good ∧ sampleArr.Fits 3 ∧ sampleArr.depth = 3 := by
  refine ⟨?_, by simp [sampleArr, JVal.Fits, JObj.Fits, JArr.Fits, JArr.length], by decide +kernel⟩
  · simp only [sampleArr, JVal.Good, JObj.Good, JArr.Good, JObj.keys]
    exact ⟨trivial, ⟨['é'], by decide +kernel, by decide +kernel, by decide +kernel⟩,
      ⟨⟨['a', 'b'], by decide +kernel, by decide +kernel⟩, ⟨trivial, trivial⟩, by simp, trivial⟩, trivial⟩

/-- Keys that are names are written without quotes; this too is read again. -/
example : strN [] 0 0 (.obj (.cons (asc "a1") (.num 1) .nil)) = some (asc "{ a1:1 }") ∧
    clean [] 0 9 false (.obj (.cons (asc "a1") (.num 1) .nil)) = some (.obj (.cons (asc "a1") (.num 1) .nil)) ∧
    strN [asc "in"] 0 0 (.obj (.cons (asc "in") (.num 1) .nil)) = some (asc "{ \"in\":1 }") := by
  refine ⟨?_, ?_, ?_⟩ <;> decide +kernel

end Verif.Json
