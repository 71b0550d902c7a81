import Verif.Basic
/-!
# System.matchObj (C201)

`SysMatchObjCmd` and `jsi_sysTypeGet` (src/jsiCmds.c 4016-4135).  An object is the list of its keys, in the order of
`Jsi_IterGetKeys`, with the names of the types of their values.  Strings are the bytes before the first NUL.
-/
namespace Verif.Match

abbrev Bytes := List UInt8

/-- `jsi_ValueTypeName`, `jsi_ObjectTypeName`: the names there are.  src/jsiFunc.c:50-80. -/
def typeNames : List Bytes :=
  ["number", "string", "boolean", "array", "function", "object", "regexp", "iter", "userobj", "any", "undefined", "variable", "null"].map asc

/-- Entries `key:type` with commas between them.  src/jsiCmds.c:4026-4030. -/
def entries : List (Bytes × Bytes) → Bytes
  | [] => []
  | [e] => e.1 ++ 58 :: e.2
  | e :: f :: r => e.1 ++ 58 :: e.2 ++ 44 :: entries (f :: r)

/-- `jsi_sysTypeGet` of an object.  src/jsiCmds.c:4022-4032. -/
def sysType (o : List (Bytes × Bytes)) : Bytes := 123 :: (entries o ++ [125])

/-- `isspace`. -/
def space (c : UInt8) : Bool := c == 32 || (9 ≤ c && c ≤ 13)

/-- The text without its spaces; none: the loop runs over the end of the text.  src/jsiCmds.c:4070-4077. -/
def strip : Bytes → Option Bytes
  | [] => some []
  | c :: t =>
    if space c then
      match t with
      | [] => none
      | _ :: _ => strip t
    else (strip t).map (c :: ·)

/-- … if there is a space in it.  src/jsiCmds.c:4068-4079. -/
def format (s : Bytes) : Option Bytes := if 32 ∈ s then strip s else some s

/-- The parts up to each comma.  src/jsiCmds.c:4088-4090, 4103. -/
def parts : Bytes → List Bytes
  | [] => []
  | c :: t =>
    if c = 44 then [] :: parts t
    else match parts t with
      | [] => [[c]]
      | h :: r => (c :: h) :: r

/-- `strstr`: from the first place on. -/
def find (sub : Bytes) : Bytes → Option Bytes
  | [] => if sub = [] then some [] else none
  | c :: t => if sub.isPrefixOf (c :: t) then some (c :: t) else find sub t

/-- A comma and the part, without the brace at its end.  src/jsiCmds.c:4091-4096. -/
def word (p : Bytes) : Bytes :=
  if 1 < (44 :: p).length ∧ (44 :: p).getLast? = some 125 then (44 :: p).dropLast else 44 :: p

/-- Where the part is.  src/jsiCmds.c:4097-4101. -/
def seek (ss p : Bytes) : Option Bytes :=
  if ss.head? = some 123 ∧ (word p).tail.isPrefixOf ss.tail = true then some (ss.drop (word p).length) else find (word p) ss

/-- All the parts.  src/jsiCmds.c:4086-4105. -/
def seekAll (ss : Bytes) : List Bytes → Bool
  | [] => true
  | p :: r =>
    match seek ss p with
    | none => false
    | some s => seekAll s r

/-- What the call does. -/
inductive Out where
  | ok (b : Bool)
  | error
  /-- It reads, and writes, behind the end of a string. -/
  | wild
  deriving DecidableEq

/-- No match: an error if assert is on, else false.  src/jsiCmds.c:4107-4112. -/
def mismatch (assert noerr : Bool) : Out := if assert && !noerr then .error else .ok false

/-- The texts are compared.  src/jsiCmds.c:4066-4113. -/
def compare (assert partl noerr : Bool) (o : List (Bytes × Bytes)) (s : Bytes) : Out :=
  match format s with
  | none => .wild
  | some f =>
    if sysType o = f then .ok true
    else if partl && decide (f ≠ []) then
      if seekAll f (parts (sysType o).tail) then .ok true else mismatch assert noerr
    else mismatch assert noerr

/-- `matchObj(o, s, partial, noerror)`; the flags are booleans or missing.  `junk`: what `noerror` has when it is not set.
src/jsiCmds.c:4035-4119. -/
def matchObj (assert junk : Bool) (o : List (Bytes × Bytes)) (s : Bytes) (partl noerr : Option Bool) : Out :=
  match partl with
  | none => compare assert false junk o s
  | some p =>
    match noerr with
    | none => .error
    | some n => compare assert p n o s

/-- `matchObj(o)`.  src/jsiCmds.c:4053-4058. -/
def typeOf (o : List (Bytes × Bytes)) : Bytes := sysType o

/-! ## What it should be -/

/-- Nothing of this text is a sign of the format. -/
def Plain (s : Bytes) : Prop := 44 ∉ s ∧ 58 ∉ s ∧ 123 ∉ s ∧ 125 ∉ s ∧ ∀ c ∈ s, space c = false

/-- Keys and types that can be written in a format, and each key once. -/
def Ok (o : List (Bytes × Bytes)) : Prop :=
  (∀ e ∈ o, Plain e.1 ∧ e.2 ∈ typeNames) ∧ (o.map (·.1)).Nodup

end Verif.Match
