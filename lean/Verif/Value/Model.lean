import Verif.Basic

/-!
Model of the comparisons of values: `Jsi_ValueCmp` (`==`, `!=`), `Jsi_ValueIsEqual` (`===`, `!==`),
`Jsi_ValueIsTrue`, `jsiLogicLess` (`<`, `>`, `<=`, `>=`), src/jsiValue.c and src/jsiEval.c.

Numbers are IEEE binary64.  Every finite binary64 number is an integer multiple of 2^-1074; `fin m` stands for
`m * 2^-1074` (the sign of zero does not matter to any comparison).  The subtraction of two numbers is rounded to
nearest, ties to even.  `strtod` and the printing of numbers are parameters.
-/

namespace Verif.Value

/-- The unit: `fin one` is the number 1. -/
def one : Nat := 2 ^ 1074

/-- A binary64 number. -/
inductive Num where
  | nan
  | inf (neg : Bool)
  | fin (m : Int)
deriving DecidableEq

/-- Largest power of two not above `n` (0 for 0): position of the leading bit. -/
def log2 (n : Nat) : Nat := Nat.log2 n

/-- Round a magnitude to 53 significant bits, nearest, ties to even. -/
def roundNat (m : Nat) : Nat :=
  if m < 2 ^ 53 then m
  else
    if 2 * (m % 2 ^ (log2 m - 52)) < 2 ^ (log2 m - 52) then m / 2 ^ (log2 m - 52) * 2 ^ (log2 m - 52)
    else if 2 ^ (log2 m - 52) < 2 * (m % 2 ^ (log2 m - 52)) then
      (m / 2 ^ (log2 m - 52) + 1) * 2 ^ (log2 m - 52)
    else if m / 2 ^ (log2 m - 52) % 2 = 0 then m / 2 ^ (log2 m - 52) * 2 ^ (log2 m - 52)
    else (m / 2 ^ (log2 m - 52) + 1) * 2 ^ (log2 m - 52)

/-- The limit of binary64: 2^1024. -/
def limit : Nat := 2 ^ (1024 + 1074)

/-- Rounding with overflow. -/
def roundNum (m : Int) : Num :=
  if limit ≤ roundNat m.natAbs then .inf (decide (m < 0))
  else .fin (if m < 0 then -(roundNat m.natAbs : Int) else (roundNat m.natAbs : Int))

/-- IEEE subtraction. -/
def sub : Num → Num → Num
  | .nan, _ => .nan
  | _, .nan => .nan
  | .inf a, .inf b => if a = b then .nan else .inf a
  | .inf a, .fin _ => .inf a
  | .fin _, .inf b => .inf (!b)
  | .fin a, .fin b => roundNum (a - b)

/-- Conversion of a `double` to `int`: toward zero; what is not in range gives INT_MIN (the x86-64 instruction; the C
standard leaves it undefined). -/
def toInt : Num → Int
  | .nan => -2147483648
  | .inf _ => -2147483648
  | .fin m =>
    if m.natAbs / one < 2147483648 then (if m < 0 then -((m.natAbs / one : Nat) : Int) else ((m.natAbs / one : Nat) : Int))
    else -2147483648

/-- C `==` on doubles. -/
def numEq : Num → Num → Bool
  | .nan, _ => false
  | _, .nan => false
  | a, b => a == b

/-- C `<` on doubles. -/
def numLt : Num → Num → Bool
  | .nan, _ => false
  | _, .nan => false
  | .inf a, .inf b => a && !b
  | .inf a, .fin _ => a
  | .fin _, .inf b => !b
  | .fin a, .fin b => decide (a < b)

/-- What kind of object (src/jsi.h `JSI_OT_*`): a wrapper of a primitive, or anything else. -/
inductive OKind where
  | bool (b : Bool)
  | num (n : Num)
  | str (s : List UInt8)
  | other
deriving DecidableEq

/-- A value; an object is its address. Strings are counted, they may contain NUL bytes. -/
inductive Val where
  | undef
  | null
  | bool (b : Bool)
  | num (n : Num)
  | str (s : List UInt8)
  | obj (id : Nat)
deriving DecidableEq

/-- What the comparisons depend on: the objects, `strtod` (NaN when something is left over,
src/jsiValue.c:607-612), `Jsi_ValueToString` of what is not a string. -/
structure Ctx where
  kind : Nat → OKind
  strtod : List UInt8 → Num
  toStr : Val → List UInt8

/-- `v->vt`. -/
def vt : Val → Nat
  | .undef => 0
  | .bool _ => 1
  | .num _ => 2
  | .str _ => 3
  | .null => 4
  | .obj _ => 5

/-- The bytes `strcmp` looks at. -/
def cstr (s : List UInt8) : List UInt8 := s.takeWhile (· ≠ 0)

/-- `strcmp(a,b)`: sign of the comparison, bytes unsigned. -/
def strcmpL : List UInt8 → List UInt8 → Int
  | [], [] => 0
  | [], _ :: _ => -1
  | _ :: _, [] => 1
  | a :: as, b :: bs => if a < b then -1 else if b < a then 1 else strcmpL as bs

def strcmp (a b : List UInt8) : Int := strcmpL (cstr a) (cstr b)

/-- `jsi_ValueToPrimitiveRes`, src/jsiValue.c:868-893: an object that wraps nothing becomes `undefined`. -/
def toPrim (c : Ctx) : Val → Val
  | .obj i =>
    match c.kind i with
    | .bool b => .bool b
    | .num n => .num n
    | .str s => .str s
    | .other => .undef
  | v => v

/-- `Jsi_ValueToNumberInt(.., 0, ..)`, src/jsiValue.c:571-628. -/
def toNum (c : Ctx) : Val → Num
  | .undef => .nan
  | .null => .fin 0
  | .bool b => if b then .fin one else .fin 0
  | .num n => n
  | .str s => c.strtod (cstr s)
  | .obj i =>
    match c.kind i with
    | .bool b => if b then .fin one else .fin 0
    | .num n => n
    | .str s => c.strtod (cstr s)
    | .other => .fin 0

/-- `Jsi_ValueCmp`, lines 919-958, two values of the same type: is the result 0?  Simplification: two objects compare
equal exactly when they are the same (the code truncates the distance of the addresses to 32 bits). -/
def sameType (c : Ctx) : Val → Val → Bool
  | .num a, .num b => numEq b a
  | .bool a, .bool b => a == b
  | .str a, .str b => strcmp b a == 0
  | .obj i, .obj j =>
    match c.kind i, c.kind j with
    | .str a, .str b => strcmp b a == 0
    | _, _ => i == j
  | .undef, .undef => true
  | .null, .null => true
  | _, _ => false

/-- `Jsi_ValueCmp(interp, v1, v2, 0) == 0`, src/jsiValue.c:895-961 (the operands are in different stack slots, so
`v1 == v2` at line 901 does not happen). -/
def looseEq (c : Ctx) (v1 v2 : Val) : Bool :=
  if vt v1 = vt v2 then sameType c v1 v2
  else if vt (toPrim c v1) = vt (toPrim c v2) then sameType c (toPrim c v1) (toPrim c v2)
  else if (toPrim c v1 = .undef ∨ toPrim c v1 = .null) ∧ (toPrim c v2 = .undef ∨ toPrim c v2 = .null) then true
  else toInt (sub (toNum c (toPrim c v2)) (toNum c (toPrim c v1))) == 0

/-- `Jsi_ValueIsBoolean`, `Jsi_ValueIsNumber`, `Jsi_ValueIsString` with the content
(src/jsiValue.c:390-433, src/jsiUtils.c:2635-2651). -/
def asBool (c : Ctx) : Val → Option Bool
  | .bool b => some b
  | .obj i => match c.kind i with | .bool b => some b | _ => none
  | _ => none

def asNum (c : Ctx) : Val → Option Num
  | .num n => some n
  | .obj i => match c.kind i with | .num n => some n | _ => none
  | _ => none

def asStr (c : Ctx) : Val → Option (List UInt8)
  | .str s => some s
  | .obj i => match c.kind i with | .str s => some s | _ => none
  | _ => none

/-- `v1->vt == JSI_VT_OBJECT && v2->vt == JSI_VT_OBJECT && v1->d.obj == v2->d.obj`. -/
def sameObj : Val → Val → Bool
  | .obj i, .obj j => i == j
  | _, _ => false

/-- If both sides have content of the kind tested, compare it, else go on with `k`. -/
def both {α : Type} (a b : Option α) (f : α → α → Bool) (k : Bool) : Bool :=
  match a with
  | none => k
  | some x =>
    match b with
    | none => k
    | some y => f x y

/-- `Jsi_ValueIsEqual`, src/jsiValue.c:776-802. -/
def isEqual (c : Ctx) (v1 v2 : Val) : Bool :=
  if sameObj v1 v2 = true then true
  else if v1 = .null ∧ v2 = .null then true
  else if v1 = .undef ∧ v2 = .undef then true
  else
    both (asBool c v1) (asBool c v2) (fun a b => a == b)
      (both (asNum c v1) (asNum c v2) numEq
        (both (asStr c v1) (asStr c v2) (fun a b => a.length == b.length && strcmp a b == 0) false))

/-- `OP_STRICTEQU`, src/jsiEval.c:1578-1589: `lhs === rhs`; with type checking on (`interp->noCheck == 0`, the
default) an undefined left operand is an error unless the right one is undefined too.  `none`: error. -/
def strictOp (c : Ctx) (check : Bool) (lhs rhs : Val) : Option Bool :=
  if check = true ∧ lhs = .undef ∧ rhs ≠ .undef then none else some (isEqual c rhs lhs)

/-- `OP_EQUAL`, src/jsiEval.c:1568-1577. -/
def looseOp (c : Ctx) (lhs rhs : Val) : Bool := looseEq c rhs lhs

/-- The result of `<` and its relatives: an error, `undefined`, or a boolean. -/
inductive Rel where
  | error
  | undef
  | bool (b : Bool)
deriving DecidableEq

/-- `jsiLogicLess`, src/jsiEval.c:240-285: v1 < v2. -/
def less (c : Ctx) (check : Bool) (v1 v2 : Val) : Rel :=
  if check = true ∧ (v1 = .undef ∨ v2 = .undef) then .error
  else
    match asStr c v1, asStr c v2 with
    | none, none =>
      if check = true ∧ (toNum c v1 = .nan ∨ toNum c v2 = .nan) then .error
      else if toNum c v1 = .nan ∨ toNum c v2 = .nan then .undef
      else .bool (numLt (toNum c v1) (toNum c v2))
    | s1, s2 =>
      .bool (let a := s1.getD (c.toStr v1)
             let b := s2.getD (c.toStr v2)
             if strcmp a b > 0 then false
             else if strcmp a b < 0 then true
             else decide (a.length < b.length))

/-- Negation of a result (`_jsi_TOQ->d.val = !_jsi_TOQ->d.val`): `undefined` stays `undefined`. -/
def Rel.neg : Rel → Rel
  | .bool b => .bool (!b)
  | r => r

/-- `OP_LESS`, `OP_GREATER`, `OP_LESSEQU`, `OP_GREATEREQU`, src/jsiEval.c:1544-1567, operands in source order. -/
def opLess (c : Ctx) (check : Bool) (l r : Val) : Rel := less c check l r
def opGreater (c : Ctx) (check : Bool) (l r : Val) : Rel := less c check r l
def opLessEq (c : Ctx) (check : Bool) (l r : Val) : Rel := (less c check r l).neg
def opGreaterEq (c : Ctx) (check : Bool) (l r : Val) : Rel := (less c check l r).neg

end Verif.Value
