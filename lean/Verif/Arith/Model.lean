import Verif.Number.Model

/-!
Model of the operators on numbers: `&`, `|`, `^`, `~`, `<<`, `>>`, `>>>`, `%`, `++`, `--` (src/jsiEval.c) and of
`Math.min`, `Math.max`, `Math.round`, `Math.pow` (src/jsiMath.c).  The operands are numbers already (`Jsi_ValueToNumber`).
Conversions of a `double` to an integer type that it does not fit in are undefined in C; the model has what gcc makes of
them on x86-64.
-/

namespace Verif.Arith

open Verif Verif.Value Verif.Number

/-- The outcome of an operator: a number or an error ("value is NaN", which is raised when `strict` is set). -/
abbrev Res := Option Num

/-- `(Jsi_UWide)d`: below 2^63 the conversion to a signed number is used, above it 2^63 is subtracted first. -/
def toUWide : Num → Nat
  | .nan => 2 ^ 63
  | .inf neg => if neg then 2 ^ 63 else 0
  | .fin m =>
    if 2 ^ 63 * (one : Int) ≤ m then (if m.natAbs / one < 2 ^ 64 then m.natAbs / one else 0)
    else (toWide (.fin m) % 2 ^ 64).toNat

/-- `_jsi_StrictChk2` (src/jsiEval.c 18). -/
def chk2 (strict : Bool) (a b : Num) (r : Num) : Res :=
  if strict = false ∨ (isNaN a = false ∧ isNaN b = false) then some r else none

/-- `common_bitwise_opr` (src/jsiEval.c 229-238). -/
def bitOp (f : Nat → Nat → Nat) (strict : Bool) (a b : Num) : Res :=
  chk2 strict a b (ofInt (f (toUWide a) (toUWide b) : Nat))

/-- `a & b` (src/jsiEval.c 1590) -/
def opAnd : Bool → Num → Num → Res := bitOp (· &&& ·)
/-- `a | b` (src/jsiEval.c 1592) -/
def opOr : Bool → Num → Num → Res := bitOp (· ||| ·)
/-- `a ^ b` (src/jsiEval.c 1594) -/
def opXor : Bool → Num → Num → Res := bitOp (· ^^^ ·)

/-- `jsi_ValueToOInt32` of a number (src/jsiValue.c 688-696, 622): the fraction is dropped; despite its name not reduced to 32
bits. -/
def toO (n : Num) : Num := if isNormal n then ofInt (toWide n) else n

/-- `(int)d` then stored in 32 bits (`Verif.Value.toInt`). -/
def int32 (z : Int) : Int := (z + 2 ^ 31) % 2 ^ 32 - 2 ^ 31

/-- `(unsigned int)d & 0x1f`: gcc converts to 64 bits and takes the low part. -/
def shiftCount (n : Num) : Nat := (toWide (toO n) % 32).toNat

/-- `~a` (src/jsiEval.c 1424-1430) -/
def opNot (strict : Bool) (a : Num) : Res :=
  if strict = false ∨ isNaN (toO a) = false then some (ofInt (-(toInt (toO a)) - 1)) else none

/-- `a << b` (src/jsiEval.c 1596-1617; `t1 <<= t2` on int) -/
def opShl (a b : Num) : Num := ofInt (int32 (toInt (toO a) * 2 ^ shiftCount b))
/-- `a >> b` -/
def opShr (a b : Num) : Num := ofInt (toInt (toO a) / 2 ^ shiftCount b)
/-- `a >>> b` -/
def opUshr (a b : Num) : Num := ofInt (toInt (toO a) % 2 ^ 32 / 2 ^ shiftCount b)

/-- `fmod`; `a % b` (src/jsiEval.c 1532-1543) -/
def fmod : Num → Num → Num
  | .nan, _ => .nan
  | _, .nan => .nan
  | .inf _, _ => .nan
  | .fin a, .inf _ => .fin a
  | .fin a, .fin b => if b = 0 then .nan else .fin (Int.tmod a b)

/-- `a % b` with its check. -/
def opMod (strict : Bool) (a b : Num) : Res := chk2 strict a b (fmod a b)

/-- Addition of doubles. -/
def add (a b : Num) : Num := sub a (negate b)

/-- `++` and `--` (src/jsiEval.c 1705-1742) on a variable that holds a number: the new content of the variable and the value of
the expression; `post`: the operator stands behind the variable (`ip->data`). -/
def opInc (inc post : Bool) (v : Num) : Num × Num :=
  let i := if inc then whole1 1 else whole1 (-1)
  let v' := add v i
  (v', if post then sub v' i else v')
where
  /-- 1 and -1 -/
  whole1 (k : Int) : Num := .fin (k * one)

/-- The loop of `Math.min` (src/jsiMath.c 38-57). -/
def minLoop : Num → List Num → Num
  | n, [] => n
  | n, x :: r => minLoop (if numLt n x then n else x) r
/-- The loop of `Math.max` (src/jsiMath.c 60-80). -/
def maxLoop : Num → List Num → Num
  | n, [] => n
  | n, x :: r => maxLoop (if numLt x n then n else x) r
/-- `Math.min` -/
def mathMin : List Num → Option Num
  | [] => none
  | x :: r => some (minLoop x r)
/-- `Math.max` -/
def mathMax : List Num → Option Num
  | [] => none
  | x :: r => some (maxLoop x r)

/-- C's `round`: to the nearest whole number, halves away from zero; `Math.round` (src/jsiMath.c 118). -/
def mathRound : Num → Num
  | .fin m => .fin ((if m < 0 then -1 else 1) * (((2 * m.natAbs + one) / (2 * one) : Nat) : Int) * one)
  | n => n

/-- C's `floor`; `Math.floor` (src/jsiMath.c 8-19, 116) -/
def mathFloor : Num → Num
  | .fin m => .fin (m / one * one)
  | n => n

/-- C's `ceil`; `Math.ceil` (src/jsiMath.c 8-19, 113) -/
def mathCeil : Num → Num
  | .fin m => .fin (-(-m / one) * one)
  | n => n

/-- `MFUNC2` (src/jsiMath.c 21-36): the result of `powl` or `atan2`, when it is not normal, becomes NaN. -/
def mfunc2 (r : Num) : Num := if isNormal r then r else .nan

end Verif.Arith
