import Verif.Value.Model
import Verif.Fmt.Model

/-!
Model of the Number object and of the conversions between numbers and texts: `Jsi_NumberIsInteger` and its
companions, `toFixed`, `toPrecision`, `toString` (src/jsiNumber.c), the text of a number (`Jsi_ValueToString`),
`Jsi_ValueToNumberInt` (src/jsiValue.c) and `parseInt` (src/jsiCmds.c).

Numbers are those of `Verif.Value`: `fin m` stands for `m * 2^-1074`.  The C library is modelled as glibc has it:
`printf` and `strtod` are exact and round to nearest, ties to even; a `double` outside the range of `int64_t`
converts to -2^63 (x86-64).
-/

namespace Verif.Number

open Verif Verif.Value

/-- A quotient rounded to the nearest whole number, ties to even (how `printf` and `strtod` round). -/
def roundDiv (a d : Nat) : Nat :=
  if 2 * (a % d) < d then a / d
  else if d < 2 * (a % d) then a / d + 1
  else a / d + a / d % 2

/-! ### Classification: src/jsiNumber.c 6-60 -/

/-- The conversion `(Jsi_Wide)n` of a `double` to `int64_t`: toward zero; -2^63 when out of range. -/
def toWide : Num → Int
  | .fin m =>
    if m.natAbs / one < 2 ^ 63 then (if m < 0 then -((m.natAbs / one : Nat) : Int) else ((m.natAbs / one : Nat) : Int))
    else -2 ^ 63
  | _ => -2 ^ 63

/-- The conversion `(Jsi_Number)w` of an `int64_t` to `double`: rounded. -/
def ofInt (w : Int) : Num := roundNum (w * one)

/-- C's `isnormal`: finite, at least 2^-1022 in magnitude. -/
def cNormal : Num → Bool
  | .fin m => decide (2 ^ 52 ≤ m.natAbs)
  | _ => false

/-- `Jsi_NumberIsNormal` (src/jsiNumber.c 8). -/
def isNormal (n : Num) : Bool := numEq n (.fin 0) || cNormal n

/-- `Jsi_NumberIsNaN` (src/jsiNumber.c 10-13). -/
def isNaN : Num → Bool
  | .nan => true
  | _ => false

/-- `Jsi_NumberIsInteger` (src/jsiNumber.c 25). -/
def isInteger (n : Num) : Bool := if cNormal n then numEq (ofInt (toWide n)) n else numEq n (.fin 0)

/-- `fabsl(n) <= 9007199254740991LL`. -/
def absLe53 : Num → Bool
  | .fin m => decide (m.natAbs ≤ 9007199254740991 * one)
  | _ => false

/-- `Jsi_NumberIsSafeInteger` (src/jsiNumber.c 27-31). -/
def isSafeInteger (n : Num) : Bool := isInteger n && absLe53 n

/-- Unary minus. -/
def negate : Num → Num
  | .nan => .nan
  | .inf b => .inf (!b)
  | .fin m => .fin (-m)

/-- `Jsi_NumberIsFinite` (src/jsiNumber.c 56-60). -/
def isFinite (n : Num) : Bool := !isNaN n && !numEq n (.inf false) && !numEq (.inf false) (negate n)

/-! ### A number as text: src/jsiNumber.c 46-75, src/jsiValue.c 508-528 -/

/-- The exponent of ten: 10^(ilog10 n) ≤ n < 10^(ilog10 n + 1), for n > 0. -/
def ilog10 (n : Nat) : Nat := (Fmt.digits 10 false n).length - 1

/-- 10^400. -/
def scale : Nat := 10 ^ 400

/-- What `printf`'s `%e` and `%g` work out for the magnitude `m * 2^-1074`, m > 0, with 15 digits: the digits as one number between
10^14 and 10^15, and the exponent of ten of the first of them.  (Every such magnitude is above 10^-400, hence the
factor, which keeps everything whole.) -/
def sci15 (m : Nat) : Nat × Int :=
  let L := ilog10 (m * scale / one)
  let D := roundDiv (m * scale) (one * 10 ^ (L - 14))
  if D = 10 ^ 15 then (10 ^ 14, (L : Int) + 1 - 400) else (D, (L : Int) - 400)

/-- The digits of a fraction without the zeros at the end (`%g` without `#`). -/
def stripZ (ds : List UInt8) : List UInt8 := (ds.reverse.dropWhile (· == 48)).reverse

/-- The point and the fraction; nothing when no digit is left. -/
def frac (fs : List UInt8) : List UInt8 := if stripZ fs = [] then [] else 46 :: stripZ fs

/-- The exponent of `%e`: sign and at least two digits. -/
def expText (x : Int) : List UInt8 :=
  101 :: (if x < 0 then 45 else 43) ::
    (if x.natAbs < 10 then 48 :: Fmt.digits 10 false x.natAbs else Fmt.digits 10 false x.natAbs)

/-- The layout of `%.15g` (C11 7.21.6.1): 15 digits `ds`, the first worth 10^x. -/
def layout (ds : List UInt8) (x : Int) : List UInt8 :=
  if x < -4 ∨ 15 ≤ x then ds.take 1 ++ frac (ds.drop 1) ++ expText x
  else if 0 ≤ x then ds.take (x.toNat + 1) ++ frac (ds.drop (x.toNat + 1))
  else 48 :: frac (List.replicate ((-x).toNat - 1) 48 ++ ds)

/-- `snprintf("%.15g")` of a finite number that is not zero (`Jsi_NumberDtoA`, src/jsiNumber.c 62-75, with the default
`dblPrec` of 16, src/jsiInterp.c 1140: prec = 15). -/
def fmtG (m : Int) : List UInt8 :=
  (if m < 0 then [45] else []) ++ layout (Fmt.digits 10 false (sci15 m.natAbs).1) (sci15 m.natAbs).2

/-- The text of a number: `Jsi_ValueToString` (src/jsiValue.c 508-528), and what string concatenation, `Number.toString()`,
property names and JSON output use.  A number that is neither whole, normal, NaN nor infinite (a subnormal one) leaves the text at
its initial value `undefined` after the message "Ieee function got problem" (the message is not modelled). -/
def numText (n : Num) : List UInt8 :=
  if isInteger n then Fmt.showInt (toWide n)
  else if isNormal n then
    match n with
    | .fin m => fmtG m
    | _ => []
  else
    match n with
    | .nan => asc "NaN"
    | .inf false => asc "Infinity"
    | .inf true => asc "-Infinity"
    | .fin _ => asc "undefined"

/-! ### A text as number: `strtod`, src/jsiValue.c 604-609 -/

/-- The digits of a decimal text after the sign: `digits [. digits] [e [sign] digits]`, the whole text: the number formed by all
the digits and the exponent of ten that goes with it. -/
def readExp (s : List UInt8) : Option Int :=
  match s with
  | [] => some 0
  | c :: t =>
    if c = 101 ∨ c = 69 then
      match t with
      | 45 :: u => if u ≠ [] ∧ u.all Fmt.isDig then some (-(Fmt.val10 u : Int)) else none
      | 43 :: u => if u ≠ [] ∧ u.all Fmt.isDig then some (Fmt.val10 u) else none
      | u => if u ≠ [] ∧ u.all Fmt.isDig then some (Fmt.val10 u) else none
    else none

/-- The digits after the point, and what follows them. -/
def splitFrac : List UInt8 → List UInt8 × List UInt8
  | 46 :: t => (t.takeWhile Fmt.isDig, t.dropWhile Fmt.isDig)
  | t => ([], t)

/-- An unsigned decimal text: all its digits as one number and the exponent of ten of the last of them. -/
def readUDec (s : List UInt8) : Option (Nat × Int) :=
  let ip := s.takeWhile Fmt.isDig
  let r := splitFrac (s.dropWhile Fmt.isDig)
  if ip = [] ∧ r.1 = [] then none
  else (readExp r.2).map fun e => (Fmt.val10 (ip ++ r.1), e - (r.1.length : Int))

/-- A magnitude that is the quotient `a / b` in units of 2^-1074, rounded to 53 bits. -/
def roundRat (a b : Nat) : Nat := roundDiv a (b * 2 ^ (log2 (a / b) - 52)) * 2 ^ (log2 (a / b) - 52)

/-- The `double` nearest to `D * 10^q`, as a magnitude in units of 2^-1074. -/
def decMag (D : Nat) (q : Int) : Nat := roundRat (D * 10 ^ q.toNat * one) (10 ^ (-q).toNat)

/-- The `double` nearest to `±D * 10^q`. -/
def decNum (neg : Bool) (D : Nat) (q : Int) : Num :=
  if limit ≤ decMag D q then .inf neg
  else .fin (if neg then -(decMag D q : Int) else (decMag D q : Int))

/-- `strtod` on a whole text, unsigned part.  Blanks before the number, hexadecimal numbers and the other spellings of
infinity are left out of the model. -/
def strtodU (neg : Bool) (s : List UInt8) : Num :=
  if s = asc "Infinity" then .inf neg
  else
    match readUDec s with
    | some (D, q) => decNum neg D q
    | none => .nan

/-- `Number(text)`: `strtod`, and NaN when something is left over (src/jsiValue.c 604-609). -/
def toNumber (s : List UInt8) : Num :=
  match s with
  | 45 :: t => strtodU true t
  | 43 :: t => strtodU false t
  | s => strtodU false s

/-! ### `toFixed`, `toPrecision`, `toString`: src/jsiNumber.c 123-213 -/

/-- A number with leading zeros up to `w` digits. -/
def padded (w n : Nat) : List UInt8 :=
  List.replicate (w - (Fmt.digits 10 false n).length) 48 ++ Fmt.digits 10 false n

/-- `printf("%.*f")`. -/
def fmtF (p : Nat) : Num → List UInt8
  | .nan => asc "nan"
  | .inf neg => if neg then asc "-inf" else asc "inf"
  | .fin m =>
    let N := roundDiv (m.natAbs * 10 ^ p) one
    (if m < 0 then [45] else []) ++ Fmt.digits 10 false (N / 10 ^ p) ++
      (if p = 0 then [] else 46 :: padded p (N % 10 ^ p))

/-- `toFixed(p)` (src/jsiNumber.c 123-139): the buffer holds 100 characters. -/
def toFixed (n : Num) (prec : Int) : List UInt8 := (fmtF prec.toNat n).take 100

/-- The end of `toPrecision`: cut after `p+1` characters, and a point at the end goes. -/
def cutAt (p : Nat) (s : List UInt8) : List UInt8 :=
  if (s.take (p + 1))[p]? = some 46 then s.take p else s.take (p + 1)

/-- `toPrecision(prec)` (src/jsiNumber.c 141-161).  `none`: an error.  The buffer holds 199 characters. -/
def toPrecision (n : Num) (prec : Int) : Option (List UInt8) :=
  if prec ≤ 0 ∨ 100 < prec then none
  else some (cutAt (if numLt n (.fin 0) then prec.toNat + 1 else prec.toNat) ((fmtF prec.toNat n).take 199))

/-- A 64-bit pattern as unsigned number (`%llx`, `%llo`). -/
def toU64 (w : Int) : Nat := (w % 2 ^ 64).toNat

/-- `toString(radix)` (src/jsiNumber.c 192-213); `none` as first result: an error.  `radix = none`: called without argument. -/
def toStringCmd (n : Num) (radix : Option Int) : Option (List UInt8) :=
  match radix with
  | none => some (numText n)
  | some r =>
    if r < 2 then none
    else if r = 16 then some (Fmt.digits 16 false (toU64 (toWide n)))
    else if r = 8 then some (Fmt.digits 8 false (toU64 (toWide n)))
    else if r = 10 then some (Fmt.showInt (toWide n))
    else some (numText n)

/-! ### `parseInt`: src/jsiCmds.c 550-588 -/

/-- C's `isspace`. -/
def isSpace (c : UInt8) : Bool := c == 32 || (9 ≤ c && c ≤ 13)

/-- The value of a digit in base `b` (`strtol`). -/
def digVal (b : Nat) (c : UInt8) : Option Nat :=
  let v := if 48 ≤ c ∧ c ≤ 57 then c.toNat - 48 else if 97 ≤ c ∧ c ≤ 122 then c.toNat - 87
    else if 65 ≤ c ∧ c ≤ 90 then c.toNat - 55 else 99
  if v < b then some v else none

/-- Digits up to the first character that is none. -/
def readDigits (b : Nat) : Nat → List UInt8 → Nat
  | acc, [] => acc
  | acc, c :: t =>
    match digVal b c with
    | some v => readDigits b (acc * b + v) t
    | none => acc

/-- `x` or `X` -/
def isX (c : UInt8) : Bool := c == 120 || c == 88

/-- The magnitude `strtoll` reads after the sign: `0x` in base 16 or 0; base 0 takes the base from the text. -/
def readMag (b : Nat) (s : List UInt8) : Nat :=
  match s with
  | 48 :: x :: t =>
    if isX x ∧ (b = 16 ∨ b = 0) then readDigits 16 0 t
    else readDigits (if b = 0 then 8 else b) 0 (x :: t)
  | s => readDigits (if b = 0 then 10 else b) 0 s

/-- Saturation of `strtoll`. -/
def clamp (z : Int) : Int := if z < -2 ^ 63 then -2 ^ 63 else if 2 ^ 63 ≤ z then 2 ^ 63 - 1 else z

/-- `strtoll(s, &eptr, base)` (and `strtol`, of the same width). -/
def strtoll (b : Nat) (s : List UInt8) : Int :=
  match s.dropWhile isSpace with
  | 45 :: t => clamp (-(readMag b t : Int))
  | 43 :: t => clamp (readMag b t)
  | t => clamp (readMag b t)

/-- The argument of `parseInt`: a text or a number (other values give NaN or are not modelled). -/
inductive PArg where
  | str (s : List UInt8)
  | num (n : Num)

/-- The end of `parseInt`: NaN stays, everything else goes through `int64_t`. -/
def wideBack (d : Num) : Num := if isNaN d then .nan else ofInt (toWide d)

/-- `Jsi_ValueToNumberInt(v, 1)` of a text (src/jsiValue.c 610-622). -/
def toNumberInt (s : List UInt8) : Num :=
  match s with
  | c :: _ => if Fmt.isDig c then ofInt (toWide (ofInt (strtoll 0 s))) else .nan
  | [] => .nan

/-- `parseInt` of a text (src/jsiCmds.c 560-579); `none`: an error. -/
def parseIntStr (s : List UInt8) (base : Option Int) : Option Num :=
  match s, base with
  | 48 :: 120 :: _, _ => some (wideBack (ofInt (strtoll 16 s)))
  | 48 :: _, none => some (wideBack (ofInt (strtoll 8 s)))
  | _, none => some (wideBack (toNumberInt s))
  | _, some b => if b < 2 ∨ 36 < b then none else some (wideBack (ofInt (strtoll b.toNat s)))

/-- `parseInt` (src/jsiCmds.c 550-588); `none`: an error.  (No default base is filled in, although the declaration at
5200 names one.) -/
def parseInt (v : PArg) (base : Option Int) : Option Num :=
  match v with
  | .num n => some (wideBack n)
  | .str s => parseIntStr s base

end Verif.Number
