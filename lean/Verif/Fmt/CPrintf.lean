import Verif.Basic

/-!
What the C library's `printf` family does with one integer directive (C11 7.21.6.1): the part of
libc that `format` relies on.  This file models the C standard, not code of /repo; it is part of the
trusted base of the theorems about `format`.
-/

namespace Verif.Fmt

/-- A digit, `0`..`9` then `a`.. or `A`... -/
def digit (up : Bool) (d : Nat) : UInt8 :=
  if d < 10 then UInt8.ofNat (48 + d) else UInt8.ofNat ((if up then 55 else 87) + d)

/-- The digits of `n` in base `b`, most significant first, no leading zero. -/
def digits (b : Nat) (up : Bool) (n : Nat) : List UInt8 :=
  if h : n < b ∨ b < 2 then [digit up n] else digits b up (n / b) ++ [digit up (n % b)]
termination_by n
decreasing_by exact Nat.div_lt_self (by omega) (by omega)

/-- `'0'`..`'9'`. -/
def isDig (c : UInt8) : Bool := 48 ≤ c && c ≤ 57

/-- The value of a run of decimal digits. -/
def val10 (ds : List UInt8) : Nat := ds.foldl (fun a c => a * 10 + (c.toNat - 48)) 0

/-- `sprintf(p, "%ld", z)`. -/
def showInt (z : Int) : List UInt8 :=
  if z < 0 then 45 :: digits 10 false z.natAbs else digits 10 false z.natAbs

/-- One parsed directive of `printf`. -/
structure CDir where
  /-- `-` -/
  minus : Bool
  /-- `+` -/
  plus : Bool
  /-- a blank -/
  space : Bool
  /-- `#` -/
  alt : Bool
  /-- `0` -/
  zero : Bool
  width : Nat
  prec : Option Nat
  conv : UInt8
  deriving DecidableEq

/-- The flag characters of `printf` (C11 7.21.6.1p6, and POSIX's `'`). -/
def isFlagB (c : UInt8) : Bool :=
  c == 45 || c == 48 || c == 32 || c == 43 || c == 35 || c == 39

/-- `.` and digits, if any (C11: a `.` alone is precision 0), and what follows. -/
def parsePrec : List UInt8 → Option Nat × List UInt8
  | 46 :: r => (some (val10 (r.takeWhile isDig)), r.dropWhile isDig)
  | r => (none, r)

/-- The directive after `%`, with the length modifier `ll` of the integer conversions. -/
def parseC (s : List UInt8) : Option CDir :=
  let fl := s.takeWhile isFlagB
  let r := s.dropWhile isFlagB
  let w := val10 (r.takeWhile isDig)
  let pr := parsePrec (r.dropWhile isDig)
  match pr.2 with
  | [108, 108, c] => some ⟨fl.contains 45, fl.contains 43, fl.contains 32, fl.contains 35, fl.contains 48, w, pr.1, c⟩
  | _ => none

/-- The magnitude printed: the value itself for `d`, the value modulo 2^64 for the unsigned ones. -/
def mag (conv : UInt8) (w : Int) : Nat := if conv = 100 then w.natAbs else (w % 2^64).toNat

/-- The base of a conversion. -/
def baseOf (conv : UInt8) : Nat := if conv = 111 then 8 else if conv = 120 ∨ conv = 88 then 16 else 10

/-- The digits with the precision applied: at least `prec` digits, none for 0 with precision 0,
and for `#o` one more zero in front if the first digit is not `0`. -/
def body (d : CDir) (w : Int) : List UInt8 :=
  let m := mag d.conv w
  let ds := if d.prec = some 0 ∧ m = 0 then [] else digits (baseOf d.conv) (d.conv == 88) m
  let ds := List.replicate (d.prec.getD 1 - ds.length) 48 ++ ds
  if d.conv = 111 ∧ d.alt ∧ ds.head? ≠ some 48 then 48 :: ds else ds

/-- The sign or the `0x` in front. -/
def lead (d : CDir) (w : Int) : List UInt8 :=
  if d.conv = 100 then
    if w < 0 then [45] else if d.plus then [43] else if d.space then [32] else []
  else if (d.conv = 120 ∨ d.conv = 88) ∧ d.alt ∧ mag d.conv w ≠ 0 then [48, d.conv] else []

/-- The text printed for the integer `w`. -/
def cInt (d : CDir) (w : Int) : List UInt8 :=
  let l := lead d w
  let b := body d w
  let k := d.width - (l.length + b.length)
  if d.minus then l ++ b ++ List.replicate k 32
  else if d.zero ∧ d.prec = none then l ++ List.replicate k 48 ++ b
  else List.replicate k 32 ++ l ++ b

end Verif.Fmt
