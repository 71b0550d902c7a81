import Verif.Basic

/-!
Model of src/jsiUtf8.c (with `JSI__UTF8` on, the default) and of the string commands that index
text by character: `substr`, `charAt`, `charCodeAt` (src/jsiString.c).

A `const char *` is modelled by the list of bytes from that pointer up to (not including) the NUL
terminator, so `s + k` is `s.drop k`, and reads go through `rdC`, which is `none` past the NUL.
`int` arithmetic is unbounded (strings are far below 2^31 bytes).
-/

namespace Verif.Utf8

/-- A `char` store: the low eight bits. -/
def u8 (n : Nat) : UInt8 := UInt8.ofNat n

/-- src/jsiUtf8.c:11-33 `Jsi_UniCharToUtf`: the bytes written (their number is the return value).
Restricted to non-negative `Jsi_UniChar`. -/
def uniCharToUtf (uc : Nat) : List UInt8 :=
  if uc ≤ 0x7f then [u8 uc]
  else if uc ≤ 0x7ff then
    [u8 (0xc0 ||| ((uc &&& 0x7c0) >>> 6)), u8 (0x80 ||| (uc &&& 0x3f))]
  else if uc ≤ 0xffff then
    [u8 (0xe0 ||| ((uc &&& 0xf000) >>> 12)), u8 (0x80 ||| ((uc &&& 0xfc0) >>> 6)),
     u8 (0x80 ||| (uc &&& 0x3f))]
  else
    [u8 (0xf0 ||| ((uc &&& 0x1c0000) >>> 18)), u8 (0x80 ||| ((uc &&& 0x3f000) >>> 12)),
     u8 (0x80 ||| ((uc &&& 0xfc0) >>> 6)), u8 (0x80 ||| (uc &&& 0x3f))]

/-- src/jsiUtf8.c:35-46 `Jsi_NumUtfBytes`; `-1` for a continuation or invalid byte. -/
def numUtfBytes (c : UInt8) : Int :=
  if c &&& 0x80 = 0 then 1
  else if c &&& 0xe0 = 0xc0 then 2
  else if c &&& 0xf0 = 0xe0 then 3
  else if c &&& 0xf8 = 0xf0 then 4
  else -1

/-- `(b & 0xc0) == 0x80`. -/
def isCont (b : UInt8) : Bool := b &&& 0xc0 == 0x80

/-- `b & ~m` for a byte `b` promoted to `int`. -/
def andNot (b : UInt8) (m : UInt8) : Nat := (b &&& ~~~m).toNat

/-- src/jsiUtf8.c:185-217 `Jsi_UtfToUniChar`: the code point and the number of bytes consumed;
`none` is a read past the NUL terminator. The `&&` chains read lazily, as in C. -/
def utfToUniChar (s : List UInt8) : Option (Nat × Nat) :=
  (rdC s 0).bind fun s0 =>
  if s0 < 0xc0 then some (s0.toNat, 1)
  else if s0 < 0xe0 then
    (rdC s 1).bind fun s1 =>
    if isCont s1 then some ((andNot s0 0xc0 <<< 6) ||| andNot s1 0x80, 2)
    else some (s0.toNat, 1)
  else if s0 < 0xf0 then
    (rdC s 1).bind fun s1 =>
    if isCont s1 then
      (rdC s 2).bind fun s2 =>
      if isCont s2 then
        some ((andNot s0 0xe0 <<< 12) ||| (andNot s1 0x80 <<< 6) ||| andNot s2 0x80, 3)
      else some (s0.toNat, 1)
    else some (s0.toNat, 1)
  else if s0 < 0xf8 then
    (rdC s 1).bind fun s1 =>
    if isCont s1 then
      (rdC s 2).bind fun s2 =>
      if isCont s2 then
        (rdC s 3).bind fun s3 =>
        if isCont s3 then
          some ((andNot s0 0xf0 <<< 18) ||| (andNot s1 0x80 <<< 12) ||| (andNot s2 0x80 <<< 6)
            ||| andNot s3 0x80, 4)
        else some (s0.toNat, 1)
      else some (s0.toNat, 1)
    else some (s0.toNat, 1)
  else some (s0.toNat, 1)

/-- src/jsiUtf8.c:57-61 `Jsi_NumUtfChars(s,-1)`: counts the non-continuation bytes before the NUL. -/
def numUtfChars : List UInt8 → Nat
  | [] => 0
  | b :: t => if b = 0 then 0 else (if isCont b then 0 else 1) + numUtfChars t

/-- src/jsiUtf8.c:132-146 `Jsi_UtfIndexToOffset` for `index ≥ 0`. -/
def indexToOffset : Nat → List UInt8 → Option Nat
  | 0, _ => some 0
  | n+1, s =>
    (rdC s 0).bind fun c =>
    if c = 0 then some 0
    else if c &&& 0x80 ≠ 0 then
      (utfToUniChar s).bind fun r =>
      (indexToOffset n (s.drop r.2)).map (r.2 + ·)
    else (indexToOffset n (s.drop 1)).map (1 + ·)

/-- `strlen`. -/
def strlen (s : List UInt8) : Nat := (s.takeWhile (· ≠ 0)).length

/-- src/jsiUtf8.c:97 `while (n < 0) n += lenofa;` (reached only with `lenofa > 0`). -/
def fixNeg (lenofa : Nat) (n : Int) : Nat :=
  if n < 0 ∧ 0 < lenofa then fixNeg lenofa (n + lenofa) else n.toNat
termination_by (-n).toNat
decreasing_by omega

/-- src/jsiUtf8.c:92-130 `Jsi_UtfSubstr(str, bLen, n, len, dStr)` with `bLen` the length of the
string in bytes: the bytes appended to `dStr`. -/
def utfSubstr (s : List UInt8) (n len : Int) : Option (List UInt8) :=
  if n < 0 ∧ numUtfChars s = 0 then some []
  else
    let n := fixNeg (numUtfChars s) n
    (indexToOffset n s).bind fun m =>
    (if len < 0 then some (m, strlen (s.drop m))
     else
       (indexToOffset len.toNat (s.drop m)).bind fun e =>
       (rdC s m).bind fun c =>
       let l := if numUtfBytes c < 0 then 1 else numUtfBytes c
       some (m, e + l.toNat - 1)).bind fun (ustart, ulen) =>
    let ulen := if ulen > s.length - ustart then s.length - ustart else ulen
    some ((s.drop ustart).take ulen)

/-- src/jsiChar.c:79-103 `jsi_SubstrDup` with `alen = |a|`, for `len ≠ 0`.
`none` is the endless loop at line 88 for the empty string and a negative start. -/
def substrDup (a : List UInt8) (start len : Int) : Option (List UInt8) :=
  if len = 0 then some []
  else if start < 0 ∧ a.length = 0 then none
  else
    let start := fixNeg a.length start
    if start ≥ a.length then some []
    else
      let maxcpy := a.length - start
      let maxcpy := if 0 < len then min maxcpy len.toNat else maxcpy
      some ((a.drop start).take maxcpy)

/-- src/jsiString.c:109-152 `String.substr(start, len?)` on a string value (arguments already
converted to `int`). `ChkString` (6-15) sets `sLen` to the number of characters. -/
def substrCmd (s : List UInt8) (start : Int) (len : Option Int) : Option (List UInt8) :=
  let sLen := numUtfChars s
  let bLen := s.length
  match len with
  | none => if sLen = bLen then substrDup s start (-1) else utfSubstr s start (-1)
  | some ilen =>
    if ilen ≤ 0 then some []
    else if sLen = bLen then substrDup s start ilen
    else
      let ilen := if ilen > bLen - start then bLen - start else ilen
      utfSubstr s start ilen

/-- src/jsiString.c:463-486 `String.charAt(pos)`: out of range positions give "". -/
def charAtCmd (s : List UInt8) (pos : Int) : Option (List UInt8) :=
  if pos < 0 ∨ pos ≥ numUtfChars s then some [] else utfSubstr s pos 1

/-- src/jsiString.c:299-334 `String.charCodeAt(pos)`; outer `none` is undefined behaviour, inner
`none` is NaN. -/
def charCodeAtCmd (s : List UInt8) (pos : Int) : Option (Option Nat) :=
  if 0 ≤ pos ∧ pos < numUtfChars s then
    (indexToOffset pos.toNat s).bind fun m =>
    (utfToUniChar (s.drop m)).map fun r => some r.1
  else some none

end Verif.Utf8
