import Verif.Basic
import Verif.Utf8.Model

/-!
Model of `Jsi_GlobMatch` (src/jsiUtils.c:2167-2228) and `JsiCharsetMatch` (src/jsiUtils.c:1973-2031), used by
`File.glob`, `Info`, and the option functions.

A `const char *` is the list of the bytes up to the NUL, as in `Verif.Utf8.Model`; the result `none` is an
access behind the NUL.  `toupper` is that of the C locale (glibc gives its argument back beyond 255).
-/

namespace Verif.Glob

open Verif.Utf8

/-- `s += k`, for a pointer that is read next. -/
def adv (s : List UInt8) (k : Nat) : Option (List UInt8) := if k ≤ s.length then some (s.drop k) else none

/-- `toupper` in the C locale. -/
def toupper (n : Nat) : Nat := if 97 ≤ n ∧ n ≤ 122 then n - 32 else n

/-- src/jsiUtf8.c:170-181  `Jsi_UtfToUniCharCase`. -/
def uniCase (nocase : Bool) (s : List UInt8) : Option (Nat × Nat) :=
  (utfToUniChar s).map fun r => (if nocase ∧ r.1 < 0x80 then toupper r.1 else r.1, r.2)

/-- src/jsiUtils.c:2014: either order of the ends. -/
def inRange (c start e : Nat) : Bool := (c ≥ start && c ≤ e) || (c ≥ e && c ≤ start)

/-- The loop of src/jsiUtils.c:1997-2030; `fuel` bounds the steps (each takes a byte of the pattern).  The
inner `none` is the result NULL. -/
def charsetLoop (nocase : Bool) (c : Nat) : Nat → Bool → List UInt8 → Option (Option (List UInt8))
  | 0, _, _ => none
  | fuel + 1, m, p => do
    let b ← rdC p 0
    if b = 0 ∨ b = 93 then some (if m then some p else none)
    else if b = 92 then
      let r ← uniCase nocase p
      let p1 ← adv p r.2
      charsetLoop nocase c fuel (m || r.1 == c) p1
    else
      let r ← uniCase nocase p
      let p1 ← adv p r.2
      let d ← rdC p1 0
      let d1 ← if d = 45 then rdC p1 1 else some 0
      if d = 45 ∧ d1 ≠ 0 then
        let q ← utfToUniChar p1
        let p2 ← adv p1 q.2
        let e ← uniCase nocase p2
        let p3 ← adv p2 e.2
        charsetLoop nocase c fuel (m || inRange c r.1 e.1) p3
      else charsetLoop nocase c fuel (m || r.1 == c) p1

/-- src/jsiUtils.c:1973-2031  `JsiCharsetMatch` as called by `Jsi_GlobMatch` (without
`JSI_CMP_CHARSET_SCAN`, so lines 1985-1995 are skipped). -/
def charset (nocase : Bool) (p : List UInt8) (c : Nat) : Option (Option (List UInt8)) :=
  charsetLoop nocase (if nocase then toupper c else c) (p.length + 1) false p

/-- src/jsiUtils.c:2181-2185: the loop after a star; `g` is the recursive call on the rest of the pattern,
`fuel` bounds the steps (each takes a byte of the string). -/
def starLoop (g : List UInt8 → Option Bool) : Nat → List UInt8 → Option Bool
  | 0, _ => none
  | fuel + 1, s => do
    let b ← rdC s 0
    if b = 0 then some false
    else
      let r ← g s
      if r then some true
      else
        let q ← utfToUniChar s
        let s1 ← adv s q.2
        starLoop g fuel s1

/-- src/jsiUtils.c:2216-2227: after one character; `g` is the loop. -/
def next (nocase : Bool) (g : List UInt8 → List UInt8 → Option Bool) (p s : List UInt8) : Option Bool := do
  let r ← uniCase nocase p
  let p1 ← adv p r.2
  let sb ← rdC s 0
  if sb = 0 then
    let b ← rdC (p1.dropWhile (· = 42)) 0
    some (decide (b = 0))
  else g p1 s

/-- The loop of src/jsiUtils.c:2171-2227 from `pattern = p`, `string = s`; `fuel` bounds the steps (each takes
a byte of the pattern). -/
def globLoop (nocase : Bool) : Nat → List UInt8 → List UInt8 → Option Bool
  | 0, _, _ => none
  | fuel + 1, p, s => do
    let b ← rdC p 0
    if b = 0 then
      let sb ← rdC s 0
      some (decide (sb = 0))
    else if b = 42 then
      let p1 := p.dropWhile (· = 42)
      let b1 ← rdC p1 0
      if b1 = 0 then some true
      else starLoop (globLoop nocase fuel p1) (s.length + 1) s
    else if b = 63 then
      let q ← utfToUniChar s
      let s1 ← adv s q.2
      next nocase (globLoop nocase fuel) p s1
    else if b = 91 then
      let q ← utfToUniChar s
      let r ← charset nocase (p.drop 1) q.1
      match r with
      | none => some false
      | some p1 =>
        let s1 ← adv s q.2
        let b1 ← rdC p1 0
        if b1 = 0 then globLoop nocase fuel p1 s1
        else next nocase (globLoop nocase fuel) p1 s1
    else
      let b1 ← if b = 92 then rdC p 1 else some 0
      let p1 := if b1 ≠ 0 then p.drop 1 else p
      let q ← uniCase nocase s
      let r ← uniCase nocase p1
      if r.1 ≠ q.1 then some false
      else
        let s1 ← adv s q.2
        next nocase (globLoop nocase fuel) p1 s1
/-- src/jsiUtils.c:2167-2228  `Jsi_GlobMatch`. -/
def globMatch (p s : List UInt8) (nocase : Bool) : Option Bool := globLoop nocase (p.length + 1) p s

end Verif.Glob
