import Verif.Fmt.CPrintf
import Verif.Utf8.Model

/-!
Model of `Jsi_FormatString` (src/jsiFormat.c), the work of the commands `format` and `printf`.

Modelled: the whole function with type checking on (`interp->noCheck` = 0, the default), the fixed
buffer `spec[100]`, the growing buffer for numbers with its `int` size arithmetic, `long` widths.
The format string is the list of bytes from the pointer `format` to the NUL; arguments are values of
three kinds.  Parameters: how a double is turned into a `long long`, displayed, and printed by
`snprintf` for a floating point directive.  An `int` overflow is modelled as wrapping.
Not modelled: error messages, allocation failure, `JSI_MAX_ALLOC_BUF`, memory leaks on error paths.
-/

namespace Verif.Fmt
open Verif Verif.Utf8

/-- An argument: a string (or String object), a number (or Number object), anything else with its
JSON form (`Jsi_ValueGetDString(.., JSI_OUTPUT_JSON)`) and its display form (`.., 0`). -/
inductive Arg (F : Type) where
  | str (b : List UInt8)
  | num (d : F)
  | other (json disp : List UInt8)

/-- The floating point environment. -/
structure Env (F : Type) where
  /-- `(Jsi_Wide)d`, which is also `(long)d`. -/
  wide : F → Int
  /-- The display form of a number, src/jsiUtils.c:751-774. -/
  disp : F → List UInt8
  /-- The JSON form of a number. -/
  json : F → List UInt8
  /-- What `snprintf(.., spec, d)` would print given room enough. -/
  dbl : List UInt8 → F → List UInt8

/-- The outcome. -/
inductive Out where
  | ok (out : List UInt8)
  /-- `JSI_ERROR`. -/
  | err
  /-- Undefined behaviour: a write past the end of a buffer, or an invalid directive given to
  `snprintf`. -/
  | undef
  /-- An argument that was not given is used (a null pointer). -/
  | null
  /-- The loop has not ended after as many rounds as allowed. -/
  | stuck
  deriving DecidableEq

/-- `step = Jsi_UtfToUniChar(format, &ch)`: character and step.  (`utfToUniChar` is never `none`:
theorem `Verif.Utf8.C06_decode_safe`, and `[]` reads the NUL.) -/
def peek (r : List UInt8) : Nat × Nat := (utfToUniChar r).getD (0, 1)

/-- src/jsiFormat.c:133-145, the flag characters. -/
def isFlag (ch : Nat) : Bool :=
  ch == 45 || ch == 48 || ch == 32 || ch == 43 || ch == 35 || ch == 39

/-- `isdigit(ch)`; for a character above 255 the C function is undefined, here it is false. -/
def isDigN (ch : Nat) : Bool := 48 ≤ ch && ch ≤ 57

/-- The value of a `long` (or `int`) variable after storing `z` in it. -/
def toLong (z : Int) : Int := Int.bmod z (2^64)
/-- See `toLong`. -/
def toInt (z : Int) : Int := Int.bmod z (2^32)

/-- State of the flag loop: `spec` up to `p`, `gotMinus`, `pad`, `format`. -/
structure Flags where
  spec : List UInt8
  minus : Bool
  pad : UInt8
  rem : List UInt8

/-- src/jsiFormat.c:129-153.  `none`: "spec too long".  The first argument only bounds the number of
rounds; it is the number of bytes left plus one (a flag takes at least a byte). -/
def flagLoop : Nat → Flags → Option Flags
  | 0, _ => none
  | n+1, s =>
    let ch := (peek s.rem).1
    if isFlag ch then
      let spec := s.spec ++ [UInt8.ofNat ch]
      if spec.length > 90 then none
      else flagLoop n ⟨spec, s.minus || ch == 45, if ch == 48 then 48 else s.pad, s.rem.drop (peek s.rem).2⟩
    else some s

/-- `strtoul(format, &end, 10)` on text that does not begin with a blank or a sign: the value,
`ULONG_MAX` if too big, and `end`. -/
def strtoul (r : List UInt8) : Nat × List UInt8 :=
  (min (val10 (r.takeWhile isDig)) (2^64 - 1), r.dropWhile isDig)

/-- An error or undefined behaviour on the way, or a result. -/
inductive R (α : Type) where
  | ok (a : α)
  | err
  | undef
  | null
  deriving DecidableEq

/-- Sequencing. -/
def R.bind {α β : Type} (x : R α) (f : α → R β) : R β :=
  match x with
  | .ok a => f a
  | .err => .err
  | .undef => .undef
  | .null => .null

/-- Sequencing with the outcome of the whole. -/
def R.out {α : Type} (x : R α) (f : α → Out) : Out :=
  match x with
  | .ok a => f a
  | .err => .err
  | .undef => .undef
  | .null => .null

/-- src/jsiUtils.c:2681-2693 `Jsi_GetLongFromValue` of `args[i]`. -/
def getLong {F} (E : Env F) (args : List (Arg F)) (i : Nat) : R Int :=
  match args[i]? with
  | some (.num d) => .ok (toLong (E.wide d))
  | _ => .err

/-- State after the width: `width`, `spec`, `gotMinus`, `format`, `argIndex`. -/
structure Wid where
  width : Int
  spec : List UInt8
  minus : Bool
  rem : List UInt8
  ai : Nat

/-- src/jsiFormat.c:159-185, the minimum field width. -/
def widthStep {F} (E : Env F) (args : List (Arg F)) (s : Flags) (ai : Nat) : R Wid :=
  let ch := (peek s.rem).1
  if isDigN ch then
    .ok ⟨toLong (strtoul s.rem).1, s.spec, s.minus, (strtoul s.rem).2, ai⟩
  else if ch == 42 then
    if ai + 1 ≥ args.length then .err
    else (getLong E args ai).bind fun w =>
      if w < 0 then
        .ok ⟨toLong (-w), if s.minus then s.spec else s.spec ++ [45], true, s.rem.drop (peek s.rem).2, ai + 1⟩
      else .ok ⟨w, s.spec, s.minus, s.rem.drop (peek s.rem).2, ai + 1⟩
  else .ok ⟨0, s.spec, s.minus, s.rem, ai⟩

/-- src/jsiFormat.c:192-196, the `.`: `gotPrecision` and `format`. -/
def dotStep (r : List UInt8) : Bool × List UInt8 :=
  if (peek r).1 == 46 then (true, r.drop (peek r).2) else (false, r)

/-- State after the precision: `precision`, `format`, `argIndex`. -/
structure Pre where
  prec : Int
  rem : List UInt8
  ai : Nat

/-- src/jsiFormat.c:191, 197-222, the precision. -/
def precStep {F} (E : Env F) (args : List (Arg F)) (r : List UInt8) (ai : Nat) : R Pre :=
  let ch := (peek r).1
  if isDigN ch then .ok ⟨toLong (strtoul r).1, (strtoul r).2, ai⟩
  else if ch == 42 then
    if ai + 1 ≥ args.length then .err
    else (getLong E args ai).bind fun p =>
      .ok ⟨if p < 0 then 0 else p, r.drop (peek r).2, ai + 1⟩
  else .ok ⟨0, r, ai⟩

/-- src/jsiFormat.c:228-238, the length modifier: `format` after it. -/
def lenMod (r : List UInt8) : List UInt8 :=
  if (peek r).1 == 104 then r.drop (peek r).2
  else if (peek r).1 == 108 then
    let r := r.drop (peek r).2
    if (peek r).1 == 108 then r.drop (peek r).2 else r
  else r

/-- `formatted_buf` (the first `formatted_bytes` bytes) and `formatted_chars`; and the new
`num_buffer_size`. -/
structure Piece where
  bytes : List UInt8
  chars : Int
  buf : Int

/-- src/jsiFormat.c:288-296 `doprec`: cut to the precision.  A negative `precision` comes only from a
literal of 2^63 or more; it is truncated to an `int`, and a negative length means "up to the NUL"
(src/jsiDString.c:98-99). -/
def doPrec (got : Bool) (prec : Int) (b : List UInt8) (buf : Int) : R Piece :=
  if got && decide (prec < b.length) then
    let m := toInt prec
    if m < 0 then .ok ⟨b.takeWhile (· ≠ 0), m, buf⟩
    else if m ≤ b.length then .ok ⟨b.take m.toNat, m, buf⟩
    else .undef
  else .ok ⟨b, b.length, buf⟩

/-- `doprec` for text that is in `pStr` itself: `Jsi_DSSetLength(&pStr, 0)` overwrites its first byte
with NUL (src/jsiDString.c:215-219) before the text is copied onto itself. -/
def doPrecSelf (got : Bool) (prec : Int) (b : List UInt8) (buf : Int) : R Piece :=
  if got && decide (prec < b.length) then
    let m := toInt prec
    if m < 0 then .ok ⟨[], m, buf⟩
    else if m ≤ b.length then .ok ⟨(b.set 0 0).take m.toNat, m, buf⟩
    else .undef
  else .ok ⟨b, b.length, buf⟩

/-- The display form of a value, `Jsi_ValueGetDString(interp, v, &sStr, 0)`; of a string the bytes
before the first NUL (src/jsiUtils.c:778-784). -/
def dispOf {F} (E : Env F) : Arg F → List UInt8
  | .str b => b.takeWhile (· ≠ 0)
  | .num d => E.disp d
  | .other _ s => s

/-- src/jsiFormat.c:260-276, conversions `q` and `S`. -/
def convS {F} (E : Env F) (q : Bool) (v : Arg F) (got : Bool) (prec : Int) (buf : Int) : R Piece :=
  match q, v with
  | true, .num d => doPrecSelf got prec (E.json d) buf
  | true, .other j _ => doPrecSelf got prec j buf
  | _, v => doPrec got prec (dispOf E v) buf

/-- src/jsiFormat.c:277-287, conversion `s`. -/
def convStr {F} (v : Arg F) (got : Bool) (prec : Int) (buf : Int) : R Piece :=
  match v with
  | .str b => doPrec got prec b buf
  | _ => .err

/-- src/jsiFormat.c:298-317, conversions `c` and `C`. -/
def convC {F} (E : Env F) (up : Bool) (v : Arg F) (buf : Int) : R Piece :=
  match v with
  | .str [b] => .ok ⟨[b], 1, buf⟩
  | .num d =>
    if E.wide d < 0 ∨ E.wide d > 255 then .err
    else .ok ⟨if up then uniCharToUtf (E.wide d).toNat else [UInt8.ofNat (E.wide d).toNat], 1, buf⟩
  | _ => .err

/-- src/jsiFormat.c:338-343: width and precision are written into `spec`. -/
def specNum (spec : List UInt8) (width : Int) (got : Bool) (prec : Int) : List UInt8 :=
  spec ++ (if width ≠ 0 then showInt width else []) ++ (if got then 46 :: showInt prec else [])

/-- src/jsiFormat.c:354-376, the variable `length`. -/
def lenOf (dbl : Bool) (width : Int) (got : Bool) (prec : Int) : Int :=
  let l : Int := if dbl then 320 else 24
  let l := if width > l then toInt width else l
  if got then toInt (l + prec) else l

/-- src/jsiFormat.c:378-391: the buffer is enlarged, `snprintf` writes at most
`(size_t)(length+1)` bytes of `text` and its NUL into it, and its content is measured. -/
def printNum (text : List UInt8) (length : Int) (buf : Int) : R Piece :=
  let need := toInt (length + 1)
  let buf := if buf < need then need else buf
  let size := (need % 2^64).toNat
  if size = 0 then .undef
  else
    let t := text.take (size - 1)
    if (t.length : Int) + 1 > buf then .undef
    else .ok ⟨t, t.length, buf⟩

/-- src/jsiFormat.c:319-393, the numeric conversions; `spec` is checked against its 100 bytes. -/
def convNum {F} (E : Env F) (dbl : Bool) (ch : UInt8) (v : Arg F) (spec : List UInt8) (width : Int)
    (got : Bool) (prec : Int) (buf : Int) : R Piece :=
  let sp := specNum spec width got prec
  if sp.length + 1 > 100 then .undef
  else match v with
    | .num d =>
      let sp := sp ++ (if dbl then [ch] else [108, 108, ch])
      if sp.length + 1 > 100 then .undef
      else if dbl then printNum (E.dbl sp d) (lenOf dbl width got prec) buf
      else match parseC (sp.drop 1) with
        | some c => printNum (cInt c (toLong (E.wide d))) (lenOf dbl width got prec) buf
        | none => .undef
    | _ => .err

/-- src/jsiFormat.c:319-326 -/
def isDblConv (ch : Nat) : Bool :=
  ch == 97 || ch == 65 || ch == 101 || ch == 69 || ch == 102 || ch == 103 || ch == 71

/-- src/jsiFormat.c:328-333 -/
def isIntConv (ch : Nat) : Bool := ch == 100 || ch == 117 || ch == 111 || ch == 120 || ch == 88

/-- src/jsiFormat.c:247-403, the conversion character and what it does. -/
def convert {F} (E : Env F) (ch : Nat) (v : Arg F) (spec : List UInt8) (width : Int) (got : Bool)
    (prec : Int) (buf : Int) : R Piece :=
  let ch := if ch == 105 then 100 else ch
  if ch == 0 then .err
  else if ch == 113 || ch == 83 then convS E (ch == 113) v got prec buf
  else if ch == 115 then convStr v got prec buf
  else if ch == 99 || ch == 67 then convC E (ch == 67) v buf
  else if isDblConv ch then convNum E true (UInt8.ofNat ch) v spec width got prec buf
  else if isIntConv ch then convNum E false (UInt8.ofNat ch) v spec width got prec buf
  else if spec.length + 1 + 26 > 100 then .undef else .err

/-- src/jsiFormat.c:405-417, padding. -/
def padOut (minus : Bool) (pad : UInt8) (width : Int) (p : Piece) : List UInt8 :=
  let k := (width - p.chars).toNat
  if minus then p.bytes ++ List.replicate k pad else List.replicate k pad ++ p.bytes

/-- What a directive gives: the text, `format`, `argIndex`, `num_buffer_size`. -/
structure Dir1 where
  text : List UInt8
  rem : List UInt8
  ai : Nat
  buf : Int

/-- The end of a directive, src/jsiFormat.c:228-419. -/
def finish {F} (E : Env F) (args : List (Arg F)) (pad : UInt8) (w : Wid) (got : Bool) (p : Pre)
    (buf : Int) : R Dir1 :=
  let r := lenMod p.rem
  match args[p.ai]? with
  | none => .null
  | some v =>
    (convert E (peek r).1 v w.spec w.width got p.prec buf).bind fun pc =>
      .ok ⟨padOut w.minus pad w.width pc, r.drop (peek r).2, p.ai + 1, pc.buf⟩

/-- src/jsiFormat.c:117-419: a directive whose `%` has been read, and which is not `%%`. -/
def directive {F} (E : Env F) (args : List (Arg F)) (rem : List UInt8) (ai : Nat) (buf : Int) :
    R Dir1 :=
  if ai ≥ args.length then .err
  else match flagLoop (rem.length + 1) ⟨[37], false, 32, rem⟩ with
    | none => .err
    | some f =>
      (widthStep E args f ai).bind fun w =>
      (precStep E args (dotStep w.rem).2 w.ai).bind fun p =>
      finish E args f.pad w (dotStep w.rem).1 p buf

/-- The state of the main loop: `format`, `span`, `numBytes`, `dStr`, `argIndex`, `num_buffer_size`. -/
structure St where
  rem : List UInt8
  span : List UInt8
  nb : Nat
  out : List UInt8
  ai : Nat
  buf : Int

/-- One round of the main loop, src/jsiFormat.c:78-420. -/
def round {F} (E : Env F) (args : List (Arg F)) (s : St) : R St :=
  let r := s.rem.drop (peek s.rem).2
  if (peek s.rem).1 ≠ 37 then .ok { s with rem := r, nb := s.nb + (peek s.rem).2 }
  else
    let out := s.out ++ s.span.take s.nb
    if (peek r).1 = 37 then
      .ok { s with rem := r.drop (peek r).2, span := r, nb := (peek r).2, out := out }
    else (directive E args r s.ai s.buf).bind fun d =>
      .ok ⟨d.rem, d.rem, 0, out ++ d.text, d.ai, d.buf⟩

/-- The main loop and the end, src/jsiFormat.c:78-431.  The first argument bounds the number of
rounds. -/
def loop {F} (E : Env F) (args : List (Arg F)) : Nat → St → Out
  | 0, _ => .stuck
  | n+1, s =>
    if s.rem = [] then .ok (s.out ++ s.span.take s.nb)
    else (round E args s).out (loop E args n)

/-- src/jsiFormat.c:57-440 `Jsi_FormatString` for the arguments `fmt` and `args`: here argument `i`
of the script call is `args[i]`, argument 0 being the format string itself. -/
def formatString {F} (E : Env F) (fmt : List UInt8) (args : List (Arg F)) : Out :=
  loop E (.str fmt :: args) (fmt.length + 1) ⟨fmt, fmt, 0, [], 1, 100⟩

end Verif.Fmt
