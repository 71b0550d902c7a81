import Verif.Fmt.Model

/-!
What `format` is meant to do, in the words of C's `printf`: a format is a sequence of characters,
`%%`, and directives; every directive takes its arguments from the front of what is left of the
argument list.
-/

namespace Verif.Fmt

/-- A width or precision as written. -/
inductive Num0 where
  | none
  | lit (n : Nat)
  | star

/-- A directive as written: `%`, flags, width, `.precision`, length modifier, conversion. -/
structure Dir where
  flags : List UInt8
  width : Num0
  prec : Num0
  mod : List UInt8
  conv : UInt8

/-- A piece of a format. -/
inductive Seg where
  | chr (c : Char)
  | pct
  | dir (d : Dir)

/-- How a number is written. -/
def Num0.text : Num0 → List UInt8
  | .none => []
  | .lit n => digits 10 false n
  | .star => [42]

/-- How the precision is written. -/
def precText : Num0 → List UInt8
  | .none => []
  | n => 46 :: n.text

/-- How a directive is written. -/
def Dir.text (d : Dir) : List UInt8 :=
  37 :: d.flags ++ d.width.text ++ precText d.prec ++ d.mod ++ [d.conv]

/-- How a piece is written. -/
def Seg.text : Seg → List UInt8
  | .chr c => String.utf8EncodeChar c
  | .pct => [37, 37]
  | .dir d => d.text

/-- The format string. -/
def fmtText (l : List Seg) : List UInt8 := l.flatMap Seg.text

/-- A directive that makes sense: at most 70 flags, a width without leading zero (that would be a
flag), one of the conversions and of the length modifiers. -/
structure Dir.Ok (d : Dir) : Prop where
  flags : ∀ c ∈ d.flags, c ∈ asc "-0 +#'"
  few : d.flags.length ≤ 70
  width : ∀ n, d.width = .lit n → n ≠ 0
  mod : d.mod ∈ [[], asc "h", asc "l", asc "ll"]
  conv : d.conv ∈ asc "diuoxXsSqcCaAeEfgG"

/-- A piece that makes sense. -/
def Seg.Ok : Seg → Prop
  | .chr c => c ≠ '%'
  | .pct => True
  | .dir d => d.Ok

/-- The result: text, an error, or a width or precision above 10^9 (about which nothing is said). -/
inductive Res where
  | ok (out : List UInt8)
  | err
  | big
  deriving DecidableEq

/-- `n` blanks or zeros. -/
def fill (c : UInt8) (n : Nat) : List UInt8 := List.replicate n c

/-- Text in a field: cut to the precision, then filled to the width. -/
def field (minus zero : Bool) (width : Nat) (t : List UInt8) : List UInt8 :=
  if minus then t ++ fill 32 (width - t.length)
  else fill (if zero then 48 else 32) (width - t.length) ++ t

/-- One character in a field. -/
def field1 (minus zero : Bool) (width : Nat) (t : List UInt8) : List UInt8 :=
  if minus then t ++ fill 32 (width - 1) else fill (if zero then 48 else 32) (width - 1) ++ t

/-- Cut to the precision. -/
def cut (prec : Option Nat) (t : List UInt8) : List UInt8 :=
  match prec with
  | some p => t.take p
  | none => t

/-- A precision as written for C. -/
def precC : Option Nat → List UInt8
  | some p => 46 :: digits 10 false p
  | none => []

/-- The directive handed on to C's `printf` for a floating point number: `-` is added when it came
from a negative width. -/
def cText (flags : List UInt8) (addMinus : Bool) (width : Nat) (prec : Option Nat) (conv : UInt8) : List UInt8 :=
  37 :: flags ++ (if addMinus then [45] else []) ++ (if width = 0 then [] else digits 10 false width) ++
    precC prec ++ [conv]

/-- What a directive prints for the value `v`, or an error. -/
def conv1 {F} (E : Env F) (d : Dir) (minus : Bool) (width : Nat) (prec : Option Nat) (v : Arg F) : Res :=
  let zero := d.flags.contains 48
  if d.conv ∈ asc "s" then
    match v with
    | .str b => .ok (field minus zero width (cut prec b))
    | _ => .err
  else if d.conv ∈ asc "S" then
    match v with
    | .str b => .ok (field minus zero width (cut prec b))
    | .num x => .ok (field minus zero width (cut prec (E.disp x)))
    | .other _ t => .ok (field minus zero width (cut prec t))
  else if d.conv ∈ asc "q" then
    match v with
    | .str b => .ok (field minus zero width (cut prec b))
    | .num x => .ok (field minus zero width (cut prec (E.json x)))
    | .other t _ => .ok (field minus zero width (cut prec t))
  else if d.conv ∈ asc "cC" then
    match v with
    | .str [b] => .ok (field1 minus zero width [b])
    | .num x =>
      if 0 ≤ E.wide x ∧ E.wide x ≤ 255 then
        .ok (field1 minus zero width
          (if d.conv ∈ asc "C" then String.utf8EncodeChar (Char.ofNat (E.wide x).toNat)
           else [UInt8.ofNat (E.wide x).toNat]))
      else .err
    | _ => .err
  else
    match v with
    | .num x =>
      if d.conv ∈ asc "diuoxX" then
        .ok (cInt ⟨minus, d.flags.contains 43, d.flags.contains 32, d.flags.contains 35, zero, width, prec,
          if d.conv ∈ asc "i" then 100 else d.conv⟩ (E.wide x))
      else .ok (E.dbl (cText d.flags (minus && !d.flags.contains 45) width prec d.conv) x)
    | _ => .err

/-- The result of a directive, and the arguments left over. -/
inductive Res1 (F : Type) where
  | ok (out : List UInt8) (rest : List (Arg F))
  | err
  | big

/-- A width: `*` takes an argument, and one must be left after it. -/
def widthOf {F} (E : Env F) : Num0 → List (Arg F) → Option (Int × List (Arg F))
  | .none, l => some (0, l)
  | .lit n, l => some (n, l)
  | .star, .num x :: v :: l => some (E.wide x, v :: l)
  | .star, _ => none

/-- A precision; a negative one counts as 0. -/
def precOf {F} (E : Env F) : Num0 → List (Arg F) → Option (Option Nat × List (Arg F))
  | .none, l => some (none, l)
  | .lit n, l => some (some n, l)
  | .star, .num x :: v :: l => some (some (E.wide x).toNat, v :: l)
  | .star, _ => none

/-- A directive, after width and precision are known. -/
def dirEnd {F} (E : Env F) (d : Dir) (w : Int) (prec : Option Nat) (l : List (Arg F)) : Res1 F :=
  if w.natAbs > 10^9 ∨ prec.getD 0 > 10^9 then .big
  else match l with
    | [] => .err
    | v :: rest =>
      match conv1 E d (d.flags.contains 45 || decide (w < 0)) w.natAbs prec v with
      | .ok t => .ok t rest
      | .err => .err
      | .big => .big

/-- A directive. -/
def dirRes {F} (E : Env F) (d : Dir) (l : List (Arg F)) : Res1 F :=
  match widthOf E d.width l with
  | none => .err
  | some (w, l) =>
    match precOf E d.prec l with
    | none => .err
    | some (p, l) => dirEnd E d w p l

/-- What `format` gives for the pieces `segs` and the arguments `args`; arguments left over are
ignored. -/
def render {F} (E : Env F) : List Seg → List (Arg F) → Res
  | [], _ => .ok []
  | .chr c :: r, l =>
    match render E r l with
    | .ok t => .ok (String.utf8EncodeChar c ++ t)
    | e => e
  | .pct :: r, l =>
    match render E r l with
    | .ok t => .ok (37 :: t)
    | e => e
  | .dir d :: r, l =>
    match dirRes E d l with
    | .ok t l' =>
      match render E r l' with
      | .ok t' => .ok (t ++ t')
      | e => e
    | .err => .err
    | .big => .big

/-- What the C library guarantees about the conversions of doubles: a `long long` is in range, and
the text of a floating point directive is as wide as asked and not longer than 320 characters (or the
width) plus the precision. -/
structure LibcOk {F} (E : Env F) : Prop where
  wide : ∀ x, -2^63 ≤ E.wide x ∧ E.wide x < 2^63
  dbl : ∀ flags am w p c x, (∀ f ∈ flags, f ∈ asc "-0 +#'") → c ∈ asc "aAeEfgG" →
    (w : Nat) ≤ (E.dbl (cText flags am w p c) x).length ∧
    (E.dbl (cText flags am w p c) x).length ≤ max 320 w + p.getD 0

end Verif.Fmt
