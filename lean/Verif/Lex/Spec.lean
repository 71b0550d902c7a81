import Verif.Lex.Model
import Verif.Json.Spec
/-!
JavaScript tokens as they are written and what they mean, after ECMA-262 (chapter "Lexical grammar"), without reference to the
functions of the lexer.  (`Tok` is the type of the answers of the lexer.)
-/
namespace Verif.Lex

/-! ### Characters -/

def Digit (c : UInt8) : Prop := 48 ≤ c ∧ c ≤ 57
def OctDigit (c : UInt8) : Prop := 48 ≤ c ∧ c ≤ 55
def Letter (c : UInt8) : Prop := (65 ≤ c ∧ c ≤ 90) ∨ (97 ≤ c ∧ c ≤ 122)
/-- The characters a name begins with. -/
def NameStart (c : UInt8) : Prop := Letter c ∨ c = 95 ∨ c = 36
/-- The characters of a name. -/
def NameChar (c : UInt8) : Prop := NameStart c ∨ Digit c
/-- Space, tab, line feed, carriage return. -/
def Blank (c : UInt8) : Prop := c = 32 ∨ c = 9 ∨ c = 10 ∨ c = 13
/-- Double quote, single quote, back quote. -/
def Quote (c : UInt8) : Prop := c = 34 ∨ c = 39 ∨ c = 96

/-! ### Tokens -/

/-- The words that are no names in jsish. -/
def reserved : List String :=
  ["any", "arguments", "array", "boolean", "break", "case", "catch", "const", "continue", "debugger", "default", "delete", "do",
   "else", "export", "false", "finally", "for", "function", "get", "if", "in", "instanceof", "iterobj", "let", "new", "null",
   "number", "object", "of", "regexp", "return", "set", "string", "switch", "this", "throw", "true", "try", "typeof",
   "undefined", "userobj", "var", "void", "while", "with"]

/-- The operators of two characters and more. -/
def operators : List String :=
  ["!=", "!==", "%=", "&&", "&=", "*=", "++", "+=", "--", "-=", "/=", "<<", "<<=", "<=", "==", "===", "=>", ">=", ">>", ">>=",
   ">>>", ">>>=", "^=", "|=", "||"]

/-- The exponent of a number: `e` or `E`, a sign if there is one, digits. -/
structure Exp where
  e : UInt8
  sign : List UInt8
  digits : List UInt8

def Exp.Ok (x : Exp) : Prop :=
  (x.e = 69 ∨ x.e = 101) ∧ (x.sign = [] ∨ x.sign = [43] ∨ x.sign = [45]) ∧ x.digits ≠ [] ∧ ∀ c ∈ x.digits, Digit c

def Exp.text (x : Exp) : List UInt8 := x.e :: (x.sign ++ x.digits)

/-- A number. -/
inductive Num where
  /-- digits, point and digits if there is one, an exponent if there is one -/
  | dec (ip : List UInt8) (fp : Option (List UInt8)) (ex : Option Exp)
  /-- `0x`, digits -/
  | hex (x : UInt8) (digits : List UInt8)
  /-- `0`, octal digits -/
  | oct (digits : List UInt8)

/-- The number is written as the standard has it.  Only `0e5` and the like are left out (see `C63_zero_exponent_refuted`),
and numbers that do not fit into 63 bits if they are written in hexadecimal or octal. -/
def Num.Ok : Num → Prop
  | .dec ip fp ex =>
    (∀ c ∈ ip, Digit c) ∧ (∀ f, fp = some f → ∀ c ∈ f, Digit c) ∧ (∀ x, ex = some x → x.Ok) ∧
    (ip = [] → ∃ f, fp = some f ∧ f ≠ []) ∧ (ip.head? = some 48 → ip = [48] ∧ (fp = none → ex = none))
  | .hex x ds => (x = 120 ∨ x = 88) ∧ ds ≠ [] ∧ (∀ c ∈ ds, Json.IsHex c) ∧ ds.foldl (fun n c => n * 16 + Json.hexVal c) 0 < 2 ^ 63
  | .oct ds => ds ≠ [] ∧ (∀ c ∈ ds, OctDigit c) ∧ ds.foldl (fun n c => n * 8 + (c.toNat - 48)) 0 < 2 ^ 63

/-- `.` and the digits behind it. -/
def fracText : Option (List UInt8) → List UInt8
  | none => []
  | some f => 46 :: f

def expText : Option Exp → List UInt8
  | none => []
  | some x => x.text

def Num.text : Num → List UInt8
  | .dec ip fp ex => ip ++ (fracText fp ++ expText ex)
  | .hex x ds => 48 :: x :: ds
  | .oct ds => 48 :: ds

/-- The number it stands for; decimal numbers other than 0 are left to `strtod`. -/
def Num.val : Num → NumVal
  | .dec ip fp ex => if ip = [48] ∧ fp = none ∧ ex.isNone then .int 0 else .real (Num.dec ip fp ex).text
  | .hex _ ds => .int (ds.foldl (fun n c => n * 16 + Json.hexVal c) 0)
  | .oct ds => .int (ds.foldl (fun n c => n * 8 + (c.toNat - 48)) 0)

/-- An element of a string. -/
inductive Piece where
  /-- a byte as it is -/
  | raw (c : UInt8)
  /-- backslash and a character -/
  | esc (c : UInt8)
  /-- `\uXXXX` -/
  | uni (a b c d : UInt8)

/-- Which elements are allowed between the quotes `q`.  Of the escapes those are left out that jsish does not know (`\v`, `\x41`, a
backslash before a newline, see `C65_...refuted`), of `\uXXXX` the surrogates. -/
def Piece.Ok (q : UInt8) : Piece → Prop
  | .raw c => c ≠ q ∧ c ≠ 92 ∧ c ≠ 0 ∧ c ≠ 255
  | .esc c => c ≠ 117 ∧ c ≠ 120 ∧ c ≠ 118 ∧ c ≠ 10 ∧ c ≠ 13 ∧ c ≠ 0 ∧ c < 128 ∧ ¬ (49 ≤ c ∧ c ≤ 57)
  | .uni a b c d => Json.IsHex a ∧ Json.IsHex b ∧ Json.IsHex c ∧ Json.IsHex d ∧
      (Json.hexVal4 a b c d < 0xD800 ∨ 0xE000 ≤ Json.hexVal4 a b c d)

def Piece.text : Piece → List UInt8
  | .raw c => [c]
  | .esc c => [92, c]
  | .uni a b c d => [92, 117, a, b, c, d]

/-- What an escape stands for, ECMA-262 "CV". -/
def escMeaning (c : UInt8) : UInt8 :=
  if c = 98 then 8 else if c = 116 then 9 else if c = 110 then 10 else if c = 102 then 12 else if c = 114 then 13
  else if c = 48 then 0 else c

def Piece.val : Piece → List UInt8
  | .raw c => [c]
  | .esc c => [escMeaning c]
  | .uni a b c d => String.utf8EncodeChar (Char.ofNat (Json.hexVal4 a b c d))

def ptext (ps : List Piece) : List UInt8 := ps.flatMap Piece.text
def pval (ps : List Piece) : List UInt8 := ps.flatMap Piece.val

/-- An element of a regular expression. -/
inductive RePiece where
  | raw (c : UInt8)
  | esc (c : UInt8)

def RePiece.Ok : RePiece → Prop
  | .raw c => c ≠ 47 ∧ c ≠ 92 ∧ c ≠ 0 ∧ c ≠ 255 ∧ c ≠ 10
  | .esc c => c ≠ 0 ∧ c ≠ 255 ∧ c ≠ 10

def RePiece.text : RePiece → List UInt8
  | .raw c => [c]
  | .esc c => [92, c]

def retext (ps : List RePiece) : List UInt8 := ps.flatMap RePiece.text

/-- A token as it is written. -/
inductive STok where
  | word (w : List UInt8)
  | num (n : Num)
  | str (q : UInt8) (ps : List Piece)
  | regex (ps : List RePiece) (flags : List UInt8)
  | op (s : String)
  | punct (c : UInt8)

def STok.text : STok → List UInt8
  | .word w => w
  | .num n => n.text
  | .str q ps => q :: (ptext ps ++ [q])
  | .regex ps fl => 47 :: (retext ps ++ 47 :: fl)
  | .op s => asc s
  | .punct c => [c]

/-- What the lexer should answer. -/
def STok.val : STok → Tok
  | .word w => if w ∈ reserved.map asc then .kw w else .ident w
  | .num n => .num n.val
  | .str _ ps => .str (pval ps)
  | .regex ps fl => .regex (47 :: (retext ps ++ 47 :: fl))
  | .op s => .op (asc s)
  | .punct c => .char c

/-- After these tokens (and at the beginning) a `/` begins a regular expression in jsish: `= ( : ? , [ {`. -/
def ReAfter (last : Tok) : Prop :=
  last = .eof ∨ ∃ c : UInt8, last = .char c ∧ (c = 61 ∨ c = 40 ∨ c = 58 ∨ c = 63 ∨ c = 44 ∨ c = 91 ∨ c = 123)

/-- A token behind the token `last`. -/
def STok.Ok (last : Tok) : STok → Prop
  | .word w => (∃ c, w.head? = some c ∧ NameStart c) ∧ (∀ c ∈ w, NameChar c) ∧ w.length < 1020
  | .num n => n.Ok ∧ n.text.length < 1020
  | .str q ps => Quote q ∧ ∀ p ∈ ps, p.Ok q
  | .regex ps fl => ReAfter last ∧ (∀ p ∈ ps, p.Ok) ∧ (∀ c ∈ fl, Letter c ∨ Digit c) ∧ (∃ c, (retext ps).head? = some c ∧ c ≠ 42) ∧
      (retext ps ++ fl).length < 8000
  | .op s => s ∈ operators ∧ (s = "/=" → ¬ ReAfter last)
  | .punct c => 33 ≤ c ∧ c ≤ 126 ∧ ¬ NameChar c ∧ ¬ Quote c ∧ c ≠ 92 ∧ (c = 47 → ¬ ReAfter last)

/-- The token would go on with the character `c`. -/
def STok.Extends (tk : STok) (c : UInt8) : Prop :=
  match tk with
  | .word _ => NameChar c
  | .num n => Json.IsHex c ∨ c = 46 ∨ c = 80 ∨ c = 112 ∨ ((c = 88 ∨ c = 120) ∧ n.text = [48]) ∨
      ((c = 43 ∨ c = 45) ∧ (n.text.getLast? = some 69 ∨ n.text.getLast? = some 101))
  | .str _ _ => False
  | .regex _ _ => Letter c ∨ Digit c
  | .op s => ∃ o ∈ operators, (asc s ++ [c]) <+: asc o
  | .punct p => (∃ o ∈ operators, [p, c] <+: asc o) ∨ (p = 46 ∧ Digit c) ∨ (p = 47 ∧ (c = 47 ∨ c = 42))

/-- The token ends where the text `r` begins. -/
def STok.Fits (tk : STok) (r : List UInt8) : Prop := ∀ c, r.head? = some c → ¬ tk.Extends c

/-! ### Between tokens -/

/-- Blanks and comments.  (A comment `//` is not empty: see `C63_empty_comment_refuted`.) -/
inductive Sep : List UInt8 → Prop
  | nil : Sep []
  | blank (c : UInt8) (s : List UInt8) : Blank c → Sep s → Sep (c :: s)
  /-- `//`, up to the end of the line -/
  | line (b : List UInt8) (e : UInt8) (s : List UInt8) : b ≠ [] → 10 ∉ b → 13 ∉ b → e = 10 ∨ e = 13 → Sep s → Sep (47 :: 47 :: (b ++ e :: s))
  /-- from `/*` up to the next `*/` -/
  | block (b : List UInt8) (s : List UInt8) : ¬ [42, 47] <:+: b → Sep s → Sep (47 :: 42 :: (b ++ 42 :: 47 :: s))

/-- The end of a text: nothing, or a comment without a newline behind it. -/
def Tail (t : List UInt8) : Prop := t = [] ∨ ∃ b, t = 47 :: 47 :: b ∧ 10 ∉ b ∧ 13 ∉ b

/-- The text without the newlines it begins with. -/
def noLead (t : List UInt8) : List UInt8 := t.dropWhile (· = 10)

/-- The number of newlines. -/
def newlines (t : List UInt8) : Nat := t.count 10

/-- `Script sp last text ts`: behind the token `last`, the text is the tokens `ts` with blanks and comments between them.  A token must not
run into what follows it, even if a newline is taken away (`C63_glue_refuted`), and no newline is among its first three characters
(`C63_newline_in_string_refuted`); the number with a token is the number of newlines from
there to the end.  `sp`: a space or a tab follows every token. -/
inductive Script (sp : Bool) : Tok → List UInt8 → List (STok × Nat) → Prop
  | nil (last : Tok) (s t : List UInt8) : Sep s → Tail t → Script sp last (s ++ t) []
  | cons (last : Tok) (s : List UInt8) (tk : STok) (r : List UInt8) (ts : List (STok × Nat)) :
      Sep s → tk.Ok last → 10 ∉ tk.text.take 3 → tk.Fits r → tk.Fits (noLead r) → (sp = true → r = [] ∨ r.head? = some 32 ∨ r.head? = some 9) →
      Script sp tk.val r ts → Script sp last (s ++ (tk.text ++ r)) ((tk, newlines (tk.text ++ r)) :: ts)

end Verif.Lex
