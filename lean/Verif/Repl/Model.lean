import Verif.Basic
/-!
# The interactive shell: lines and what is evaluated (C206)

`Jsi_Interactive` and `jsi_StrIsBalanced` (src/jsiUtils.c 940-962, 1164-1325), without `onEval`.  A line is what `get_inputline` gives: with
readline without the end of the line, else with it.
-/
namespace Verif.Repl

abbrev Bytes := List UInt8

/-- The brackets and quotes, counted.  src/jsiUtils.c:940-961. -/
def count : Bytes → Int → Nat → Int × Nat
  | [], n, q => (n, q)
  | [c], n, q =>
    if c = 92 then (n, q)
    else if c = 123 ∨ c = 40 ∨ c = 91 then (n + 1, q)
    else if c = 39 ∨ c = 34 then (n, q + 1)
    else if c = 125 ∨ c = 41 ∨ c = 93 then (n - 1, q)
    else (n, q)
  | c :: d :: t, n, q =>
    if c = 92 then count t n q
    else if c = 123 ∨ c = 40 ∨ c = 91 then count (d :: t) (n + 1) q
    else if c = 39 ∨ c = 34 then count (d :: t) n (q + 1)
    else if c = 125 ∨ c = 41 ∨ c = 93 then count (d :: t) (n - 1) q
    else count (d :: t) n q

/-- `jsi_StrIsBalanced`.  src/jsiUtils.c:940-962. -/
def isBalanced (s : Bytes) : Bool := decide ((count s 0 0).2 % 2 = 0) && decide ((count s 0 0).1 ≤ 0)

/-- `isspace`. -/
def space (c : UInt8) : Bool := c == 32 || (9 ≤ c && c ≤ 13)

/-- Without spaces at the end.  src/jsiUtils.c:1236-1237. -/
def trimR (s : Bytes) : Bytes := (s.reverse.dropWhile space).reverse

/-- What is done with a text. -/
inductive Out where
  | history
  | help (s : Bytes)
  | eval (s : Bytes)
  deriving DecidableEq

/-- With a semicolon after a `var`.  src/jsiUtils.c:1262-1263. -/
def addSemi (s : Bytes) : Bytes := if s.take 4 = asc "var " ∧ 10 ∉ s ∧ 59 ∉ s then s ++ [59] else s

/-- src/jsiUtils.c:1242-1268; `pkg`: the package Help is there. -/
def result (pkg : Bool) (s : Bytes) : Option Out :=
  if s = [] then none
  else if s = asc "history" then some .history
  else if s.take 4 = asc "help" ∧ (s.drop 4).head?.all space = true ∧ pkg then some (.help (s.drop 4))
  else some (.eval (addSemi s))

/-- A line.  src/jsiUtils.c:1215-1241, 1306. -/
def line (pkg : Bool) (buf l : Bytes) : Bytes × Option Out :=
  if l = [92] then ([], none)
  else if buf ++ l = [] then ([], none)
  else if isBalanced (buf ++ l ++ [32]) then ([], result pkg (trimR (buf ++ l ++ [32])))
  else (buf ++ l ++ [32], none)

/-- The end of the input.  src/jsiUtils.c:1224-1241. -/
def eof (pkg : Bool) (buf : Bytes) : Option Out := if buf = [] then none else result pkg (trimR (buf ++ [32]))

/-- Lines one after the other: the text that is left, and what was done. -/
def session (pkg : Bool) : Bytes → List Bytes → Bytes × List Out
  | buf, [] => (buf, [])
  | buf, l :: r => ((session pkg (line pkg buf l).1 r).1, (line pkg buf l).2.toList ++ (session pkg (line pkg buf l).1 r).2)

/-! ## What it should be -/

/-- What stands in a text; in strings no brackets and quotes. -/
inductive Tok where
  /-- A byte that is no bracket, quote or backslash. -/
  | ch (c : UInt8)
  /-- A backslash and a byte. -/
  | esc (c : UInt8)
  | opn (c : UInt8)
  | cls (c : UInt8)
  /-- A string: its quote and its bytes, with those after a backslash marked. -/
  | str (q : UInt8) (body : List (Bool × UInt8))

/-- The byte has no meaning for brackets and strings. -/
def Plain (c : UInt8) : Prop := c ∉ ([92, 123, 40, 91, 39, 34, 125, 41, 93] : Bytes)

/-- The bytes of a string. -/
def body (b : List (Bool × UInt8)) : Bytes := b.flatMap fun p => if p.1 then [92, p.2] else [p.2]

/-- The bytes of a string are bytes that can stand in it. -/
def BodyOk (b : List (Bool × UInt8)) : Prop := ∀ p ∈ b, p.1 = true ∨ Plain p.2

/-- The text. -/
def Tok.text : Tok → Bytes
  | .ch c => [c]
  | .esc c => [92, c]
  | .opn c => [c]
  | .cls c => [c]
  | .str q b => q :: (body b ++ [q])

/-- It is what it is called. -/
def Tok.Ok : Tok → Prop
  | .ch c => Plain c
  | .esc _ => True
  | .opn c => c = 123 ∨ c = 40 ∨ c = 91
  | .cls c => c = 125 ∨ c = 41 ∨ c = 93
  | .str q b => (q = 39 ∨ q = 34) ∧ BodyOk b

/-- The bracket that closes. -/
def closer (c : UInt8) : UInt8 := if c = 123 then 125 else if c = 40 then 41 else 93

/-- The brackets that are still to be closed, the last first; none: a wrong one. -/
def pending : List Tok → List UInt8 → Option (List UInt8)
  | [], s => some s
  | .opn c :: t, s => pending t (closer c :: s)
  | .cls c :: t, s =>
    match s with
    | [] => none
    | d :: r => if c = d then pending t r else none
  | _ :: t, s => pending t s

/-- A text of these. -/
def render (ts : List Tok) : Bytes := ts.flatMap Tok.text

/-- Lines, each with a space after it. -/
def join (ls : List (List Tok)) : List Tok := ls.flatMap (· ++ [.ch 32])

end Verif.Repl
