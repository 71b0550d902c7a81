import Verif.Basic
/-!
# Finding a value by its path (C200)

`Jsi_NameLookup` and `FindEndB` (src/jsiUtils.c 362-489), the function behind `Info.lookup` and behind every name of a function that is
given as a string.  Variables and the subscripts of values are parameters.
-/
namespace Verif.Lookup

abbrev Bytes := List UInt8

/-- What the interpreter gives: variables (`Jsi_VarLookup`), elements of arrays (`Jsi_ValueArrayIndex`), the subscripts of
values by a string and by a value (`jsi_ValueSubscript`), and the numbers strings have that are not only digits (`Jsi_GetInt`). -/
structure Env (V : Type) where
  var : Bytes → Option V
  isArr : V → Bool
  idx : V → Int → Option V
  sub : V → Bytes → Option V
  subv : V → V → Option V
  other : Bytes → Option Int

/-- `isdigit`. -/
def digit (c : UInt8) : Bool := 48 ≤ c && c ≤ 57

/-- The number digits stand for. -/
def decVal (s : Bytes) : Nat := s.foldl (fun a c => 10 * a + (c.toNat - 48)) 0

/-- `(int)` of an unsigned long. -/
def toInt (n : Nat) : Int := if n % 4294967296 < 2147483648 then (n % 4294967296 : Nat) else (n % 4294967296 : Nat) - 4294967296

/-- `Jsi_GetInt`, base 0: strtoul, and the result as int.  src/jsiUtils.c:2466-2476, 2430-2446. -/
def getInt (other : Bytes → Option Int) (s : Bytes) : Option Int :=
  if s ≠ [] ∧ s.all digit then some (toInt (min (decVal s) 18446744073709551615)) else other s

/-- The text up to the first `.` or `[`, and that with what follows, if there is one.  src/jsiUtils.c:416-421, 444-448. -/
def nextSep : Bytes → Bytes × Option Bytes
  | [] => ([], none)
  | c :: t => if c = 46 ∨ c = 91 then ([], some (c :: t)) else (c :: (nextSep t).1, (nextSep t).2)

/-- Up to the quote `q`, and what follows it; none: there is none.  (The text has the quote.)  src/jsiUtils.c:366-371. -/
def quoted (q : UInt8) : Bytes → Option (Bytes × Bytes)
  | [] => none
  | c :: t =>
    if c = q then some ([c], t)
    else if c = 92 then
      match t with
      | [] => none
      | d :: u => (quoted q u).map fun r => (c :: d :: r.1, r.2)
    else (quoted q t).map fun r => (c :: r.1, r.2)

/-- Up to `]`, and what follows it. -/
def bracket : Bytes → Option (Bytes × Bytes)
  | [] => none
  | c :: t => if c = 93 then some ([], t) else (bracket t).map fun r => (c :: r.1, r.2)

/-- `FindEndB`: what is in brackets, and what follows.  src/jsiUtils.c:362-377. -/
def findEnd (s : Bytes) : Option (Bytes × Bytes) :=
  match s with
  | [] => none
  | c :: t =>
    if c = 34 ∨ c = 39 then
      match quoted c t with
      | none => none
      | some (a, r) =>
        match r with
        | [] => none
        | d :: u => if d = 93 then some (c :: a, u) else none
    else bracket (c :: t)

/-- In quotes.  src/jsiUtils.c:437-441. -/
def isQuoted (s : Bytes) : Bool :=
  decide (2 ≤ s.length) && ((s.head? == some 34 && s.getLast? == some 34) || (s.head? == some 39 && s.getLast? == some 39))

/-- What stands in brackets, applied to a value.  src/jsiUtils.c:437-441, 456-472. -/
def inBrackets {V : Type} (e : Env V) (v : V) (s : Bytes) : Option V :=
  if isQuoted s then e.sub v (s.drop 1).dropLast
  else if (s.head?.any digit) && e.isArr v then
    match getInt e.other s with
    | none => none
    | some n => e.idx v n
  else
    match e.var s with
    | none => none
    | some k => e.subv v k

/-- The loop, at most `n` times.  src/jsiUtils.c:427-475. -/
def loop {V : Type} (e : Env V) : Nat → V → Bytes → Option V
  | 0, v, _ => some v
  | n + 1, v, s =>
    match s with
    | [] => none
    | c :: t =>
      if c = 91 then
        match findEnd t with
        | none => none
        | some (a, r) =>
          match inBrackets e v a with
          | none => none
          | some w => if r = [] then some w else loop e n w r
      else if c = 46 then
        match e.sub v (nextSep t).1 with
        | none => none
        | some w =>
          match (nextSep t).2 with
          | none => some w
          | some r => loop e n w r
      else none

/-- `Jsi_NameLookup`; `Info.lookup(s)` is this, or undefined.  src/jsiUtils.c:405-489, src/jsiCmds.c:2548-2559. -/
def lookup {V : Type} (e : Env V) (s : Bytes) : Option V :=
  match (nextSep s).2 with
  | none => e.var s
  | some r =>
    match e.var (nextSep s).1 with
    | none => none
    | some v => loop e 1000 v r

/-! ## What it should be -/

/-- A step of a path. -/
inductive Step where
  /-- `.n` -/
  | name (n : Bytes)
  /-- `[12]`, by its digits -/
  | index (ds : Bytes)
  /-- `["s"]` or `['s']` -/
  | key (q : UInt8) (s : Bytes)
  /-- `[x]` -/
  | var (n : Bytes)

/-- A step as it is written. -/
def Step.text : Step → Bytes
  | .name n => 46 :: n
  | .index ds => 91 :: (ds ++ [93])
  | .key q s => 91 :: q :: (s ++ [q, 93])
  | .var n => 91 :: (n ++ [93])

/-- A path as it is written. -/
def text (x : Bytes) (p : List Step) : Bytes := x ++ p.flatMap Step.text

/-- The value of a step. -/
def Step.eval {V : Type} (e : Env V) (v : V) : Step → Option V
  | .name n => e.sub v n
  | .index ds => e.idx v (decVal ds)
  | .key _ s => e.sub v s
  | .var n => (e.var n).bind (e.subv v)

/-- … of steps one after the other. -/
def evalSteps {V : Type} (e : Env V) (v : V) : List Step → Option V
  | [] => some v
  | s :: p => (s.eval e v).bind fun w => evalSteps e w p

/-- … of a path. -/
def eval {V : Type} (e : Env V) (x : Bytes) (p : List Step) : Option V := (e.var x).bind fun v => evalSteps e v p

/-- A name has no dot and no bracket. -/
def Plain (n : Bytes) : Prop := 46 ∉ n ∧ 91 ∉ n

/-- Names are names, numbers digits that fit, keys have no quote and no backslash. -/
def Step.Ok : Step → Prop
  | .name n => Plain n
  | .index ds => ds ≠ [] ∧ (∀ c ∈ ds, digit c = true) ∧ decVal ds < 2147483648
  | .key q s => (q = 34 ∨ q = 39) ∧ q ∉ s ∧ 92 ∉ s
  | .var n => 93 ∉ n ∧ ∀ c, n.head? = some c → digit c = false ∧ c ≠ 34 ∧ c ≠ 39

/-- Numbers stand in the brackets of arrays only. -/
def ArrOk {V : Type} (e : Env V) (v : V) : List Step → Prop
  | [] => True
  | s :: p => (∀ ds, s = .index ds → e.isArr v = true) ∧ ∀ w, s.eval e v = some w → ArrOk e w p

end Verif.Lookup
