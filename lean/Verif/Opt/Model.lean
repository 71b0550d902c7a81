import Verif.Opt.Index
import Verif.Value.Model

/-!
Model of the option records (src/jsiOptions.c): the C structures whose fields a script reads and writes by name with
`conf()` and with the options objects of the built-in commands.

Simplifications: a record is a memory of bytes plus, at the offsets where C keeps a pointer or a `double`, the thing
pointed to or the number (`ref`, `num`); reference counts are not followed; wrapped primitives (`new Number(3)`) are as
the primitive; of the number types `JSI_OPTION_NUMBER` and `JSI_OPTION_DOUBLE` are modelled; the time types, `DSTRING`,
`VAR`, `USEROBJ`, `REGEXP`, the bit fields, C arrays and `ENUM_SPEC` are not; the type checks are on (`noCheck` false);
the machine is little endian, with 64 bit `long`.
-/

namespace Verif.Opt

open Verif.Value (Num roundNum one)

mutual
/-- A script value, as far as options look at it. -/
inductive V where
  | undef
  | null
  | bool (b : Bool)
  | num (x : Num)
  | str (s : Str)
  | obj (m : Mems)
  /-- An array; of each element only its string is of interest, `none` if it is no string. -/
  | arr (l : List (Option Str))
  | func (id : Nat)
/-- The members of an object, in the order in which they are visited. -/
inductive Mems where
  | nil
  | cons (k : Str) (v : V) (m : Mems)
end

/-- What a pointer field may hold. -/
inductive RK where
  | strkey | string | value | obj | array | func
deriving DecidableEq

/-- src/jsi.h:1199-1226, the flags of an option that matter here. -/
structure SFlags where
  readOnly : Bool := false
  initOnly : Bool := false
  lockSafe : Bool := false
  required : Bool := false
  pass2 : Bool := false
  noClear : Bool := false

mutual
/-- The type of an option. -/
inductive Kind where
  | bool
  /-- `JSI_OPTION_INT`, `UINT`, `INT8`, … : signed or not, bytes. -/
  | int (signed : Bool) (size : Nat)
  | number
  | ref (k : RK)
  | strbuf (size : Nat)
  /-- `Jsi_Opt_SwitchEnum`: names, `JSI_OPT_ENUM_UNSIGNED`, bytes, `JSI_OPT_ENUM_EXACT`, `JSI_OPT_CUST_NOCASE`,
  `JSI_OPT_COERCE`. -/
  | enum (names : List Str) (signed : Bool) (size : Nat) (exact nocase coerce : Bool)
  /-- `Jsi_Opt_SwitchBitset`: names, bytes, `JSI_OPT_CUST_NOCASE`. -/
  | bitset (names : List Str) (size : Nat) (nocase : Bool)
  /-- `Jsi_Opt_SwitchSuboption`. -/
  | sub (s : Specs)
/-- A table of options (`Jsi_OptionSpec[]`). -/
inductive Specs where
  | nil
  | cons (name : Str) (off : Nat) (fl : SFlags) (k : Kind) (s : Specs)
end

/-- One option of a table. -/
structure Opt where
  name : Str
  off : Nat
  fl : SFlags
  k : Kind

/-- The options of a table. -/
def Specs.list : Specs → List Opt
  | .nil => []
  | .cons n o f k s => ⟨n, o, f, k⟩ :: s.list

/-- A record. -/
structure Rec where
  raw : Nat → UInt8
  num : Nat → Num
  ref : Nat → Option V

/-! ### Memory -/

/-- The bytes of a number, lowest first. -/
def leBytes : Nat → Nat → List UInt8
  | 0, _ => []
  | n + 1, v => UInt8.ofNat (v % 256) :: leBytes n (v / 256)

/-- Write bytes. -/
def poke (m : Nat → UInt8) (a : Nat) (b : List UInt8) : Nat → UInt8 :=
  fun i => if a ≤ i ∧ i < a + b.length then b.getD (i - a) 0 else m i

/-- Read an unsigned number of `n` bytes. -/
def peek (m : Nat → UInt8) (a : Nat) : Nat → Nat
  | 0 => 0
  | n + 1 => (m a).toNat + 256 * peek m (a + 1) n

/-- The value modulo `2^(8 n)`, as an unsigned number. -/
def wrapU (n : Nat) (z : Int) : Nat := (z % (2 ^ (8 * n) : Nat)).toNat

/-- An unsigned number of `n` bytes as a signed one. -/
def asS (n u : Nat) : Int := if 2 * u < 2 ^ (8 * n) then (u : Int) else (u : Int) - (2 ^ (8 * n) : Nat)

/-- The cast `(typ)n`, with its value. -/
def cast (signed : Bool) (n : Nat) (z : Int) : Int := if signed then asS n (wrapU n z) else (wrapU n z : Int)

/-- `*(typ*)ptr`. -/
def loadI (signed : Bool) (n : Nat) (r : Rec) (a : Nat) : Int :=
  if signed then asS n (peek r.raw a n) else (peek r.raw a n : Int)

/-- `*(typ*)ptr = (typ)z`. -/
def storeI (n : Nat) (r : Rec) (a : Nat) (z : Int) : Rec := { r with raw := poke r.raw a (leBytes n (wrapU n z)) }

/-- `(Jsi_Wide)d`: toward zero; what is out of range gives `INT64_MIN` (the x86-64 instruction; undefined in C). -/
def toWide : Num → Int
  | .nan => -(2 ^ 63)
  | .inf _ => -(2 ^ 63)
  | .fin m =>
    if m.natAbs / one < 2 ^ 63 then (if m < 0 then -((m.natAbs / one : Nat) : Int) else ((m.natAbs / one : Nat) : Int))
    else -(2 ^ 63)

/-- `(Jsi_Number)z` for an integer. -/
def ofInt (z : Int) : Num := roundNum (z * (one : Int))

/-- IEEE addition. -/
def add : Num → Num → Num
  | .nan, _ => .nan
  | _, .nan => .nan
  | .inf a, .inf b => if a = b then .inf a else .nan
  | .inf a, .fin _ => .inf a
  | .fin _, .inf b => .inf b
  | .fin a, .fin b => roundNum (a + b)

/-- The part of a string C functions see. -/
def cstr (s : Str) : Str := s.takeWhile (· ≠ 0)

def setNum (r : Rec) (a : Nat) (x : Num) : Rec := { r with num := fun i => if i = a then x else r.num i }
def setRef (r : Rec) (a : Nat) (v : Option V) : Rec := { r with ref := fun i => if i = a then v else r.ref i }

/-! ### Looking an option up -/

/-- The loop of src/jsiOptions.c:190-205 with `matchPtr`. -/
def findLoop (name : Str) : Option Opt → List Opt → Option Opt
  | m, [] => m
  | m, o :: l =>
    if o.name.headD 0 ≠ name.headD 0 ∨ name.isPrefixOf o.name = false then findLoop name m l
    else if o.name.length = name.length then some o
    else if m.isSome then none
    else findLoop name (some o) l

/-- src/jsiOptions.c:176-229  `Jsi_OptionsFind`. -/
def optFind (s : Specs) (name : Str) : Option Opt := findLoop name none s.list

/-! ### Setting one option -/

/-- The flags of a call (`JSI_OPTS_INCR`, `JSI_OPTS_IS_UPDATE`, `JSI_OPTS_IGNORE_EXTRA`, `JSI_OPT_PASS2`), the
interpreter's `isSafe`, and what an uninitialized `bool` holds (src/jsiOptions.c:276). -/
structure Call where
  incr : Bool := false
  update : Bool := false
  ignoreExtra : Bool := false
  pass2 : Bool := false
  isSafe : Bool := false
  junk : Bool := false

/-- How a call ends; `crash` is a null pointer followed. -/
inductive Rc where
  | ok | err | crash
deriving DecidableEq

/-- src/jsiOptions.c:301-334, the integer types; `v` is `none` when there is no value.  `cdataIncrVal` is not
modelled. -/
def setInt (c : Call) (signed : Bool) (size : Nat) (a : Nat) (w : Int) (r : Rec) : Rec × Rc :=
  if c.incr then (storeI size r a (cast true 8 (w + loadI signed size r a)), .ok)
  else if cast true 8 (cast signed size w) = w then (storeI size r a w, .ok)
  else (r, .err)

/-- src/jsiOptions.c:336-363, with a value. -/
def setNumber (c : Call) (a : Nat) (x : Num) (r : Rec) : Rec × Rc :=
  let y := if c.incr then add x (r.num a) else x
  (setNum r a y, if y = .nan then .err else .ok)

/-- What may be put in a pointer field (src/jsiOptions.c:364-378, 410-417, 498-533). -/
def refOk : RK → V → Bool
  | .strkey, .str _ => true
  | .string, .str _ => true
  | .value, _ => true
  | .obj, .obj _ => true
  | .obj, .arr _ => true
  | .obj, .func _ => true
  | .array, .arr _ => true
  | .func, .func _ => true
  | _, _ => false

/-- What is put there: `Jsi_KeyAdd` copies the text up to a NUL. -/
def refVal : RK → V → V
  | .strkey, .str s => .str (cstr s)
  | _, v => v

/-- src/jsiOptions.c:364-378, 401-417, 498-533, with a value. -/
def setRefK (k : RK) (a : Nat) (v : V) (r : Rec) : Rec × Rc :=
  match v with
  | .null => (setRef r a none, .ok)
  | _ => if refOk k v then (setRef r a (some (refVal k v)), .ok) else (r, .err)

/-- src/jsiOptions.c:379-396, with a value. -/
def setStrbuf (size : Nat) (a : Nat) (v : V) (r : Rec) : Rec × Rc :=
  match v with
  | .null => ({ r with raw := poke r.raw a [0] }, .ok)
  | .str s => if (size : Int) - 1 < s.length then (r, .err) else ({ r with raw := poke r.raw a (s ++ [0]) }, .ok)
  | _ => (r, .err)

/-- src/jsiOptions.c:1437-1491  `jsi_ValueToEnum` with a value and a list of names. -/
def setEnum (names : List Str) (size : Nat) (exact nocase : Bool) (a : Nat) (v : V) (r : Rec) : Rec × Rc :=
  match v with
  | .str s =>
    match getIndex exact nocase (cstr s) names with
    | .ok n => if size = 1 ∨ size = 2 ∨ size = 4 ∨ size = 8 then (storeI size r a n, .ok) else (r, .err)
    | _ => (r, .err)
  | _ => (r, .err)

/-- `1<<n` as an `int`, converted to `uint64_t`: bit 31 is the sign; the x86-64 shift counts modulo 32 (undefined in C
for 32 and more). -/
def bit (n : Nat) : Nat := if n % 32 = 31 then 2 ^ 64 - 2 ^ 31 else 2 ^ (n % 32)

/-- `m |= (1<<n)` and `m &= ~(1<<n)` on `uint64_t`. -/
def put (m n : Nat) (on : Bool) : Nat := if on then m ||| bit n else m &&& (bit n ^^^ (2 ^ 64 - 1))

/-- Does the word begin with `!`, and the rest. -/
def neg : Str → Bool × Str
  | c :: s => if c = 33 then (true, s) else (false, c :: s)
  | [] => (false, [])

/-- One word of src/jsiOptions.c:1606-1621 (`ass`: the string begins with `=`). -/
def word1 (names : List Str) (size : Nat) (nocase ass : Bool) (w : Str) (m : Nat) : Option Nat :=
  match getIndex false nocase (neg w).2 names with
  | .ok n => if (neg w).1 && ass then none else if 8 * size ≤ n then none else some (put m n (!(neg w).1))
  | _ => none

/-- The loop over the words.  C goes on after an error to report more; the result is not used then. -/
def words (names : List Str) (size : Nat) (nocase ass : Bool) : List Str → Nat → Option Nat
  | [], m => some m
  | w :: l, m =>
    match word1 names size nocase ass w m with
    | none => none
    | some m => words names size nocase ass l m

/-- The words between commas (`Jsi_SplitStr` with `","`: empty words are kept). -/
def commas : Str → List Str
  | [] => [[]]
  | c :: s =>
    match commas s with
    | [] => [[c]]
    | w :: l => if c = 44 then [] :: w :: l else (c :: w) :: l

/-- src/jsiOptions.c:1597-1624: the new bits from a string. -/
def bitsOfStr (names : List Str) (size : Nat) (nocase : Bool) (im : Nat) (s : Str) : Option Nat :=
  match s with
  | [] => some im
  | c :: t =>
    if c = 61 then (if t = [] then some 0 else words names size nocase true (commas t) 0)
    else words names size nocase false (commas (c :: t)) im

/-- One member of src/jsiOptions.c:1641-1661. -/
def mem1 (names : List Str) (nocase : Bool) (k : Str) (v : V) (m : Nat) : Option Nat :=
  match getIndex false nocase k names, v with
  | .ok n, .bool b => some (put m n b)
  | _, _ => none

/-- src/jsiOptions.c:1639-1662: the new bits from the members of an object. -/
def bitsOfMems (names : List Str) (nocase : Bool) : Mems → Nat → Option Nat
  | .nil, m => some m
  | .cons k v l, m =>
    match mem1 names nocase k v m with
    | none => none
    | some m => bitsOfMems names nocase l m

/-- One element of src/jsiOptions.c:1683-1690. -/
def elem1 (names : List Str) (nocase : Bool) (w : Str) (m : Nat) : Option Nat :=
  match getIndex false nocase (neg w).2 names with
  | .ok n => some (put m n (!(neg w).1))
  | _ => none

/-- src/jsiOptions.c:1672-1691 from the second element on. -/
def bitsOfElems (names : List Str) (nocase : Bool) : List (Option Str) → Nat → Option Nat
  | [], m => some m
  | none :: _, _ => none
  | some w :: l, m =>
    match elem1 names nocase (cstr w) m with
    | none => none
    | some m => bitsOfElems names nocase l m

/-- src/jsiOptions.c:1672-1691: the new bits from an array; `=` as first element clears. -/
def bitsOfArr (names : List Str) (nocase : Bool) (im : Nat) : List (Option Str) → Option Nat
  | [] => some 0
  | none :: _ => none
  | some w :: l =>
    if cstr w = [61] then bitsOfElems names nocase l 0 else bitsOfElems names nocase (some w :: l) im

/-- src/jsiOptions.c:1573-1701  `jsi_ValueToBitset` with a value.  The object form ends with `*s = m` on a `char*`: one
byte. -/
def setBitset (names : List Str) (size : Nat) (nocase : Bool) (a : Nat) (v : V) (r : Rec) : Rec × Rc :=
  if size = 1 ∨ size = 2 ∨ size = 4 ∨ size = 8 then
    match v with
    | .str s =>
      match bitsOfStr names size nocase (peek r.raw a size) (cstr s) with
      | some m => (storeI size r a m, .ok)
      | none => (r, .err)
    | .obj ms =>
      match bitsOfMems names nocase ms (peek r.raw a size) with
      | some m => (storeI 1 r a m, .ok)
      | none => (r, .err)
    | .arr l =>
      match bitsOfArr names nocase (peek r.raw a size) l with
      | some m => (storeI size (storeI 1 r a m) a m, .ok)
      | none => (r, .err)
    | _ => (r, .err)
  else (r, .err)

/-- src/jsiOptions.c:565-568: `incr` is an error for everything but numbers, found after the value has been set. -/
def fin (c : Call) : Rec × Rc → Rec × Rc
  | (r, .ok) => (r, if c.incr then .err else .ok)
  | p => p

/-- Every type but the sub-options, with a value (src/jsiOptions.c:233-570). -/
def setLeaf (c : Call) (k : Kind) (a : Nat) (v : V) (r : Rec) : Rec × Rc :=
  match k with
  | .bool => match v with
    | .bool b => fin c ({ r with raw := poke r.raw a [if b then 1 else 0] }, .ok)
    | _ => (r, .err)
  | .int sg n => match v with
    | .num x => setInt c sg n a (toWide x) r
    | _ => (r, .err)
  | .number => match v with
    | .num x => setNumber c a x r
    | _ => (r, .err)
  | .ref k => fin c (setRefK k a v r)
  | .strbuf n => fin c (setStrbuf n a v r)
  | .enum names _ n ex nc _ => fin c (setEnum names n ex nc a v r)
  | .bitset names n nc => fin c (setBitset names n nc a v r)
  | .sub _ => (r, .err)

mutual
/-- Setting an option with no value (`jsi_SetOption_` with `argValue` NULL).  A `bool` gets the uninitialized
variable; an enumeration says "expected string"; a bit set follows the null pointer (src/jsiOptions.c:1594). -/
def resetOpt (c : Call) : Kind → Nat → Rec → Rec × Rc
  | .bool, a, r => fin c ({ r with raw := poke r.raw a [if c.junk then 1 else 0] }, .ok)
  | .int sg n, a, r => setInt c sg n a 0 r
  | .number, a, r => (setNum r a (.fin 0), .ok)
  | .ref _, a, r => fin c (setRef r a none, .ok)
  | .strbuf _, a, r => fin c ({ r with raw := poke r.raw a [0] }, .ok)
  | .enum .., _, r => (r, .err)
  | .bitset .., _, r => (r, .crash)
  | .sub s, a, r => fin c (resetAll c s a r)
/-- src/jsiOptions.c:946-954. -/
def resetAll (c : Call) : Specs → Nat → Rec → Rec × Rc
  | .nil, _, r => (r, .ok)
  | .cons _ o _ k s, b, r =>
    match resetOpt c k (b + o) r with
    | (r, .ok) => resetAll c s b r
    | p => p
end

mutual
/-- `Jsi_OptionsFree` on one option (src/jsiOptions.c:1360-1433): custom types other than sub-options are kept. -/
def clearOpt : SFlags → Kind → Nat → Rec → Rec
  | f, .bool, a, r => if f.noClear then r else storeI 1 r a 0
  | f, .int _ n, a, r => if f.noClear then r else storeI n r a 0
  | f, .number, a, r => if f.noClear then r else setNum r a (.fin 0)
  | f, .ref _, a, r => if f.noClear then r else setRef r a none
  | f, .strbuf _, a, r => if f.noClear then r else storeI 1 r a 0
  | _, .enum .., _, r => r
  | _, .bitset .., _, r => r
  | f, .sub s, a, r => if f.noClear then r else clearAll s a r
/-- src/jsiOptions.c:1354-1434  `Jsi_OptionsFree`. -/
def clearAll : Specs → Nat → Rec → Rec
  | .nil, _, r => r
  | .cons _ o f k s, b, r => clearAll s b (clearOpt f k (b + o) r)
end

/-- The tests of src/jsiOptions.c:989-1006: may the option be set. -/
def barred (c : Call) (f : SFlags) : Bool :=
  f.readOnly || (c.update && f.initOnly) || (c.isSafe && c.update && f.lockSafe)

/-- src/jsiOptions.c:985-987: an option of the other pass. -/
def otherPass (c : Call) (f : SFlags) : Bool := c.pass2 != f.pass2

/-- src/jsiOptions.c:1015-1024: is a required option missing. -/
def missing (c : Call) (s : Specs) (done : List Str) : Bool :=
  !c.update && !c.pass2 && s.list.any (fun o => o.fl.required && !done.contains o.name)

/-- src/jsiOptions.c:1013-1030: the end of `Jsi_OptionsProcess`, with what has been specified. -/
def finish (c : Call) (s : Specs) (b : Nat) : Rec × Rc × List Str → Rec × Rc
  | (r, .ok, done) => if missing c s done then (clearAll s b r, .err) else (r, .ok)
  | (r, .err, _) => (if c.update then r else clearAll s b r, .err)
  | (r, .crash, _) => (r, .crash)

/-- One member, when the option has been found: `set` sets it. -/
def step (c : Call) (o : Opt) (set : Rec → Rec × Rc) (r : Rec) : Rec × Rc × List Str :=
  if otherPass c o.fl then (r, .ok, [])
  else if barred c o.fl then (r, .err, [])
  else match set r with
    | (r, .ok) => (r, .ok, [o.name])
    | (r, e) => (r, e, [])

/-- The loop goes on after a member that is in order. -/
def andThen (p : Rec × Rc × List Str) (next : Rec → Rec × Rc × List Str) : Rec × Rc × List Str :=
  match p with
  | (r, .ok, d) => match next r with
    | (r, e, d') => (r, e, d ++ d')
  | p => p

mutual
/-- `jsi_SetOption_` with a value. -/
def setOpt (c : Call) (k : Kind) (a : Nat) (v : V) (r : Rec) : Rec × Rc :=
  match k, v with
  | .sub s, .undef => (r, .err)
  | .sub s, .null => fin c (resetAll c s a r)
  | .sub s, .bool _ => (r, .err)
  | .sub s, .num _ => (r, .err)
  | .sub s, .str _ => (r, .err)
  | .sub s, .arr _ => (r, .err)
  | .sub s, .func _ => (r, .err)
  | .sub s, .obj ms => fin c (finish c s a (procLoop c s a ms r))
  | k, v => setLeaf c k a v r
/-- The loop over the members, src/jsiOptions.c:969-1012. -/
def procLoop (c : Call) (s : Specs) (b : Nat) (ms : Mems) (r : Rec) : Rec × Rc × List Str :=
  match ms with
  | .nil => (r, .ok, [])
  | .cons name v l =>
    match optFind s name with
    | none => if c.ignoreExtra then procLoop c s b l r else (r, .err, [])
    | some o => andThen (step c o (setOpt c o.k (b + o.off) v) r) (procLoop c s b l)
end

/-- src/jsiOptions.c:930-1031  `Jsi_OptionsProcess` for a record at `b`.  The flag `JSI_OPT_IS_SPECIFIED` of the options
is kept here as the list of names specified so far; the number of options returned is not modelled.  `subOpts.compat`
is part of `ignoreExtra`. -/
def process (c : Call) (s : Specs) (b : Nat) (v : Option V) (r : Rec) : Rec × Rc :=
  match v with
  | none => resetAll c s b r
  | some .null => resetAll c s b r
  | some (.obj ms) => finish c s b (procLoop c s b ms r)
  | some _ => (r, .err)

/-! ### Reading one option -/

/-- The names whose bit is set in the `int` (src/jsiOptions.c:1724-1731): bit `i mod 32`. -/
def bitNames (n : Nat) : Nat → List Str → List (Option Str)
  | _, [] => []
  | i, w :: l => if n.testBit (i % 32) then some w :: bitNames n (i + 1) l else bitNames n (i + 1) l

/-- src/jsiOptions.c:1493-1564  `jsi_EnumToValue`, for a list of names. -/
def getEnum (names : List Str) (signed : Bool) (size : Nat) (coerce : Bool) (a : Nat) (r : Rec) : Option V :=
  if size = 1 ∨ size = 2 ∨ size = 4 ∨ size = 8 then
    match names[(cast true 8 (loadI signed size r a)).toNat]? with
    | some w => some (.str w)
    | none => if coerce then some (.str ((toString (wrapU 8 (loadI signed size r a))).toUTF8.toList)) else none
  else none

mutual
/-- src/jsiOptions.c:648-801  `jsi_GetOption`; the bit set reads a whole `int`. -/
def getOpt : Kind → Nat → Rec → Option V
  | .bool, a, r => some (.bool (r.raw a != 0))
  | .int sg n, a, r => some (.num (ofInt (loadI sg n r a)))
  | .number, a, r => some (.num (r.num a))
  | .ref _, a, r => some ((r.ref a).getD .null)
  | .strbuf n, a, r => some (.str (cstr ((List.range n).map fun i => r.raw (a + i))))
  | .enum names sg n _ _ co, a, r => getEnum names sg n co a r
  | .bitset names _ _, a, r => some (.arr (bitNames (peek r.raw a 4) 0 names))
  | .sub s, a, r => (dump s a r).map .obj
/-- src/jsiOptions.c:882-927  `Jsi_OptionsDump`, not verbose.  The members are here in the order of the table; an object
keeps them in the order of their names, a matter of the tree. -/
def dump : Specs → Nat → Rec → Option Mems
  | .nil, _, _ => some .nil
  | .cons n o _ k s, b, r =>
    match getOpt k (b + o) r with
    | none => none
    | some v =>
      match dump s b r with
      | none => none
      | some m => some (.cons n v m)
end

end Verif.Opt
