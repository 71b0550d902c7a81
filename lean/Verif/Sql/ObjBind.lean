import Verif.Basic
/-!
# SQL from an object: `%v` (C207)

`Jsi_SqlObjBinds` (src/jsiUtils.c 539-659) and its use in `query` (src/jsiSqlite.c 2629-2644).  The object is its list of fields in the order of
`Jsi_IterGetKeys`, each with its value: the fields of prototypes, whose values are found too, are in it.
-/
namespace Verif.Sql.ObjBind

abbrev Bytes := List UInt8

/-- A value: of a number what `%g` prints (six digits), of an array or object its JSON; `other`: `null` and what has no text. -/
inductive FV where
  | bool (b : Bool)
  | num (g : Bytes)
  | json (t : Bytes)
  | str (s : Bytes)
  | other

/-- `Jsi_SqlObjOpts`.  src/jsi.h:635-643. -/
structure Opts where
  skip : List Bytes
  defaultNull : Bool
  noChecks : Bool
  noDefaults : Bool
  noTypes : Bool

/-- What the query does. -/
inductive Kind where
  | create
  | insert
  | update
  deriving DecidableEq

def lower (c : UInt8) : UInt8 := if 65 ≤ c ∧ c ≤ 90 then c + 32 else c

/-- By the first six letters.  src/jsiUtils.c:548-551. -/
def kindOf (s : Bytes) : Option Kind :=
  if (s.take 6).map lower = asc "create" then some .create
  else if (s.take 6).map lower = asc "insert" then some .insert
  else if (s.take 6).map lower = asc "update" then some .update
  else none

/-- `Jsi_Strstr`, with what is before and after.  src/jsiUtils.c:552-557, 654. -/
def cut (p : Bytes) : Bytes → Option (Bytes × Bytes)
  | [] => if p = [] then some ([], []) else none
  | c :: t => if p <+: c :: t then some ([], (c :: t).drop p.length) else (cut p t).map fun r => (c :: r.1, r.2)

/-- src/jsiUtils.c:552-555. -/
def cut2 (s : Bytes) : Option (Bytes × Bytes) := (cut (asc " %v") s).orElse fun _ => cut (9 :: asc "%v") s

/-- The default.  src/jsiUtils.c:584-630. -/
def colDefault (o : Opts) (v : FV) : Option Bytes :=
  if o.defaultNull then some (asc "NULL")
  else if o.noTypes then none
  else some (match v with
    | .bool b => if b then asc "1" else asc "0"
    | .num g => g
    | .json t => asc "'" ++ t ++ asc "'"
    | .str s => asc "'" ++ s ++ asc "'"
    | .other => asc "NULL")

/-- The type.  src/jsiUtils.c:584-637. -/
def colType (o : Opts) (v : FV) : Option Bytes :=
  if o.noTypes then none
  else match v with
    | .bool _ => some (asc "BOOLEAN")
    | .num _ => some (asc "NUMERIC")
    | .json _ => some (asc "CHARJSON")
    | .str _ => if o.noChecks = false ∧ colDefault o v = some (asc "NULL") then none else some (asc "TEXT")
    | .other => if o.noChecks = false then none else some (asc "TEXT")

/-- The check: of the type, and of the value.  src/jsiUtils.c:592-637. -/
def colCheck (o : Opts) (v : FV) : Option (Bytes × Option Bytes) :=
  if o.noTypes ∨ o.noChecks then none
  else match v with
    | .bool _ => some (asc "== 'integer'", some (asc "(0,1)"))
    | .num _ => some (asc "IN ('real','integer')", none)
    | .json _ => none
    | .str _ => if colDefault o v = some (asc "NULL") then none else some (asc "== 'text'", none)
    | .other => none

/-- A part that may be missing. -/
def part (p : Bytes) : Option Bytes → Bytes
  | none => []
  | some t => p ++ t

/-- src/jsiUtils.c:642-647. -/
def checkText (k : Bytes) : Option (Bytes × Option Bytes) → Bytes
  | none => []
  | some (c, c2) => asc " CONSTRAINT '" ++ k ++ asc " Invalid' CHECK(typeof(" ++ k ++ asc ") " ++ c ++ part (asc " AND " ++ k ++ asc " IN ") c2 ++ asc ")"

/-- What follows the name of a column.  src/jsiUtils.c:638-647. -/
def column (o : Opts) (k : Bytes) (v : FV) : Bytes :=
  part (asc " ") (colType o v) ++ part (asc " DEFAULT ") (colDefault o v) ++ checkText k (colCheck o v)

/-- `sStr`, `vStr`, `pre`. -/
structure Acc where
  s : Bytes
  v : Bytes
  pre : Bytes

/-- A field is written.  src/jsiUtils.c:577-649. -/
def put (o : Opts) (kd : Kind) (name : Bytes) (a : Acc) (f : Bytes × FV) : Acc :=
  match kd with
  | .update => ⟨a.s, a.v ++ a.pre ++ asc "[" ++ f.1 ++ asc "]" ++ asc " = " ++ asc "$" ++ name ++ asc "(" ++ f.1 ++ asc ")", asc ", "⟩
  | .insert => ⟨a.s ++ a.pre ++ asc "[" ++ f.1 ++ asc "]", a.v ++ a.pre ++ asc "$" ++ name ++ asc "(" ++ f.1 ++ asc ")", asc ", "⟩
  | .create => ⟨a.s ++ a.pre ++ asc "[" ++ f.1 ++ asc "]" ++ column o f.1 f.2, a.v, asc ", "⟩

/-- A turn of the loop.  src/jsiUtils.c:570-650. -/
def turn (o : Opts) (kd : Kind) (name : Bytes) (a : Acc) (f : Bytes × FV) : Acc :=
  if f.1 = asc "rowid" then a else if f.1 ∈ o.skip then a else put o kd name a f

/-- Before the loop.  src/jsiUtils.c:556-569. -/
def acc0 (kd : Kind) (b : Bytes) : Acc :=
  ⟨b ++ (if kd = .update then asc " SET " else asc " ("), if kd = .insert then asc " VALUES(" else [], []⟩

/-- After the loop.  src/jsiUtils.c:651-656. -/
def close (kd : Kind) (a : Acc) (rest : Bytes) : Bytes :=
  a.s ++ (if kd = .update then [] else asc ") ") ++ (a.v ++ (if kd = .insert then asc ")" else [])) ++ rest

/-- `Jsi_SqlObjBinds`; `none`: an error.  src/jsiUtils.c:539-659. -/
def objBinds (o : Opts) (name : Bytes) (obj : Option (List (Bytes × FV))) (sql : Bytes) : Option Bytes :=
  match obj with
  | none => none
  | some fs =>
    match kindOf sql with
    | none => some sql
    | some kd => (cut2 sql).map fun r => close kd (fs.foldl (turn o kd name) (acc0 kd r.1)) r.2

/-- What `query` does with it. -/
inductive Res where
  /-- It runs this. -/
  | runs (sql : Bytes)
  /-- It gives `undefined`, and no error. -/
  | nothing
  deriving DecidableEq

/-- src/jsiSqlite.c:2629-2633, 3104: `rc` is still `JSI_OK`. -/
def queryObj (o : Opts) (name : Bytes) (obj : Option (List (Bytes × FV))) (sql : Bytes) : Res :=
  match objBinds o name obj sql with
  | none => .nothing
  | some s => .runs s

/-! ## What it should be -/

/-- With commas between. -/
def commas (l : List Bytes) : Bytes := (l.intersperse (asc ", ")).flatten

/-- The fields that are columns. -/
def columns (skip : List Bytes) (fs : List (Bytes × FV)) : List (Bytes × FV) := fs.filter fun f => f.1 ≠ asc "rowid" ∧ f.1 ∉ skip

/-- A text starts with a word in letters of any case. -/
def Starts (w s : Bytes) : Prop := ∃ a b, s = a ++ b ∧ a.map lower = w

/-- SQL: a text in quotes, with two quotes for one; and what follows it. -/
def sqlText : Bytes → Option (Bytes × Bytes)
  | 39 :: r => go r
  | _ => none
where
  go : Bytes → Option (Bytes × Bytes)
  | 39 :: 39 :: r => (go r).map fun x => (39 :: x.1, x.2)
  | 39 :: r => some ([], r)
  | c :: r => (go r).map fun x => (c :: x.1, x.2)
  | [] => none

/-- SQL: a name in brackets, and what follows it. -/
def sqlName : Bytes → Option (Bytes × Bytes)
  | 91 :: r => cut (asc "]") r
  | _ => none

end Verif.Sql.ObjBind
