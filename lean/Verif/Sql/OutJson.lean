import Verif.Sql.Out
import Verif.Json.Props

/-!
# db.query in the modes json, json2, line and column (src/jsiSqlite.c)

Modelled: `Jsi_JSONQuote` (src/jsiJSON.c 403-441), `dbEvalSetColumnJSON` (src/jsiSqlite.c 1746-1794) and the loops of
`SqliteQueryCmd` for `json` (2681-2734), `json2` (2737-2765), `column` (2792-2860) and `line` (2942-2970).  Floating
point columns are left out of the JSON modes.
-/
namespace Verif.Sql.OutJson
open Verif Verif.Json
open Verif.Sql.Out (cstr colText Cell)

abbrev Str := List UInt8

/-- The loop of `Jsi_JSONQuote` (src/jsiJSON.c 411-436): `n` is what is left of `len`, which counts turns of the loop;
the list is the memory from `cp` on.  The list's end stands for a NUL. -/
def quoteN : Nat → Str → Str
  | 0, _ => []
  | _ + 1, [] => []
  | n + 1, c :: t =>
    if c = 0 then []
    else
      match shortEsc c with
      | some e => 92 :: e :: quoteN n t
      | none =>
        if isprint c then c :: quoteN n t
        else utfEncode (uni (c :: t)).1 ++ quoteN n (t.drop ((uni (c :: t)).2 - 1))

/-- `Jsi_JSONQuote(interp, str, len, …)` with `len` not negative. -/
def quoteLen (len : Nat) (mem : Str) : Str := 34 :: (quoteN len mem ++ [34])

/-- `Jsi_JSONQuote(interp, str, -1, …)`. -/
def quoteZ (s : Str) : Str := quoteLen (cstr s).length (cstr s)

/-- A column of a row as `dbEvalSetColumnJSON` tells them apart.  A whole number comes with whether the column was
declared with a type that begins with "bool"; a blob with the bytes behind it in memory. -/
inductive JCell where
  | null
  | int (boolDecl : Bool) (n : Int)
  | text (s : Str)
  | blob (b beyond : Str)

/-- `dbEvalSetColumnJSON` (src/jsiSqlite.c 1746-1794); `sqlite3_column_blob` is NULL for an empty blob. -/
def colJson : JCell → Str
  | .null => asc "null"
  | .int bd n => if bd = true ∧ n = 0 then asc "false" else if bd = true ∧ n = 1 then asc "true" else dec n
  | .text s => quoteZ s
  | .blob b beyond => if b = [] then asc "null" else quoteLen b.length (b ++ beyond)

/-- The columns with ", " between them. -/
def commas : List Str → Str
  | [] => []
  | [x] => x
  | x :: y :: t => x ++ asc ", " ++ commas (y :: t)

/-- A row as an array (src/jsiSqlite.c 2699-2706). -/
def rowArr (r : List JCell) : Str := asc "[" ++ commas (r.map colJson) ++ asc "]"

/-- The names as an array (src/jsiSqlite.c 2689-2695). -/
def nameArr (names : List Str) : Str := asc "[" ++ commas (names.map quoteZ) ++ asc "]"

/-- One member of a row: the name, a colon and the value. -/
def member (p : Str × JCell) : Str := quoteZ p.1 ++ asc ":" ++ colJson p.2

/-- A row as an object (src/jsiSqlite.c 2721-2730). -/
def rowObj (names : List Str) (r : List JCell) : Str := asc "{" ++ commas ((names.zip r).map member) ++ asc "}"

/-- The loop with headers (src/jsiSqlite.c 2684-2709). -/
def headLoop (names : List Str) (limit : Nat) : Nat → List (List JCell) → Str
  | _, [] => []
  | cnt, r :: rows =>
    let cnt1 := if cnt = 0 then 1 else cnt
    (if cnt = 0 then nameArr names else []) ++ (if cnt1 ≠ 0 then asc ", " else []) ++ rowArr r ++
      (if limit ≠ 0 ∧ cnt1 + 1 > limit then [] else headLoop names limit (cnt1 + 1) rows)

/-- The loop without headers (src/jsiSqlite.c 2714-2733). -/
def objLoop (names : List Str) (limit : Nat) : Nat → List (List JCell) → Str
  | _, [] => []
  | cnt, r :: rows =>
    (if cnt ≠ 0 then asc ", " else []) ++ rowObj names r ++
      (if limit ≠ 0 ∧ cnt + 1 ≥ limit then [] else objLoop names limit (cnt + 1) rows)

/-- `db.query(…, {mode:'json', headers:…, limit:…})` (src/jsiSqlite.c 2681-2735). -/
def jsonOut (headers : Bool) (names : List Str) (limit : Nat) (rows : List (List JCell)) : Str :=
  asc "[ " ++ (if headers then headLoop names limit 0 rows else objLoop names limit 0 rows) ++ asc " ]"

/-- The loop of json2 (src/jsiSqlite.c 2738-2761). -/
def loop2 (names : List Str) (limit : Nat) : Nat → List (List JCell) → Str
  | _, [] => []
  | cnt, r :: rows =>
    (if cnt = 0 then asc "{ \"names\": [ " ++ commas (names.map quoteZ) ++ asc " ], \"values\": [ " else []) ++
      (if cnt ≠ 0 then asc ", " else []) ++ (asc "[" ++ commas (r.map colJson) ++ asc " ]") ++
      (if limit ≠ 0 ∧ cnt + 1 ≥ limit then [] else loop2 names limit (cnt + 1) rows)

/-- `db.query(…, {mode:'json2', …})` (src/jsiSqlite.c 2737-2765). -/
def json2Out (names : List Str) (limit : Nat) (rows : List (List JCell)) : Str :=
  loop2 names limit 0 rows ++ (if rows = [] then [] else asc " ] } ")

/-! ### Specification -/

/-- What a column is worth.  A blob is taken as a string. -/
def cellVal : JCell → JVal
  | .null => .null
  | .int bd n => if bd = true ∧ n = 0 then .bool false else if bd = true ∧ n = 1 then .bool true else .num n
  | .text s => .str true s
  | .blob b _ => .str true b

/-- A text that the JSON modes can carry: UTF-8, without NUL and without characters beyond U+FFFF. -/
def TextGood (s : Str) : Prop := ∃ cs : List Char, s = utf8 cs ∧ ∀ c ∈ cs, c.toNat ≠ 0 ∧ c.toNat < 0x10000

/-- Cells that it can carry; of the blobs, those with only printable ASCII characters in them. -/
def CellGood : JCell → Prop
  | .null => True
  | .int _ _ => True
  | .text s => TextGood s
  | .blob b _ => b ≠ [] ∧ ∀ c ∈ b, 32 ≤ c ∧ c ≤ 126

/-- A list as an array. -/
def toArr : List JVal → JArr
  | [] => .nil
  | v :: t => .cons v (toArr t)

/-- A row as an object, the last of columns of the same name counting. -/
def toObj (o : JObj) : List (Str × JCell) → JObj
  | [] => o
  | (k, c) :: t => toObj (o.insert k (cellVal c)) t

/-- The rows asked for: all of them for limit 0. -/
def wanted {α : Type} (limit : Nat) (rows : List α) : List α := if limit = 0 then rows else rows.take limit

def objOf (names : List Str) (r : List JCell) : JVal := .obj (toObj .nil (names.zip r))
def arrOf (r : List JCell) : JVal := .arr (toArr (r.map cellVal))
def namesOf (names : List Str) : JVal := .arr (toArr (names.map (fun s => JVal.str true s)))

/-- A table: as many cells in each row as names, names and cells that can be carried. -/
def Table (names : List Str) (rows : List (List JCell)) : Prop :=
  (∀ n ∈ names, TextGood n) ∧ ∀ r ∈ rows, r.length = names.length ∧ ∀ c ∈ r, CellGood c

end Verif.Sql.OutJson
