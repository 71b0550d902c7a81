import Verif.Basic

/-!
# The text output modes of db.query (src/jsiSqlite.c)

Modelled: `dbEvalSetColumn` (1796-1842), `dbOutputCsv` (2457-2485) and its table `needCsvQuote` (2435-2452),
`dbOutputHtmlString` (2487-2512), `dbOutputQuotedString` (2516-2543), `dbOutputHexBlob` (2547-2553), and the loops of
`SqliteQueryCmd` for the modes `insert` (2862-2908), `tabs` and `csv` (2910-2938), `html` (2967-2999).

The rows are those `dbEvalStep` gives one after another for one statement; numbers arrive as the text that
`snprintf`/`Jsi_NumberToString` make of them.  Strings of C are byte lists cut at the first NUL (`cstr`).
-/
namespace Verif.Sql.Out
open Verif

abbrev Str := List UInt8

/-- A byte string used as a C string. -/
def cstr (s : Str) : Str := s.takeWhile (· ≠ 0)

/-- A column of a row: what `sqlite3_column_type` tells apart. -/
inductive Cell where
  | null
  | num (txt : Str)
  | text (s : Str)
  | blob (b : Str)
  deriving DecidableEq, Repr

/-- `dbEvalSetColumn` (jsiSqlite.c 1796-1842): the text of a column.  Text goes through a C string. -/
def colText : Cell → Str
  | .null => []
  | .num t => t
  | .text s => cstr s
  | .blob b => b

/-- `needCsvQuote` (jsiSqlite.c 2435-2452). -/
def needQuote (c : UInt8) : Bool := c ≤ 32 || c = 34 || c = 39 || 127 ≤ c

/-- The search loop of `dbOutputCsv` (jsiSqlite.c 2464-2470) from the rest `t` of the field `z`: true if it
stops early. -/
def csvScan (sep z : Str) : Str → Bool
  | [] => false
  | c :: t =>
    if needQuote c || (some c = sep.head? && (sep.length = 1 || sep.isPrefixOf z)) then true else csvScan sep z t

/-- The quoting loop (jsiSqlite.c 2473-2476). -/
def csvBody : Str → Str
  | [] => []
  | c :: t => if c = 34 then 34 :: c :: csvBody t else c :: csvBody t

/-- `dbOutputCsv` (jsiSqlite.c 2457-2485); the loop leaves `i` at 0 also for an empty field. -/
def csvCell (sep s : Str) : Str :=
  let z := cstr s
  if z = [] ∨ csvScan sep z z = true then 34 :: csvBody z ++ [34] else z

/-- The columns of a row with the separator between them (jsiSqlite.c 2925-2933), `f` writes a column. -/
def joinSep (sep : Str) (f : Str → Str) : List Str → Str
  | [] => []
  | [x] => f x
  | x :: y :: t => f x ++ sep ++ joinSep sep f (y :: t)

/-- The loop of the modes `csv` and `tabs` (jsiSqlite.c 2910-2938); `limit` 0: no limit.  `f`: `csvCell`, or the
C string itself for `tabs`. -/
def tabLoop (sep : Str) (f : Str → Str) (headers : Bool) (names : List Str) (limit : Nat) : Nat → List (List Cell) → Str
  | _, [] => []
  | cnt, r :: rows =>
    (if cnt = 0 ∧ headers = true then joinSep sep cstr names else []) ++
    (if cnt ≠ 0 ∨ headers = true then [10] else []) ++
    joinSep sep f (r.map colText) ++
    (if limit ≠ 0 ∧ cnt + 1 ≥ limit then [] else tabLoop sep f headers names limit (cnt + 1) rows)

/-- `db.query(…, {mode:'csv', separator:sep, headers:…, limit:…})`. -/
def csvOut (sep : Str) (headers : Bool) (names : List Str) (limit : Nat) (rows : List (List Cell)) : Str :=
  tabLoop sep (csvCell sep) headers names limit 0 rows

/-- The loop of `dbOutputQuotedString` with a quote inside (jsiSqlite.c 2525-2540): `run` is the text before the next
quote. -/
def sqlBody : Str → Str
  | [] => []
  | c :: t => if c = 39 then 39 :: 39 :: sqlBody t else c :: sqlBody t

/-- `dbOutputQuotedString` (jsiSqlite.c 2516-2543); the two ways (with and without a quote inside) write the same
as the loop by characters. -/
def sqlQuoted (s : Str) : Str :=
  let z := cstr s
  if 39 ∈ z then 39 :: sqlBody z ++ [39] else 39 :: z ++ [39]

/-- A hexadecimal digit of `%02x`. -/
def hexDigit (n : UInt8) : UInt8 := if n < 10 then 48 + n else 87 + n

/-- `dbOutputHexBlob` (jsiSqlite.c 2547-2553). -/
def hexBlob (b : Str) : Str := 88 :: 39 :: (b.flatMap fun c => [hexDigit (c / 16), hexDigit (c % 16)]) ++ [39]

/-- Is it NULL? -/
def Cell.isNull : Cell → Bool
  | .null => true
  | _ => false

/-- One value of an INSERT (jsiSqlite.c 2871-2899); `t0` says that the column is NULL in the first row
(`apColType` is filled once for a statement, 413-449).  A NULL in a later row comes to the last case: its text is
empty, which is not a number. -/
def insValue (t0 : Bool) (c : Cell) : Str :=
  if t0 then asc "NULL"
  else
    match c with
    | .text _ => sqlQuoted (colText c)
    | .num _ => colText c
    | .blob b => hexBlob b
    | .null => sqlQuoted []

/-- The values of a row. -/
def insValues : Bool → List (Bool × Cell) → Str
  | _, [] => []
  | first, (t0, c) :: t => (if first then [] else [44]) ++ insValue t0 c ++ insValues false t

/-- The loop of the mode `insert` (jsiSqlite.c 2862-2906): the text, the rows left and the count. -/
def insLoop (tbl : Str) (nulls : List Bool) (limit : Nat) : Nat → List (List Cell) → Str × List (List Cell) × Nat
  | cnt, [] => ([], [], cnt)
  | cnt, r :: rows =>
    let head := asc "INSERT INTO \"" ++ cstr tbl ++ asc "\" VALUES(" ++ insValues true (nulls.zip r) ++ asc ");\n"
    if limit ≠ 0 ∧ cnt + 1 ≥ limit then (head, rows, cnt + 1)
    else
      let q := insLoop tbl nulls limit (cnt + 1) rows
      (head ++ q.1, q.2.1, q.2.2)

/-- `db.query(…, {mode:'insert', table:tbl, …})`: the case has no `break`, so the loop of `tabs` comes behind it. -/
def insOut (tbl sep : Str) (headers : Bool) (names : List Str) (limit : Nat) (rows : List (List Cell)) : Str :=
  let q := insLoop tbl ((rows.headD []).map Cell.isNull) limit 0 rows
  q.1 ++ tabLoop sep cstr headers names limit q.2.2 q.2.1

/-- `dbOutputHtmlString` (jsiSqlite.c 2487-2512). -/
def htmlStr : Str → Str
  | [] => []
  | c :: t =>
    (if c = 60 then asc "&lt;" else if c = 62 then asc "&gt;" else if c = 38 then asc "&amp;"
      else if c = 34 then asc "&quot;" else if c = 39 then asc "&#39;" else [c]) ++ htmlStr t

/-- A row of the mode `html`, `tag` being TD or TH. -/
def htmlRow (tag : Str) (cells : List Str) : Str :=
  asc "<TR>" ++ (cells.flatMap fun s => asc "<" ++ tag ++ asc ">" ++ htmlStr (cstr s) ++ asc "</" ++ tag ++ asc ">") ++
    asc "</TR>"

/-- The loop of the mode `html` (jsiSqlite.c 2967-2999). -/
def htmlLoop (headers : Bool) (names : List Str) (limit : Nat) : Nat → List (List Cell) → Str
  | _, [] => []
  | cnt, r :: rows =>
    (if cnt = 0 ∧ headers = true then htmlRow (asc "TH") names else []) ++
    (if cnt ≠ 0 ∨ headers = true then [10] else []) ++
    htmlRow (asc "TD") (r.map colText) ++
    (if limit ≠ 0 ∧ cnt + 1 ≥ limit then [] else htmlLoop headers names limit (cnt + 1) rows)

end Verif.Sql.Out
