import Verif.Sql.Out
import Mathlib.Tactic.Conv

/-!
# db.import (src/jsiSqlite.c)

Modelled: `dbLocalGetline` (1653-1690) and the loop of `SqliteImportCmd` (2228-2350) with the options `csv`, `separator`
and `nullvalue`; without `headers` and `limit`.  The file has no NUL in it.  Every INSERT succeeds, and no transaction
is open before.
-/
namespace Verif.Sql.Import
open Verif
open Verif.Sql.Out (Cell cstr colText joinSep csvOut csvCell csvScan csvBody needQuote tabLoop)

abbrev Str := List UInt8

/-! ### The code -/

/-- The lines that `dbLocalGetline` (src/jsiSqlite.c 1653-1690) gives one after another: without their line feeds; an
empty rest is no line. -/
def getLines : Str → List Str
  | [] => []
  | c :: t => if c = 10 then [] :: getLines t else
    match getLines t, t.head? with
    | l :: r, some _ => (c :: l) :: r
    | _, _ => [[c]]

/-- `Jsi_Strstr(z, zSep)`: what is before and behind the first separator. -/
def strstr (sep : Str) : Str → Option (Str × Str)
  | [] => none
  | c :: t => if sep.isPrefixOf (c :: t) then some ([], (c :: t).drop sep.length)
    else (strstr sep t).map fun q => (c :: q.1, q.2)

/-- What is behind a separator is shorter (the separator has at least one byte). -/
theorem strstr_len (sep : Str) (h : sep ≠ []) : ∀ {z : Str} {q : Str × Str}, strstr sep z = some q → q.2.length < z.length
  | [], q, e => by simp [strstr] at e
  | c :: t, q, e => by
    rw [strstr] at e
    split at e
    · injection e with e; subst e
      have : sep.length ≠ 0 := by simpa using h
      simp only [List.length_drop, List.length_cons]; omega
    · cases hs : strstr sep t with
      | none => rw [hs] at e; simp at e
      | some q' =>
        rw [hs] at e
        simp only [Option.map_some, Option.some.injEq] at e
        subst e
        have := strstr_len sep h hs
        simp only [List.length_cons]; omega

/-- The loop of a line without a quote in it, or without `csv` (src/jsiSqlite.c 2316-2326): the columns.  (The loop does
not enter columns beyond the number of the table, but counts them, so that the line is refused, 2328.)  The first
argument is a bound for the turns; `n` is a separator less than there are bytes. -/
def plainCols (sep : Str) : Nat → Str → List Str
  | 0, z => [z]
  | n + 1, z => match strstr sep z with
    | none => [z]
    | some q => q.1 :: plainCols sep n q.2

/-- The inner loop for a quoted value (src/jsiSqlite.c 2289-2310) from `zn` on; `acc` is `cStr`.  `none`: it goes on behind
the end of the line.  Otherwise the value and what is at `zn` then: behind the separator, or (`none`) on the last byte of
the line, a quote. -/
def quotedVal (sep : Str) : Str → Str → Option (Str × Option Str)
  | _, [] => none
  | acc, [c] => if c ≠ 34 then none else some (acc, none)
  | acc, c :: d :: r =>
    if c ≠ 34 then quotedVal sep (acc ++ [c]) (d :: r)
    else if d = 34 then quotedVal sep (acc ++ [34]) r
    else if sep.isPrefixOf (d :: r) then some (acc, some ((d :: r).drop sep.length))
    else quotedVal sep (acc ++ [c]) (d :: r)

/-- The columns of a line with a quote (src/jsiSqlite.c 2274-2315), `none`: reading behind its end.  At the end of a quoted
value at the end of the line `z` is left on the last byte: this is the NUL that `Jsi_Strcpy` has written if no quote was
doubled, and otherwise still the quote.  The first argument is a bound for the turns. -/
def csvCols (sep : Str) : Nat → Str → Option (List Str)
  | 0, _ => none
  | n + 1, z =>
    if z.headD 0 ≠ 34 then
      match strstr sep z with
      | none => some [z]
      | some q => (csvCols sep n q.2).map (q.1 :: ·)
    else
      match quotedVal sep [] z.tail with
      | none => none
      | some (v, some rest) => (csvCols sep n rest).map (v :: ·)
      | some (v, none) =>
        if v.length = z.length - 2 then (csvCols sep n []).map (v :: ·)
        else (csvCols sep n [34]).map (v :: ·)

/-- Number of quotes. -/
def quotes (s : Str) : Nat := s.count 34

/-- Lines put together until the number of quotes is even (src/jsiSqlite.c 2246-2266); `none`: the file ends before. -/
def agg (acc : Str) : List Str → Option (Str × List Str)
  | [] => if quotes acc % 2 = 0 then some (acc, []) else none
  | l :: ls => if quotes acc % 2 = 0 then some (acc, l :: ls) else agg (acc ++ 10 :: l) ls

/-- How the call ends. -/
inductive End where
  /-- the rows are in the table; a column is NULL or a text -/
  | commit (rows : List (List (Option Str)))
  /-- an error, nothing is in the table -/
  | rollback
  /-- reading behind the end of a line -/
  | overrun
  /-- writing behind the array of columns -/
  | overflow
  /-- the file is closed twice; the rows before are in the table -/
  | closed2 (rows : List (List (Option Str)))
deriving DecidableEq

/-- What is bound for a column (src/jsiSqlite.c 2334-2344). -/
def bindVal (nullv s : Str) : Option Str := if (nullv ≠ [] ∧ s = nullv) ∨ s = [] then none else some s

/-- The columns of one record: `azCol` has `nCol + 1` places (src/jsiSqlite.c 2219, 2328). -/
def cols (csv : Bool) (sep : Str) (nCol : Nat) (l : Str) : Except End (List Str) :=
  if csv = true ∧ 34 ∈ l then
    match csvCols sep (l.length + 2) l with
    | none => .error .overrun
    | some f => if f.length > nCol + 1 then .error .overflow else if f.length ≠ nCol then .error .rollback else .ok f
  else
    if (plainCols sep l.length l).length ≠ nCol then .error .rollback else .ok (plainCols sep l.length l)

/-- The loop (src/jsiSqlite.c 2228-2348). -/
def loop (csv : Bool) (sep nullv : Str) (nCol : Nat) : Nat → List Str → List (List (Option Str)) → End
  | 0, _, rows => .commit rows
  | _ + 1, [], rows => .commit rows
  | n + 1, l :: ls, rows =>
    match (if csv = true ∧ 34 ∈ l then agg l ls else some (l, ls)) with
    | none => .closed2 rows
    | some q =>
      match cols csv sep nCol q.1 with
      | .error e => e
      | .ok f => loop csv sep nullv nCol n q.2 (rows ++ [f.map (bindVal nullv)])

/-- `db.import(table, file, {csv:…, separator:sep, nullvalue:nullv})`; the table has `nCol` columns and is empty. -/
def importFile (csv : Bool) (sep nullv : Str) (nCol : Nat) (text : Str) : End :=
  loop csv sep nullv nCol (getLines text).length (getLines text) []

/-! ### Specification: files with comma separated values (RFC 4180) -/

/-- A value as it is written in a file: as it is, or between quotes. -/
inductive Field where
  | plain (s : Str)
  | quoted (s : Str)

/-- The value. -/
def Field.val : Field → Str
  | .plain s => s
  | .quoted s => s

/-- Quotes doubled. -/
def doubled : Str → Str
  | [] => []
  | c :: t => if c = 34 then 34 :: 34 :: doubled t else c :: doubled t

def Field.text : Field → Str
  | .plain s => s
  | .quoted s => 34 :: doubled s ++ [34]

/-- What may be written as it is: no quote, no line feed and not the first byte of the separator. -/
def Field.Ok (sep : Str) : Field → Prop
  | .plain s => (34 : UInt8) ∉ s ∧ (10 : UInt8) ∉ s ∧ sep.headD 0 ∉ s
  | .quoted _ => True

/-- A record. -/
def recText (sep : Str) (r : List Field) : Str := joinSep sep id (r.map Field.text)

/-- A file: every record ends with a line feed. -/
def fileText (sep : Str) (rows : List (List Field)) : Str := rows.flatMap fun r => recText sep r ++ [10]

/-- A separator of one or more bytes, without quotes and line feeds. -/
def SepOk (sep : Str) : Prop := sep ≠ [] ∧ (34 : UInt8) ∉ sep ∧ (10 : UInt8) ∉ sep

end Verif.Sql.Import
