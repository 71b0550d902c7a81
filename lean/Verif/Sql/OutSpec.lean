import Verif.Sql.Out

/-! Readers of the output formats: what a program that gets the text makes of it. -/

namespace Verif.Sql.Out
open Verif

/-! ## CSV (RFC 4180, with a separator of one byte) -/

/-- Where a reader of CSV is. -/
inductive At where
  | start
  | plain
  | quoted
  | after
  deriving DecidableEq

/-- A byte in front of the first field. -/
def addC (c : UInt8) : List (List Str) → List (List Str)
  | (f :: r) :: rs => ((c :: f) :: r) :: rs
  | x => x

/-- A new field in front of the first row. -/
def newField : List (List Str) → List (List Str)
  | r :: rs => ([] :: r) :: rs
  | [] => [[[]]]

/-- A new row in front. -/
def newRow (rs : List (List Str)) : List (List Str) := [[]] :: rs

/-- The rest of a text, as a table whose first field is the one being read. -/
def rdCsv (sep : UInt8) : At → Str → Option (List (List Str))
  | .quoted, [] => none
  | _, [] => some [[[]]]
  | .start, c :: t =>
    if c = 34 then rdCsv sep .quoted t
    else if c = sep then (rdCsv sep .start t).map newField
    else if c = 10 then (rdCsv sep .start t).map newRow
    else (rdCsv sep .plain t).map (addC c)
  | .plain, c :: t =>
    if c = 34 then none
    else if c = sep then (rdCsv sep .start t).map newField
    else if c = 10 then (rdCsv sep .start t).map newRow
    else (rdCsv sep .plain t).map (addC c)
  | .quoted, c :: t =>
    if c = 34 then rdCsv sep .after t
    else (rdCsv sep .quoted t).map (addC c)
  | .after, c :: t =>
    if c = 34 then (rdCsv sep .quoted t).map (addC 34)
    else if c = sep then (rdCsv sep .start t).map newField
    else if c = 10 then (rdCsv sep .start t).map newRow
    else none

/-- A CSV file. -/
def readCsv (sep : UInt8) (s : Str) : Option (List (List Str)) :=
  if s = [] then some [] else rdCsv sep .start s

/-! ## INSERT statements -/

/-- The rest of a text in quotes `q`: up to a quote that is not doubled. -/
def rdText (q : UInt8) : Str → Option (Str × Str)
  | [] => none
  | [c] => if c = q then some ([], []) else none
  | c :: d :: t =>
    if c = q then
      if d = q then (rdText q t).map fun x => (q :: x.1, x.2) else some ([], d :: t)
    else (rdText q (d :: t)).map fun x => (c :: x.1, x.2)

/-- Value of a hexadecimal digit. -/
def hexVal (c : UInt8) : Option UInt8 :=
  if 48 ≤ c ∧ c ≤ 57 then some (c - 48)
  else if 97 ≤ c ∧ c ≤ 102 then some (c - 87)
  else if 65 ≤ c ∧ c ≤ 70 then some (c - 55)
  else none

/-- The rest of a blob: pairs of digits up to a quote. -/
def rdBlob : Str → Option (Str × Str)
  | [] => none
  | c :: t =>
    if c = 39 then some ([], t)
    else
      match t with
      | [] => none
      | d :: t' =>
        match hexVal c, hexVal d with
        | some a, some b => (rdBlob t').map fun q => ((a * 16 + b) :: q.1, q.2)
        | _, _ => none

/-- Bytes of a number. -/
def numByte (c : UInt8) : Bool := (48 ≤ c && c ≤ 57) || c = 43 || c = 45 || c = 46 || c = 101

/-- A literal of SQL. -/
def rdLit : Str → Option (Cell × Str)
  | 39 :: t => (rdText 39 t).map fun q => (.text q.1, q.2)
  | 88 :: 39 :: t => (rdBlob t).map fun q => (.blob q.1, q.2)
  | 78 :: 85 :: 76 :: 76 :: t => some (.null, t)
  | t => if (t.takeWhile numByte) = [] then none else some (.num (t.takeWhile numByte), t.dropWhile numByte)

/-- Literals with commas between them, up to `)`; at most `n`. -/
def rdLits : Nat → Str → Option (List Cell × Str)
  | 0, _ => none
  | n + 1, s =>
    match rdLit s with
    | none => none
    | some (c, 44 :: t) => (rdLits n t).map fun q => (c :: q.1, q.2)
    | some (c, 41 :: t) => some ([c], t)
    | some _ => none

/-- Skip a text. -/
def skip (p s : Str) : Option Str := if p.isPrefixOf s then some (s.drop p.length) else none

/-- A script of INSERT statements, one to a line: table and values of each. -/
def rdScript : Nat → Str → Option (List (Str × List Cell))
  | 0, _ => none
  | n + 1, s =>
    if s = [] then some []
    else
      match skip (asc "INSERT INTO \"") s with
      | none => none
      | some s1 =>
        match rdText 34 s1 with
        | none => none
        | some (tbl, s2) =>
          match skip (asc " VALUES(") s2 with
          | none => none
          | some t =>
            match rdLits (t.length + 1) t with
            | none => none
            | some (r, u) =>
              match skip (asc ";\n") u with
              | none => none
              | some v => (rdScript n v).map ((tbl, r) :: ·)

/-- The rows a script of INSERT statements inserts. -/
def readInserts (s : Str) : Option (List (Str × List Cell)) := rdScript (s.length + 1) s

/-! ## HTML -/

/-- The character a reference stands for. -/
def refs : List (Str × UInt8) :=
  [(asc "&lt;", 60), (asc "&gt;", 62), (asc "&amp;", 38), (asc "&quot;", 34), (asc "&#39;", 39)]

/-- Text of an element: references replaced, up to a `<`. -/
def rdHtml : Nat → Str → Option (Str × Str)
  | 0, _ => none
  | _, [] => some ([], [])
  | n + 1, c :: t =>
    if c = 60 then some ([], c :: t)
    else if c = 38 then
      match refs.find? (fun r => r.1.isPrefixOf (c :: t)) with
      | none => none
      | some r => (rdHtml n ((c :: t).drop r.1.length)).map fun q => (r.2 :: q.1, q.2)
    else (rdHtml n t).map fun q => (c :: q.1, q.2)

/-- Cells of a row up to `</TR>`. -/
def rdCells (tag : Str) : Nat → Str → Option (List Str × Str)
  | 0, _ => none
  | n + 1, s =>
    match skip (asc "</TR>") s with
    | some t => some ([], t)
    | none =>
      match skip (asc "<" ++ tag ++ asc ">") s with
      | none => none
      | some t =>
        match rdHtml (t.length + 1) t with
        | none => none
        | some (x, u) =>
          match skip (asc "</" ++ tag ++ asc ">") u with
          | none => none
          | some v => (rdCells tag n v).map fun q => (x :: q.1, q.2)

/-- Rows, with line ends between them. -/
def rdRows (tag : Str) : Nat → Str → Option (List (List Str))
  | 0, _ => none
  | n + 1, s =>
    match skip (asc "<TR>") s with
    | none => none
    | some t =>
      match rdCells tag (t.length + 1) t with
      | none => none
      | some (r, u) =>
        if u = [] then some [r]
        else
          match skip [10] u with
          | none => none
          | some v => (rdRows tag n v).map (r :: ·)

/-- A table in HTML. -/
def readHtml (tag s : Str) : Option (List (List Str)) :=
  if s = [] then some [] else rdRows tag (s.length + 1) s

end Verif.Sql.Out
