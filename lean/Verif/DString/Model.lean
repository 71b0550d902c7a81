import Verif.Basic

/-!
Model of `Jsi_DString`, src/jsiDString.c and src/jsi.h:346-365.

Storage is explicit: the inline array `Str` and the optional heap block `strA` are lists of cells,
`none` being an uninitialised byte.  Operations return `Option`; `none` is undefined behaviour
(access outside the storage, use of an uninitialised byte, reuse of a consumed `va_list`).
Not modelled: failing malloc, `uint` wrap (sizes are capped at 10^8 by the code itself), arguments
that alias the string's own storage, and the `= {"text"}` initialiser (only `= {}`,
`Jsi_DSInit` and `JSI_DSTRING_VAR`).
-/

namespace Verif.DString

/-- src/jsiInt.h:249 `JSI_MAX_ALLOC_BUF`. -/
def maxAlloc : Nat := 100000000
/-- src/jsi.h:220 `JSI_BUFSIZ`, the `JSI_PRINTF_BUFSIZ` of src/jsiDString.c:148. -/
def bufSiz : Nat := 8192

abbrev Cells := List (Option UInt8)

/-- src/jsi.h:350-358. -/
structure DS where
  strA : Option Cells
  len : Nat
  spaceAvl : Nat
  staticSize : Nat
  str : Cells

/-- src/jsiDString.c:27 `jsi_DSValue`: the storage in use. -/
def DS.cells (d : DS) : Cells := d.strA.getD d.str

/-- Replace the storage in use. -/
def DS.setCells (d : DS) (c : Cells) : DS :=
  match d.strA with
  | some _ => { d with strA := some c }
  | none => { d with str := c }

/-- src/jsiDString.c:60-66 `Jsi_DSInit`: also the state `= {}` has after `jsi_DsDoInit` (32-46). -/
def init (size : Nat) : DS :=
  { strA := none, len := 0, spaceAvl := size, staticSize := size,
    str := some 0 :: List.replicate (size - 1) none }

/-- src/jsi.h:361-365 `JSI_DSTRING_VAR(nam,siz)`. -/
def initVar (size : Nat) : DS := { init size with spaceAvl := 0 }

/-- Store bytes from offset `i` on; `none` when they do not fit. -/
def store (c : Cells) (i : Nat) (b : List UInt8) : Option Cells :=
  if i + b.length ≤ c.length then some (c.take i ++ b.map some ++ c.drop (i + b.length)) else none

/-- `Str[0] = 0` (the inline array has at least one byte). -/
def nul0 (c : Cells) : Cells := some 0 :: c.tail

/-- Bytes before the first NUL: what a C string holds. -/
def cstr (b : List UInt8) : List UInt8 := b.takeWhile (· ≠ 0)

/-- Reading storage as a C string; `none` if an uninitialised byte or the end is met first. -/
def readC : Cells → Option (List UInt8)
  | [] => none
  | none :: _ => none
  | some c :: t => if c = 0 then some [] else (readC t).map (c :: ·)

/-- src/jsiDString.c:198-230 `Jsi_DSSetLength`; returns the space available. -/
def setLength (d : DS) (length : Nat) : Option (Nat × DS) :=
  let length := if length ≥ maxAlloc then maxAlloc - 1 else length
  let d :=
    if length ≥ d.spaceAvl then
      match d.strA with
      | some c =>   -- Jsi_Realloc
        { d with spaceAvl := length,
                 strA := some (c.take (length + 1) ++ List.replicate (length + 1 - c.length) none) }
      | none =>
        if length ≥ d.staticSize then
          let fresh := List.replicate (length + 1) none
          let new := if d.len > 0 then d.str.take (d.len + 1) ++ fresh.drop (d.len + 1) else fresh
          { d with spaceAvl := length, strA := some new }
        else { d with spaceAvl := length }
    else d
  if length < d.len then
    (store d.cells length [0]).map fun c => (d.spaceAvl, { d.setCells c with len := length })
  else some (d.spaceAvl, d)

/-- src/jsiDString.c:94-116 `Jsi_DSAppendLen(ds, b, len)`. -/
def appendLen (d : DS) (b : List UInt8) : Option DS := do
  let nsiz := b.length + d.len + 1
  let finish (d : DS) : Option DS :=
    (store d.cells d.len (b ++ [0])).map fun c => { d.setCells c with len := d.len + b.length }
  if nsiz ≥ d.spaceAvl then
    let nsiz := if nsiz < d.spaceAvl * 2 then d.spaceAvl * 2 else nsiz
    let (avl, d) ← setLength d nsiz
    if avl < nsiz then some d      -- silently gives up
    else finish d
  else finish d

/-- src/jsiDString.c:123-139 `Jsi_DSAppend` with one argument, and `length < 0` in AppendLen: up to
the NUL. -/
def append (d : DS) (s : List UInt8) : Option DS := appendLen d (cstr s)

/-- src/jsiDString.c:232-239 `Jsi_DSSet`. -/
def set (d : DS) (s : List UInt8) : Option DS := do
  let (_, d) ← setLength d 0
  append d s

/-- src/jsiDString.c:72-86 `Jsi_DSFree`. -/
def free (d : DS) : DS :=
  if d.spaceAvl = 0 then d
  else { d with strA := none, str := nul0 d.str, len := 0, spaceAvl := d.staticSize }

/-- src/jsiDString.c:247-262 `Jsi_DSFreeDup`: the returned C string and the reset DString. -/
def freeDup (d : DS) : Option (List UInt8 × DS) :=
  match d.strA with
  | none => do
    let bytes ← (d.str.take d.len).mapM id     -- Jsi_StrdupLen
    let (_, d) ← setLength d 0
    some (cstr bytes, d)
  | some c => do
    let s ← readC c
    some (s, { d with strA := none, str := nul0 d.str, spaceAvl := d.staticSize, len := 0 })

/-- src/jsiDString.c:145-190 `Jsi_DSPrintf`, where `text` is what the format and arguments produce.
When 8192 bytes or more are spare the text is formatted in place but `len` is never advanced
(lines 158-162 and 184); when it does not fit, the already consumed `va_list` is used a second time
(undefined behaviour, line 176). -/
def printf (d : DS) (text : List UInt8) : Option DS :=
  let avail := d.spaceAvl - d.len
  if avail ≥ bufSiz then
    if text.length ≥ avail then none
    else (store d.cells d.len (text ++ [0])).map d.setCells
  else if text.length ≥ bufSiz then none
  else appendLen d text

/-- The public operations. -/
inductive Op where
  | append (b : List UInt8)      -- Jsi_DSAppendLen
  | appendStr (s : List UInt8)   -- Jsi_DSAppend
  | set (s : List UInt8)
  | setLength (n : Nat)
  | printf (text : List UInt8)
  | free | freeDup | value | length

/-- What the caller sees. -/
inductive Out where
  | unit | str (s : List UInt8) | num (n : Nat)
  deriving DecidableEq

/-- One call. -/
def step (d : DS) : Op → Option (Out × DS)
  | .append b => (appendLen d b).map (.unit, ·)
  | .appendStr s => (append d s).map (.unit, ·)
  | .set s => (set d s).map (.unit, ·)
  | .setLength n => (setLength d n).map fun (_, d) => (.unit, d)
  | .printf t => (printf d t).map (.unit, ·)
  | .free => some (.unit, free d)
  | .freeDup => (freeDup d).map fun (s, d) => (.str s, d)
  | .value => (readC d.cells).map fun s => (.str s, d)
  | .length => some (.num d.len, d)

/-- A history of calls. -/
def run (d : DS) : List Op → Option (List Out)
  | [] => some []
  | o :: os => (step d o).bind fun (r, d') => (run d' os).map (r :: ·)

end Verif.DString
