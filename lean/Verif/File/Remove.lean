import Verif.Path.Props

/-!
`File.remove(path, force)`, src/jsiFileCmds.c:605-686, on a file tree with symbolic links.

The tree is a table of locations (`Tab`); its order is the order in which directories are listed, so a statement
about every table is a statement about every listing order.  Paths are resolved by the POSIX rules of
`Verif.Path.Spec`.  Simplifications: a directory is listed once, when it is opened, and entries that vanish
afterwards are still returned; other processes do not interfere; the type of a directory entry is always known
(`d_type` is never `DT_UNKNOWN`); hard links, virtual file systems and Windows are left out; the check of safe
interpreters (`SAFEACCESS`) is property C34.
-/

namespace Verif.File
open Verif.Path

/-- A file tree as a table. -/
abbrev Tab := List (Loc × Node)

/-- What the result depends on besides the tree. -/
structure Ctx where
  /-- working directory -/
  cwd : Loc
  /-- `$HOME`, used by `jsi_TildePath` -/
  home : Str
  /-- the operating system permits removing the object there -/
  may : Loc → Bool
  /-- the operating system permits listing the directory there -/
  canList : Loc → Bool

/-- `PATH_MAX`: a longer path is refused by the system, and src/jsiFileCmds.c:609, 626 cuts at it. -/
def pathMax : Nat := 4096

/-- `readdir`: the names in directory `d`. -/
def names (t : Tab) (d : Loc) : List Str :=
  t.filterMap fun e => if e.1 ≠ [] ∧ e.1.dropLast = d then e.1.getLast? else none

/-- The entries of a directory: the name, and `d_type == DT_DIR`. -/
def entries (t : Tab) (d : Loc) : List (Str × Bool) :=
  (names t d).map fun n => (n, fsOf t (d ++ [n]) == some .dir)

/-- The tree without the object at `l`. -/
def del (t : Tab) (l : Loc) : Tab := t.filter fun e => e.1 ≠ l

/-- `Jsi_Remove` on a native path: src/jsiFilesys.c:107-116, 389-394, the C function `remove`: a directory must
be empty, a final symbolic link is removed itself, a final slash requires a directory. -/
def rmOne (c : Ctx) (t : Tab) (p : Str) : Option Tab :=
  let q := tilde c.home p
  if pathMax ≤ q.length then none
  else
    match removeAt (fsOf t) c.cwd q with
    | none => none
    | some l =>
      if q.getLast? = some 47 ∧ fsOf t l ≠ some .dir then none
      else if fsOf t l = some .dir ∧ names t l ≠ [] then none
      else if c.may l then some (del t l) else none

/-- `opendir(path)`, src/jsiFileCmds.c:615: the path as it is, no "~". -/
def opendir (c : Ctx) (t : Tab) (p : Str) : Option Loc :=
  if pathMax ≤ p.length then none
  else
    match resolve (fsOf t) c.cwd p with
    | none => none
    | some l => if fsOf t l = some .dir ∧ c.canList l then some l else none

/-- src/jsiFileCmds.c:626: `snprintf(spath, PATH_MAX, "%s/%s", dirname, entry->d_name)`. -/
def child (p n : Str) : Str := (p ++ 47 :: n).take (pathMax - 1)

/-- src/jsiFileCmds.c:624-645: one turn of the loop; the flag is "no error so far". -/
def rmEntry (c : Ctx) (rec : Tab → Str → Tab × Bool) (p : Str) (s : Tab × Bool) (e : Str × Bool) : Tab × Bool :=
  if e.2 then
    let r := rec s.1 (child p e.1)
    (r.1, s.2 && r.2)
  else
    match rmOne c s.1 (child p e.1) with
    | some t' => (t', s.2)
    | none => (s.1, false)

/-- src/jsiFileCmds.c:648: `Jsi_Remove(interp, path, force)`, the result is not looked at. -/
def rmLast (c : Ctx) (p : Str) (s : Tab × Bool) : Tab × Bool :=
  match rmOne c s.1 p with
  | some t' => (t', s.2)
  | none => s

/-- `RmdirAll`, src/jsiFileCmds.c:605-650, with `force` (it is only called so).  The number is that of the
descriptors the process has left: each level of directories holds one open; without one `opendir` fails. -/
def rmdirAll (c : Ctx) : Nat → Tab → Str → Tab × Bool
  | 0, t, _ => (t, true)
  | k + 1, t, p =>
    match opendir c t p with
    | none => (t, true)
    | some d => rmLast c p ((entries t d).foldl (rmEntry c (rmdirAll c k) p) (t, true))

/-- `FileRemoveCmd`, src/jsiFileCmds.c:652-686: the tree afterwards, and whether the call returned without
error.  The `stat` of line 667 has no effect, so that it comes before the test of line 668 does not matter. -/
def remove (c : Ctx) (k : Nat) (t : Tab) (p : Str) (force : Bool) : Tab × Bool :=
  if p = [47] then (t, false)
  else
    match (if pathMax ≤ (tilde c.home p).length then none else resolve (fsOf t) c.cwd (tilde c.home p)) with
    | none => (t, force)
    | some l =>
      match rmOne c t p with
      | some t' => (t', true)
      | none =>
        if fsOf t l ≠ some .dir then (t, force)
        else if force = false then (t, false)
        else rmdirAll c k t p

end Verif.File
