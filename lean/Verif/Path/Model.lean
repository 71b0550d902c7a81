import Verif.Basic

/-!
Model of the path functions of src/jsiFilesys.c and of the access check of safe interpreters
(`Jsi_InterpAccess`, src/jsiInterp.c:2955-3000), on Unix, native file system.

A C string is the list of its bytes (no NUL).  47 is `/`, 46 is `.`, 126 is `~`, 58 is `:`.
Simplification: strings longer than the fixed arrays (`PATH_MAX` = 4096 bytes or components) are not
treated apart; the operating system refuses such paths.
-/

namespace Verif.Path

abbrev Str := List UInt8

/-- `Jsi_SplitStr(path, .., "/", ..)`, src/jsiUtils.c:2306-2344 with the separator "/": the pieces between
the slashes, empty pieces included. -/
def split : Str → List Str
  | [] => [[]]
  | c :: t =>
    if c = 47 then [] :: split t
    else
      match split t with
      | [] => [[c]]
      | p :: ps => (c :: p) :: ps

/-- `Jsi_Strstr(s, p) != NULL`. -/
def strstr (p : Str) : Str → Bool
  | [] => p.isPrefixOf []
  | c :: t => p.isPrefixOf (c :: t) || strstr p t

/-! ### `Jsi_NormalPath`, src/jsiFilesys.c:1204-1290 -/

/-- src/jsiFilesys.c:1208-1232: the absolute form of the path that is then cleaned.  `none`: NULL result. -/
def absForm (home cwd : Str) (path : Str) : Option Str :=
  match path with
  | [] => none
  | c :: t =>
    if c = 47 then some path
    else if c = 126 then some (home ++ (if t.head? = some 47 then [] else [47]) ++ t)
    else if c = 46 ∧ t = [] then some cwd
    else some (cwd ++ [47] ++ path)

/-- src/jsiFilesys.c:1243-1256: the value of `unclean` after the scan; the flag argument says whether a
component starts here. -/
def unclean : Bool → Str → Bool
  | _, [] => false
  | st, c :: t =>
    (c == 47 && t.head? == some 47)
      || (st && c == 46 && (t.head? == some 46 || t.head? == some 47))
      || unclean (c == 47) t

/-- src/jsiFilesys.c:1243-1256: the components recorded.  A component of length 0 at the end (trailing
slash) is recorded by the code but ignored by all that follows; it is left out. -/
def comps (s : Str) : List Str := (split s).filter (· ≠ [])

/-- `strncmp(a, b, n) == 0`, for strings without NUL. -/
def strncmpEq (a b : Str) (n : Nat) : Bool := a.take n == b.take n

/-- src/jsiFilesys.c:1270-1276: from index `m` downwards, lengths are set to 0 up to and including the first
that is not 0. `none`: there is none ("can't fix it"). -/
def zeroPrev (cs : List Str) : Nat → Option (List Str)
  | 0 => none
  | m + 1 => if cs.getD m [] = [] then zeroPrev cs m else some (cs.set m [])

/-- src/jsiFilesys.c:1261-1280: the loop from the last component down to component 1.  `ss` is the pointer
left over from the scan: it is at the end of the string. -/
def normLoop (ss : Str) : Nat → List Str → Option (List Str)
  | 0, cs => some cs
  | n + 1, cs =>
    if cs.getD (n + 1) [] = [] then normLoop ss n cs
    else if strncmpEq (cs.getD (n + 1) []) [46] (cs.getD (n + 1) []).length then
      normLoop ss n (cs.set (n + 1) [])
    else if strncmpEq ss [46, 46] (cs.getD (n + 1) []).length then
      match zeroPrev cs (n + 1) with
      | none => none
      | some cs' => normLoop ss n cs'
    else normLoop ss n cs

/-- src/jsiFilesys.c:1281-1290: the components kept, each after a slash. -/
def joinSlash (cs : List Str) : Str := (cs.filter (· ≠ [])).flatMap (47 :: ·)

/-- src/jsiFilesys.c:1234-1294: cleaning of the absolute form. -/
def cleanPath (s : Str) : Str :=
  if unclean true s then
    match normLoop [] ((comps s).length - 1) (comps s) with
    | none => s
    | some cs => joinSlash cs
  else s

/-- `Jsi_NormalPath` (`File.normalize`, src/jsiFileCmds.c:820-831). -/
def normalPath (home cwd path : Str) : Option Str := (absForm home cwd path).map cleanPath

/-! ### `NormalizeUnixPath`, src/jsiFilesys.c:1318-1356 -/

/-- src/jsiFilesys.c:1342-1347: `strrchr` and the truncation, for a "..": nothing is removed if there is no
slash or only the one at the start. -/
def popLast (d : Str) : Str :=
  match (d.reverse.dropWhile (· ≠ 47)).reverse with
  | [] => d
  | [_] => d
  | p => p.dropLast

/-- src/jsiFilesys.c:1334-1350: the loop over the pieces; `first` is `i == 0`. -/
def unixLoop : Bool → List Str → Str → Str
  | _, [], d => d
  | first, a :: as, d =>
    if a = [] then unixLoop false as d
    else if !first && a == [46] then unixLoop false as d
    else if a = [46, 46] then unixLoop false as (popLast d)
    else unixLoop false as (d ++ (if first then [] else [47]) ++ a)

/-- `NormalizeUnixPath`.  When the path is relative and contains "..", what is rewritten is a temporary
copy (`path` is set to the copy at line 1326) unless the working directory is "/": the caller's string
is unchanged. -/
def normalizeUnix (cwd path : Str) : Str :=
  if !strstr [46, 47] path then path
  else if path.head? ≠ some 47 ∧ strstr [46, 46] path = true ∧ cwd ≠ [47] then path
  else unixLoop true (split path) []

/-! ### `Jsi_FileRealpathStr`, src/jsiFilesys.c:1373-1427 -/

/-- The system call `realpath` is a parameter.  `none`: NULL (empty path). -/
def fileRealpath (realpath : Str → Option Str) (home cwd path : Str) : Option Str :=
  match path with
  | [] => none
  | c :: t =>
    if c = 126 then
      some ((realpath (home ++ (if t.head? = some 47 then [] else [47]) ++ t)).getD
        (normalizeUnix cwd (home ++ (if t.head? = some 47 then [] else [47]) ++ t)))
    else
      match realpath path with
      | some r => some r
      | none =>
        if (c = 46 ∧ t.head? = some 47) ∨
            (c ≠ 47 ∧ ¬(c = 46 ∧ t.head? = some 46) ∧ t.head? ≠ some 58) then
          some ((realpath (cwd ++ [47] ++ path)).getD (normalizeUnix cwd (cwd ++ [47] ++ path)))
        else some (normalizeUnix cwd path)

/-! ### `Jsi_InterpAccess`, src/jsiInterp.c:2955-3000, for `JSI_INTACCESS_READ/WRITE` -/

/-- src/jsiInterp.c:2984-2996: one listed entry against the resolved name. -/
def entryAllows (str dstr : Str) : Bool :=
  if str.length = 0 then false
  else if str == dstr then true
  else if !strncmpEq str dstr str.length then false
  else if 1 < str.length && str.getLast? == some 47 then true
  else dstr[str.length]? == some 47

/-- The check of a safe interpreter with the given list of directories (`none`: no list). -/
def interpAccess (realpath : Str → Option Str) (home cwd : Str) (dirs : Option (List Str)) (path : Str) :
    Bool :=
  match dirs with
  | none => false
  | some ds =>
    match fileRealpath realpath home cwd path with
    | none => false
    | some dstr => ds.any (fun d => entryAllows d dstr)

end Verif.Path
