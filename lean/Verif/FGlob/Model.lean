import Verif.Basic

/-! # `File.glob` (src/jsiFileCmds.c 876-1312)

The file system is a function from paths to listings, already sorted (`scandir` with `alphasort`).  The matching of names is a
parameter (`Jsi_GlobMatch` is the subject of the module Glob, the regular expressions of Regex).  Callbacks are functions
from texts to truth values.  Not modelled: `retInfo`, directories that begin with `~`, callbacks with effects, names longer than
`PATH_MAX`, file types the system does not know, `maxArrayList` reached with `limit` below 0. -/

namespace Verif.FGlob

open Verif

abbrev Str := List UInt8

/-- `d_type` of an entry. -/
inductive FT where
  | reg | dir | lnk | fifo | sock | chr | blk
deriving DecidableEq, Repr

/-- The file system: what `scandir` gives for a path, and what `stat` says of it (`some true`: a directory; `none`: it
fails). -/
structure FS where
  ls : Str → Option (List (Str × FT))
  stat : Str → Option Bool

/-- The options (`GlobData`, src/jsiFileCmds.c 876-896) as the search uses them.  `limit` and `maxDiscard` 0: none;
`maxDepth` is the effective one (1027-1028). -/
structure Opts where
  recurse : Bool := false
  tails : Bool := false
  maxDepth : Nat
  limit : Nat := 0
  maxDiscard : Nat := 0
  types : Option Str := none
  noTypes : Option Str := none
  pre : Option Str := none
  filter : Option (Str → Bool) := none
  dirFilter : Option (Str → Bool) := none
  dirLen : Nat

/-- The counts and the list of results (`opts->cnt`, `opts->discardCnt`, `obj`).  With `retCount` the program does not
make the list; here it is made and not looked at. -/
structure St where
  cnt : Nat := 0
  disc : Nat := 0
  items : List Str := []

/-- `"%s%s%s", spath, (spath[0]?"/":""), z` (src/jsiFileCmds.c 1004, 1032, 1131-1132). -/
def pj (spath z : Str) : Str := if spath = [] then z else spath ++ 47 :: z

/-- src/jsiFileCmds.c:1134-1138: the path is cut by the length of the directory. -/
def strip (o : Opts) (t : Str) : Str :=
  if o.tails = false ∧ o.dirLen ≠ 0 ∧ o.dirLen ≤ t.length then
    if (t.drop o.dirLen).headD 0 = 47 ∧ o.pre = none then (t.drop o.dirLen).tail else t.drop o.dirLen
  else t

/-- The text put into the list (src/jsiFileCmds.c 1129-1148). -/
def item (o : Opts) (spath z : Str) : Str := o.pre.getD [] ++ strip o (if o.tails then z else pj spath z)

/-- The letters of file types (src/jsiFileCmds.c 1066-1076, 1087-1097). -/
def code : FT → UInt8
  | .dir => 100 | .reg => 102 | .fifo => 112 | .sock => 115 | .lnk => 108 | .chr => 99 | .blk => 98

/-- src/jsiFileCmds.c:1061-1081. -/
def typesOk (o : Opts) (ft : FT) : Bool := match o.types with
  | none => true
  | some t => t.contains (code ft)

/-- src/jsiFileCmds.c:1082-1102. -/
def noTypesOk (o : Opts) (ft : FT) : Bool := match o.noTypes with
  | none => true
  | some t => !t.contains (code ft)

/-- The type of an entry after links are followed; `none`: it is skipped (src/jsiFileCmds.c 988-1013). -/
def ftOf (fs : FS) (o : Opts) (spath z : Str) (ft : FT) : Option FT :=
  if z.head? = some 46 then none
  else match ft with
  | .lnk => if o.noTypes.isSome then none else match fs.stat (pj spath z) with
    | none => none
    | some true => some .dir
    | some false => some .lnk
  | ft => some ft

/-- How the loop goes on: with the next entry, or not, with the result of the call. -/
inductive Step where
  | go (s : St)
  | halt (rc : Bool) (s : St)

/-- src/jsiFileCmds.c:1170-1173. -/
def checked (o : Opts) (s : St) : Step :=
  if o.limit ≠ 0 ∧ o.limit ≤ s.cnt then .halt true s
  else if o.maxDiscard ≠ 0 ∧ o.maxDiscard ≤ s.disc then .halt true s
  else .go s

/-- `dumpit` (src/jsiFileCmds.c 1126-1173). -/
def dump (o : Opts) (spath z : Str) (s : St) : Step :=
  checked o { s with cnt := s.cnt + 1, items := s.items ++ [item o spath z] }

/-- From the types on (src/jsiFileCmds.c 1060-1125). -/
def select (o : Opts) (pat : Str → Bool) (spath z : Str) (ft : FT) (s : St) : Step :=
  if (typesOk o ft && noTypesOk o ft && pat z) = false then .go s
  else match o.filter with
  | none => dump o spath z s
  | some f => if f z then dump o spath z s else .go { s with disc := s.disc + 1 }

/-- src/jsiFileCmds.c:1057-1058, for directories. -/
def afterDir (o : Opts) (pat : Str → Bool) (spath z : Str) (s : St) : Step :=
  if o.types = none ∧ o.noTypes ≠ none then .go s else select o pat spath z .dir s

/-- `opts->types && Jsi_Strchr(opts->types, 'd')` (src/jsiFileCmds.c 1045). -/
def wantsDirs (o : Opts) : Bool := match o.types with
  | none => false
  | some t => t.contains 100

/-- src/jsiFileCmds.c:1033-1044. -/
def dirOk (o : Opts) (p : Str) : Bool := match o.dirFilter with
  | none => true
  | some f => f p

/-- After the search of a directory (src/jsiFileCmds.c 1050-1058). -/
def back (o : Opts) (pat : Str → Bool) (spath z : Str) (r : Bool × St) : Step :=
  if o.limit ≠ 0 ∧ o.limit ≤ r.2.cnt then .halt r.1 r.2
  else if o.maxDiscard ≠ 0 ∧ o.maxDiscard ≤ r.2.disc then .halt r.1 r.2
  else if r.1 = false then .halt false r.2
  else afterDir o pat spath z r.2

/-- A directory (src/jsiFileCmds.c 1017-1059). -/
def dirStep (o : Opts) (again : Option (Str → Bool) → Str → Nat → St → Bool × St) (pat : Str → Bool) (spath : Str)
    (mid : Option Str) (deep : Nat) (z : Str) (s : St) : Step :=
  match mid with
  | some m =>
    if pat z = false then .go s
    else match again none (spath ++ 47 :: (z ++ m)) deep s with
    | (true, s') => .go s'
    | (false, s') => .halt false s'
  | none =>
    if o.recurse = true ∧ deep + 1 ≤ o.maxDepth then
      if dirOk o (pj spath z) = false then .go s
      else if wantsDirs o then dump o spath z s
      else back o pat spath z (again (some pat) (pj spath z) (deep + 1) s)
    else afterDir o pat spath z s

/-- One turn of the loop (src/jsiFileCmds.c 985-1174). -/
def step (fs : FS) (o : Opts) (again : Option (Str → Bool) → Str → Nat → St → Bool × St) (pat : Str → Bool) (spath : Str)
    (mid : Option Str) (deep : Nat) (e : Str × FT) (s : St) : Step :=
  match ftOf fs o spath e.1 e.2 with
  | none => .go s
  | some .dir => dirStep o again pat spath mid deep e.1 s
  | some ft => if mid.isSome then .go s else select o pat spath e.1 ft s

def loop (f : Str × FT → St → Step) : List (Str × FT) → St → Bool × St
  | [], s => (true, s)
  | e :: t, s => match f e s with
    | .go s' => loop f t s'
    | .halt rc s' => (rc, s')

/-- What is before the last slash and behind it. -/
def rsplit (s : Str) : Option (Str × Str) :=
  if 47 ∈ s then
    some ((s.reverse.dropWhile (· ≠ 47)).tail.reverse, (s.reverse.takeWhile (· ≠ 47)).reverse)
  else none

/-- What a pattern with a path is cut into: directory, pattern of the names in it, the rest behind (`mid`)
(src/jsiFileCmds.c 936-970).  The rest begins with a slash. -/
def split (path : Str) : Str × Str × Option Str :=
  if 42 ∈ path then
    match rsplit (path.takeWhile (· ≠ 42)) with
    | some q => (q.1, q.2 ++ (path.dropWhile (· ≠ 42)).takeWhile (· ≠ 47), rest ((path.dropWhile (· ≠ 42)).dropWhile (· ≠ 47)))
    | none => ([], path.takeWhile (· ≠ 42) ++ (path.dropWhile (· ≠ 42)).takeWhile (· ≠ 47),
        rest ((path.dropWhile (· ≠ 42)).dropWhile (· ≠ 47)))
  else match rsplit path with
    | some q => (q.1, q.2, none)
    | none => ([46], path, none)
where rest (m : Str) : Option Str := if m = [] then none else some m

/-- The same with the special case of `*` and the empty text (src/jsiFileCmds.c 934-935, 971-973): directory that is listed,
`spath`, pattern, rest. -/
def cut (path : Str) : Str × Str × Str × Option Str :=
  if path = [] ∨ path = [42] then ([46], [], [42], none)
  else (if (split path).1 = [] then [46] else (split path).1, (split path).1, (split path).2)

/-- `SubGlobsDirectory` (src/jsiFileCmds.c 916-1186).  The first argument is `maxIncDepth + 1 - cnt`.  `pat` is given with
`recurse` and for regular expressions, else it is in the path.  The result: no error, and the counts. -/
def sub (fs : FS) (gm : Str → Str → Bool) (o : Opts) : Nat → Option (Str → Bool) → Str → Nat → St → Bool × St
  | 0, _, _, _, s => (false, s)
  | n + 1, some p, path, deep, s =>
    match fs.ls (if path = [] then [46] else path) with
    | none => (o.recurse && deep ≠ 0, s)
    | some l => loop (step fs o (sub fs gm o n) p path none deep) l s
  | n + 1, none, path, deep, s =>
    match fs.ls (cut path).1 with
    | none => (o.recurse && deep ≠ 0, s)
    | some l => loop (step fs o (sub fs gm o n) (gm (cut path).2.2.1) (cut path).2.1 (cut path).2.2.2 deep) l s

/-- The first argument. -/
inductive Pat where
  | none
  | glob (s : Str)
  | re (f : Str → Bool)

/-- The options as they are given. -/
structure Args where
  dir : Option Str := none
  recurse : Bool := false
  tails : Bool := false
  maxDepth : Nat := 0
  limit : Int := 0
  maxDiscard : Nat := 0
  types : Option Str := none
  noTypes : Option Str := none
  pre : Option Str := none
  filter : Option (Str → Bool) := none
  dirFilter : Option (Str → Bool) := none
  retCount : Bool := false

inductive Res where
  | list (l : List Str)
  | count (n : Nat)
  | err
  /-- memory that is no longer the program's is used (`dcp`, src/jsiFileCmds.c 1249-1254, 1283) -/
  | freed
deriving DecidableEq

/-- What surrounds the call: the current directory and `maxIncDepth`, `maxArrayList` of the interpreter. -/
structure Env where
  cwd : Str
  maxInc : Nat
  maxArr : Nat

/-- src/jsiFileCmds.c:1240-1270: the options for the search. -/
def optsOf (v : Env) (a : Args) : Opts where
  recurse := a.recurse
  tails := a.tails
  maxDepth := if a.maxDepth = 0 then v.maxInc else a.maxDepth
  limit := if a.limit = 0 then v.maxArr else a.limit.toNat
  maxDiscard := a.maxDiscard
  types := a.types
  noTypes := a.noTypes
  pre := a.pre
  filter := a.filter
  dirFilter := a.dirFilter
  dirLen := (a.dir.getD v.cwd).length

/-- `dStr` (src/jsiFileCmds.c 1269). -/
def lead (a : Args) : Str := match a.dir with
  | none => []
  | some d => if d = [] ∨ d.getLastD 0 = 47 then d else d ++ [47]

def result (a : Args) (r : Bool × St) : Res :=
  if r.1 = false then .err else if a.retCount then .count r.2.cnt else .list r.2.items

/-- The search with a pattern (src/jsiFileCmds.c 1293-1308). -/
def withPat (fs : FS) (gm : Str → Str → Bool) (v : Env) (a : Args) (p : Str) (s : St) : Res :=
  if a.recurse then
    if 47 ∈ p then .err
    else result a (sub fs gm (optsOf v a) (v.maxInc + 1) (some (gm p)) (a.dir.getD v.cwd) 0 s)
  else result a (sub fs gm (optsOf v a) (v.maxInc + 1) none (lead a ++ p) 0 s)

/-- `if (!*dcp) dcp = "*"` (src/jsiFileCmds.c 1291-1292). -/
def orStar (p : Str) : Str := if p = [] then [42] else p

/-- `File.glob(pat, {…})` (src/jsiFileCmds.c 1193-1308). -/
def glob (fs : FS) (gm : Str → Str → Bool) (v : Env) (pat : Pat) (a : Args) : Res :=
  match pat with
  | .none => withPat fs gm v a [42] {}
  | .glob p => withPat fs gm v a (orStar p) {}
  | .re f => match a.dir with
    | none => .freed
    | some d => withPat fs gm v a (orStar d) (sub fs gm (optsOf v a) (v.maxInc + 1) (some f) d 0 {}).2

end Verif.FGlob
