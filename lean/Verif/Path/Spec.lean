import Verif.Path.Model

/-!
Specification side: what a path means.  `lexLoc` is the location a path names in a tree without symbolic
links; `Fs` is a Unix file tree with symbolic links, with the resolution of POSIX (XBD 4.16).
-/

namespace Verif.Path

/-- A location: the names of the directories from the root down, then the name of the object. -/
abbrev Loc := List Str

/-- One component, lexically. -/
def lexStep (l : Loc) (c : Str) : Loc :=
  if c = [] ∨ c = [46] then l else if c = [46, 46] then l.dropLast else l ++ [c]

/-- The location of an absolute path, without symbolic links. -/
def lexLoc (p : Str) : Loc := (split p).foldl lexStep []

/-- The text of a location. -/
def render (l : Loc) : Str := if l = [] then [47] else l.flatMap (47 :: ·)

/-- An object of the file system. -/
inductive Node where
  | file
  | dir
  | link (target : Str)
deriving DecidableEq

/-- A file system: what is at each location. -/
abbrev Fs := Loc → Option Node

/-- A name a directory can hold. -/
def GoodName (n : Str) : Prop := n ≠ [] ∧ n ≠ [46] ∧ n ≠ [46, 46] ∧ (47 : UInt8) ∉ n

instance (n : Str) : Decidable (GoodName n) := by unfold GoodName; infer_instance

/-- A sound file system: there is a root, everything lies in a directory, names are names. -/
structure Fs.Wf (fs : Fs) : Prop where
  root : fs [] = some .dir
  parent : ∀ l n, fs (l ++ [n]) ≠ none → fs l = some .dir
  names : ∀ l, fs l ≠ none → ∀ n ∈ l, GoodName n

/-- No symbolic links. -/
def Fs.NoLinks (fs : Fs) : Prop := ∀ l t, fs l ≠ some (.link t)

/-- POSIX path resolution from directory `cur`; `create` says whether the last name may be missing;
`more` resolves after a symbolic link (one link fewer left). -/
def walkWith (fs : Fs) (create : Bool) (more : Loc → List Str → Option Loc) :
    Loc → List Str → Option Loc
  | cur, [] => some cur
  | cur, c :: cs =>
    if fs cur ≠ some .dir then none
    else if c = [] ∨ c = [46] then walkWith fs create more cur cs
    else if c = [46, 46] then walkWith fs create more cur.dropLast cs
    else
      match fs (cur ++ [c]) with
      | none => if create ∧ cs = [] then some (cur ++ [c]) else none
      | some (.link t) => if t.head? = some 47 then more [] (split t ++ cs) else more cur (split t ++ cs)
      | some _ => walkWith fs create more (cur ++ [c]) cs

/-- Resolution with at most `n` symbolic links. -/
def walk (fs : Fs) (create : Bool) : Nat → Loc → List Str → Option Loc
  | 0 => walkWith fs create (fun _ _ => none)
  | n + 1 => walkWith fs create (walk fs create n)

/-- The directory resolution starts from. -/
def start (cwd : Loc) (p : Str) : Loc := if p.head? = some 47 then [] else cwd

/-- The object an existing path designates (following links). -/
def resolve (fs : Fs) (cwd : Loc) (p : Str) : Option Loc :=
  if p = [] then none else walk fs false 40 (start cwd p) (split p)

/-- The object `open(p, O_CREAT)` opens or creates. -/
def resolveCreate (fs : Fs) (cwd : Loc) (p : Str) : Option Loc :=
  if p = [] then none else walk fs true 40 (start cwd p) (split p)

/-- The `realpath` system function. -/
def sysRealpath (fs : Fs) (cwd : Loc) (p : Str) : Option Str := (resolve fs cwd p).map render

/-- The path split into its directory part and its last name, trailing slashes ignored (what `mkdir`,
`unlink` and `rename` act on).  `none`: there is no last name, or it is "." or "..". -/
def lastName (p : Str) : Option (List Str × Str) :=
  let cs := (split p).reverse.dropWhile (· = [])
  match cs with
  | [] => none
  | n :: ds => if n = [46] ∨ n = [46, 46] then none else some (ds.reverse, n)

/-- The place where `mkdir(p)` makes a directory (`none`: it fails). -/
def mkdirAt (fs : Fs) (cwd : Loc) (p : Str) : Option Loc :=
  match lastName p with
  | none => none
  | some (ds, n) =>
    match walk fs false 40 (start cwd p) ds with
    | none => none
    | some d => if fs d = some .dir ∧ fs (d ++ [n]) = none then some (d ++ [n]) else none

/-- The object `remove(p)` removes: the last name is not followed if it is a symbolic link. -/
def removeAt (fs : Fs) (cwd : Loc) (p : Str) : Option Loc :=
  match lastName p with
  | none => none
  | some (ds, n) =>
    match walk fs false 40 (start cwd p) ds with
    | none => none
    | some d => if fs d = some .dir ∧ fs (d ++ [n]) ≠ none then some (d ++ [n]) else none

/-- A location is one of the listed entries, or inside one of them. -/
def Within (ds : List Str) (l : Loc) : Prop :=
  ∃ d ∈ ds, d.head? = some 47 ∧ comps d <+: l

end Verif.Path
