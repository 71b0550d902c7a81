import Verif.Basic
/-!
# `provide` and `require` (model for C112–C116)

A script file is a small program: it can provide and require packages, have effects that can be seen from
outside (`mark`), throw, and catch what is thrown.  The main interpreter is modelled (its `topInterp` is
itself, so `needInit` is never set and the second branch of `Jsi_PkgRequireEx` never taken).  A version is the
number of ten-thousandths that `jsi_VersionNormalize` makes of it: comparing those is comparing the doubles
(`Verif.Pkg.fl_lt`).
-/
namespace Verif.Pkg

abbrev Name := List UInt8
abbrev Path := List UInt8

/-- One `jsi_PkgInfo`.  src/jsiInt.h `jsi_PkgInfo`; only these fields. -/
structure Pkg where
  ver : Nat
  load : Option Path
  lastReq : Nat
  deriving DecidableEq, Repr

/-- What can be seen from outside. -/
inductive Event where
  /-- the file is being evaluated for the sake of the package -/
  | start (nm : Name) (path : Path)
  /-- … and that has come to its end -/
  | stop (nm : Name) (path : Path)
  /-- some effect of a script -/
  | mark (n : Nat)
  deriving DecidableEq, Repr

/-- A script.  `attempt b h k` is `try { b } catch { h }` followed by `k`; `require nm none …` is
`require(nm)`, `require nm (some v) false …` is `require(nm, v)` and `require nm (some v) true …` is
`require(nm, v, {})`. -/
inductive Scr where
  | done
  | throw
  | mark (n : Nat) (k : Scr)
  | provide (nm : Name) (ver : Nat) (k : Scr)
  | require (nm : Name) (ver : Option Nat) (opts : Bool) (k : Scr)
  | attempt (b h k : Scr)
  deriving DecidableEq, Repr

/-- The table of packages and what has been seen. -/
structure World where
  pkgs : List (Name × Pkg)
  log : List Event
  deriving DecidableEq, Repr

/-- What surrounds the interpreter: readable files and what is in them (for a `.so`, what its init function
does), `pkgDirs`, the directory of the executable, that of `argv0`, `Jsi_Realpath`, the options `maxIncDepth`
and `noError`. -/
structure Cfg where
  fs : Path → Option Scr
  pkgDirs : List Path
  execDir : Option Path
  argvDir : Option Path
  curDir : Option Path
  real : Path → Path
  maxInc : Nat
  noError : Bool

/-- `jsi_PkgGet`.  src/jsiCmds.c:622-625. -/
def get (w : World) (nm : Name) : Option Pkg := (w.pkgs.find? fun e => decide (e.1 = nm)).map (·.2)

/-- `Jsi_HashSet` of a package that is not in the table, src/jsiCmds.c:1048. -/
def add (w : World) (nm : Name) (p : Pkg) : World := ⟨(nm, p) :: w.pkgs, w.log⟩

/-- A change of one package. -/
def upd (f : Pkg → Pkg) (nm : Name) (e : Name × Pkg) : Name × Pkg := if e.1 = nm then (e.1, f e.2) else e

/-- Change a package that is in the table. -/
def change (w : World) (nm : Name) (f : Pkg → Pkg) : World := ⟨w.pkgs.map (upd f nm), w.log⟩

/-- Record something. -/
def emit (w : World) (e : Event) : World := ⟨w.pkgs, w.log ++ [e]⟩

/-- `isalpha` or `_`. -/
def isAlpha (c : UInt8) : Bool :=
  (decide (65 ≤ c.toNat) && decide (c.toNat ≤ 90)) || (decide (97 ≤ c.toNat) && decide (c.toNat ≤ 122)) || c == 95

/-- `Jsi_StrIsAlnum`.  src/jsiUtils.c:510-523. -/
def isAlnum : Name → Bool
  | [] => false
  | c :: r => isAlpha c && r.all fun c => isAlpha c || (decide (48 ≤ c.toNat) && decide (c.toNat ≤ 57))

/-- The last `/` of a path and what is before it (`Jsi_Strrchr`). -/
def dirOf (p : Path) : Option Path :=
  if 47 ∈ p then some ((p.reverse.dropWhile (· ≠ 47)).drop 1).reverse else none

/-- The file `provide` notes: none for a C extension (`initProc`), none outside any file. -/
def loadOf (cur : Path) (lib : Bool) : Option Path := if lib = true ∨ cur = [] then none else some cur

/-- `provide(nm, ver)` in the file `cur`; `false` is an error.  `SysProvideCmdInt`, src/jsiCmds.c:1104-1127 (a
name given as a text) and `Jsi_PkgProvideEx`, src/jsiCmds.c:1002-1068; `lib`: called by the init function of a C
extension (there `cur` is still the file of the script). -/
def provide (w : World) (cur : Path) (lib : Bool) (nm : Name) (ver : Nat) : World × Bool :=
  if isAlnum nm = false then (w, false)
  else if ver = 0 then (w, false)
  else match get w nm with
    | some p => (w, decide (p.load = some cur))
    | none => (add w nm ⟨ver, loadOf cur lib, 0⟩, true)

/-- `lastReq` is set when a version is asked for.  src/jsiCmds.c:799-800, 903-904. -/
def setReq (v : Nat) (p : Pkg) : Pkg := if v = 0 then p else { p with lastReq := v }

/-- The script command `require(nm, …)`, given `Jsi_PkgRequireEx`; `none` is an error.  `SysRequireCmd`,
src/jsiCmds.c:951-1000.  The options in the third argument are taken to be in order. -/
def sysRequire (cfg : Cfg) (req : Path → World → Name → Nat → World × Option Nat) (cur : Path) (w : World) (nm : Name)
    (ver : Option Nat) (opts : Bool) : World × Option Nat :=
  if isAlnum nm = false then (w, none)
  else match req cur w nm (ver.getD 0) with
    | (w', none) => (w', none)
    | (w', some have_) =>
      match ver, opts with
      | some n, false =>
        if have_ < n ∧ cfg.noError = false then (w', none)
        else (change w' nm (setReq n), some have_)
      | _, _ => (w', some have_)

/-- Evaluate a script in the file `cur`; the result tells whether it ended without an exception. -/
def evalScr (cfg : Cfg) (req : Path → World → Name → Nat → World × Option Nat) (cur : Path) (lib : Bool) :
    Scr → World → World × Bool
  | .done, w => (w, true)
  | .throw, w => (w, false)
  | .mark n k, w => evalScr cfg req cur lib k (emit w (.mark n))
  | .provide nm v k, w =>
    match provide w cur lib nm v with
    | (w', true) => evalScr cfg req cur lib k w'
    | (w', false) => (w', false)
  | .require nm v o k, w =>
    match sysRequire cfg req cur w nm v o with
    | (w', some _) => evalScr cfg req cur lib k w'
    | (w', none) => (w', false)
  | .attempt b h k, w =>
    match evalScr cfg req cur lib b w with
    | (w', true) => evalScr cfg req cur lib k w'
    | (w', false) =>
      match evalScr cfg req cur lib h w' with
      | (w'', true) => evalScr cfg req cur lib k w''
      | (w'', false) => (w'', false)

/-- The `i`-th file looked for in a directory, `i < 4`.  src/jsiCmds.c:661-682. -/
def fileAt (dir : Path) (nm : Name) (i : Nat) : Path :=
  dir ++ 47 :: ((if i % 2 = 1 then nm ++ [47] else []) ++ nm ++ (if i < 2 then asc ".so" else asc ".jsi"))

/-- How `jsi_PkgLoadOne` came out: nothing there (`JSI_CONTINUE`), an error, or the path loaded. -/
inductive Rc where
  | cont
  | err
  | ok (p : Path)
  deriving DecidableEq, Repr

/-- The evaluation of one file, with what can be seen of it. -/
def evalFile (cfg : Cfg) (req : Path → World → Name → Nat → World × Option Nat) (cur : Path) (w : World) (nm : Name)
    (path : Path) (lib : Bool) (s : Scr) : World × Bool :=
  (emit (evalScr cfg req (if lib then cur else path) lib s (emit w (.start nm path))).1 (.stop nm path),
   (evalScr cfg req (if lib then cur else path) lib s (emit w (.start nm path))).2)

/-- After the loop of `jsi_PkgLoadOne`: the package must have been provided.  src/jsiCmds.c:692-704. -/
def checkProvided (nm : Name) (path : Path) (r : World × Bool) : World × Rc :=
  if r.2 = true ∧ (get r.1 nm).isSome = true then (r.1, .ok path) else (r.1, .err)

/-- `jsi_PkgLoadOne`, the loop from its `i`-th round (`n` rounds are left).  src/jsiCmds.c:661-704.  A file
whose evaluation began is not looked behind. -/
def loadOne (cfg : Cfg) (req : Path → World → Name → Nat → World × Option Nat) (cur : Path) (nm : Name) (dir : Path) :
    Nat → Nat → World → World × Rc
  | 0, _, w => (w, .cont)
  | n + 1, i, w =>
    match cfg.fs (fileAt dir nm i) with
    | none => loadOne cfg req cur nm dir n (i + 1) w
    | some s => checkProvided nm (fileAt dir nm i) (evalFile cfg req cur w nm (fileAt dir nm i) (decide (i < 2)) s)

/-- The directory of the script.  src/jsiCmds.c:738-751. -/
def scriptDir (cfg : Cfg) (cur : Path) : Option Path :=
  if cur ≠ [] then dirOf cur
  else match cfg.argvDir with
    | some p => dirOf p
    | none => cfg.curDir

/-- The directories of `jsi_PkgLoad`, in order.  src/jsiCmds.c:717-751.  (That `Jsish` is looked for in
`/zvfs` only, when there is one, is left out.) -/
def dirs (cfg : Cfg) (cur : Path) : List Path := cfg.pkgDirs ++ cfg.execDir.toList ++ (scriptDir cfg cur).toList

/-- The loop of `jsi_PkgLoad` over the directories. -/
def loadDirs (cfg : Cfg) (req : Path → World → Name → Nat → World × Option Nat) (cur : Path) (nm : Name) :
    List Path → World → World × Rc
  | [], w => (w, .err)
  | d :: ds, w =>
    match loadOne cfg req cur nm d 4 0 w with
    | (w', .cont) => loadDirs cfg req cur nm ds w'
    | r => r

/-- The end of `jsi_PkgLoad`: note the file.  src/jsiCmds.c:754-784. -/
def noteFile (cfg : Cfg) (nm : Name) : World × Rc → World × Bool
  | (w, .ok p) => (change w nm fun q => { q with load := some (cfg.real p) }, true)
  | (w, _) => (w, false)

/-- `Jsi_PkgRequireEx`.  src/jsiCmds.c:795-845.  The first argument is how many more requires may nest:
`maxIncDepth + 1 - pkgReqDepth` (src/jsiCmds.c:826). -/
def requireAt (cfg : Cfg) : Nat → Path → World → Name → Nat → World × Option Nat
  | 0, _, w, nm, v =>
    match get w nm with
    | some p => (change w nm (setReq v), some p.ver)
    | none => (w, none)
  | lev + 1, cur, w, nm, v =>
    match get w nm with
    | some p => (change w nm (setReq v), some p.ver)
    | none =>
      match noteFile cfg nm (loadDirs cfg (requireAt cfg lev) cur nm (dirs cfg cur) w) with
      | (w', true) => (w', (get w' nm).map (·.ver))
      | (w', false) => (w', none)

/-- A script given to the interpreter (from the command line, interactively or by an event), no require being
under way. -/
def top (cfg : Cfg) (cur : Path) (s : Scr) (w : World) : World × Bool :=
  evalScr cfg (requireAt cfg (cfg.maxInc + 1)) cur false s w

/-- What `require` as a command does there. -/
def topRequire (cfg : Cfg) (cur : Path) (w : World) (nm : Name) (ver : Option Nat) (opts : Bool) : World × Option Nat :=
  sysRequire cfg (requireAt cfg (cfg.maxInc + 1)) cur w nm ver opts

/-- One script after the other, each in its file: a session. -/
def session (cfg : Cfg) : List (Path × Scr) → World → World
  | [], w => w
  | (cur, s) :: r, w => session cfg r (top cfg cur s w).1

/-- At the start. -/
def empty : World := ⟨[], []⟩

end Verif.Pkg
