import Verif.Path.Spec

/-!
The file commands of a safe interpreter, acting on a file system `Fs` (src/jsiFilesys.c `Jsi_Open`,
src/jsiFileCmds.c `File.mkdir`, `File.remove`).  The result is the location the command acts on, `none` if it
is refused or fails.
-/

namespace Verif.Path

/-- What a safe interpreter's decision depends on. -/
structure Env where
  fs : Fs
  /-- working directory -/
  cwd : Loc
  /-- `$HOME`, used by `jsi_TildePath` (src/jsiFilesys.c:53-61, 1179-1201) -/
  home : Str
  /-- the home directory of the password file, used by `Jsi_FileRealpathStr` (src/jsiFilesys.c:1379-1384) -/
  pwHome : Str
  readDirs : Option (List Str)
  writeDirs : Option (List Str)
  /-- `safeMode == jsi_safe_Lockdown` -/
  lockdown : Bool
  /-- `interp->opts.argv[0]` -/
  argv0 : Option Str
  /-- `jsiIntData.execName` -/
  execName : Str

/-- `jsi_TildePath`, src/jsiFilesys.c:53-61. -/
def tilde (home p : Str) : Str :=
  match p with
  | [] => []
  | c :: t => if c = 126 then home ++ (if t.head? = some 47 then [] else [47]) ++ t else p

/-- `Jsi_Realpath` / `Jsi_FileRealpath` of the native file system (src/jsiFilesys.c:644-650, 672-697). -/
def Env.real (e : Env) (p : Str) : Option Str :=
  fileRealpath (sysRealpath e.fs e.cwd) e.pwHome (render e.cwd) p

/-- `Jsi_InterpAccess` with `JSI_INTACCESS_WRITE` or `JSI_INTACCESS_READ`. -/
def Env.access (e : Env) (writ : Bool) (p : Str) : Bool :=
  interpAccess (sysRealpath e.fs e.cwd) e.pwHome (render e.cwd) (if writ then e.writeDirs else e.readDirs) p

/-- `Jsi_Stat`: the object found (src/jsiFilesys.c, `jsi_FSStatProc`). -/
def Env.stat (e : Env) (p : Str) : Option Loc := resolve e.fs e.cwd (tilde e.home p)

/-- src/jsiFilesys.c:490-498: `fileName`, `file` and the object found, after the fix-up. -/
def Env.fixup (e : Env) (p : Str) : Option (Str × Str × Option Loc) :=
  if e.stat p = none ∨ p.head? = some 126 then
    match e.real p with
    | none => none
    | some fn => if (e.stat fn).isSome then some (fn, fn, e.stat fn) else some (fn, p, none)
  else some (p, p, e.stat p)

/-- src/jsiFilesys.c:521-531: the safe interpreter refuses. -/
def Env.denied (e : Env) (writ : Bool) (fileName file : Str) (found : Option Loc) : Bool :=
  ((found.isNone && e.lockdown)
    || (!e.access writ file && (writ || (match e.argv0 with
        | none => true
        | some a => e.real a != some fileName))))
  && (writ || fileName != e.execName)

/-- `Jsi_Open` in a safe interpreter (src/jsiFilesys.c:433-553), uncompressed native file: `writ` if the mode
contains `w`, `a` or `+`, `create` if it contains `w` or `a`. -/
def Env.openFile (e : Env) (writ create : Bool) (p : Str) : Option Loc :=
  match e.fixup p with
  | none => none
  | some (fileName, file, found) =>
    if found.any (fun l => decide (e.fs l = some .dir)) then none
    else if e.denied writ fileName file found then none
    else if create then resolveCreate e.fs e.cwd fileName
    else resolve e.fs e.cwd fileName

/-- `File.mkdir(path)` without force (src/jsiFileCmds.c:286-313): the check, then `mkdir` on the text as
given. -/
def Env.mkdir (e : Env) (p : Str) : Option Loc :=
  if e.lockdown then none
  else if !e.access true p then none
  else mkdirAt e.fs e.cwd p

/-- `File.remove(path)` (src/jsiFileCmds.c:650-690): the check, `stat`, then `remove`. Simplification: a directory
that is not empty is not removed (the recursive removal with `force` is not modelled). -/
def Env.remove (e : Env) (p : Str) : Option Loc :=
  if e.lockdown then none
  else if !e.access true p then none
  else if p = [47] then none
  else if e.stat p = none then none
  else removeAt e.fs e.cwd (tilde e.home p)

end Verif.Path
