import Verif.Basic
import Verif.Path.Model

/-!
Safe interpreters and sub-interpreters: `new Interp(opts)`, `Interp.conf`, `Interp.source`, `exec`, and what an
interpreter may do (src/jsiInterp.c, src/jsiOptions.c, src/jsiEval.c, src/jsiCmds.c).
-/

namespace Verif.Interp

abbrev Str := List UInt8

/-- The options of an interpreter: `InterpOptions`, src/jsiInterp.c:81-147. -/
inductive Opt where
  | args_ | asserts | assertMode | autoFiles | busyCallback | busyInterval | confFile | coverage | debugOpts
  | interactive | hasOpenSSL | historyFile | isSafe | jsppChars | jsppCallback | lockTimeout | lockDown
  | logOpts | log_ | maxDepth | maxDumpStack | maxDumpArgs | maxArrayList | maxIncDepth | maxInterpDepth
  | maxUserObjs | maxOpCnt | memDebug | memLeakCnt | name_ | noAutoLoad | noCheck | noConfig | noError | noES6
  | noEval | noInput | noLoad | noNetwork | noStderr | noSubInterps | onComplete | onEval | onExit | pkgDirs
  | profile | retValue | safeMode | safeReadDirs | safeWriteDirs | safeExecPattern | scriptStr | scriptFile
  | stdinStr | stdoutStr | subOpts | subthread | traceCall | traceOp | tracePuts | typeCheck | typeWarnMax
  | udata | testMode
  deriving DecidableEq

/-- Types of options that occur in the table (`Jsi_OptionTypes`). -/
inductive Kind where
  | bool | int | uint | strkey | string | array | func | value | obj | custom
  deriving DecidableEq

/-- An option's value, as given by a script and as kept in the record.  Numbers are already truncated to an
integer (`Jsi_GetWideFromValue`); an array is the list of its strings; `other` is any other object. -/
inductive Val where
  | null | bool (b : Bool) | num (n : Int) | str (s : Str) | list (l : List Str) | other (n : Nat)
  deriving DecidableEq

/-- One `Jsi_OptionSpec`: which field, its name, its type, and the flags `JSI_OPT_INIT_ONLY` (`jsi_IIOF`),
`JSI_OPT_READ_ONLY` (`jsi_IIRO`) and `JSI_OPT_LOCKSAFE`. -/
structure Spec where
  opt : Opt
  name : Str
  kind : Kind
  initOnly : Bool
  readOnly : Bool
  lockSafe : Bool
  deriving DecidableEq

/-- `InterpOptions`, src/jsiInterp.c:81-147, in order. -/
def table : List Spec :=
  [⟨.args_, asc "args", .array, true, false, false⟩,
   ⟨.asserts, asc "asserts", .bool, false, false, false⟩,
   ⟨.assertMode, asc "assertMode", .custom, false, false, false⟩,
   ⟨.autoFiles, asc "autoFiles", .array, false, false, false⟩,
   ⟨.busyCallback, asc "busyCallback", .custom, false, false, false⟩,
   ⟨.busyInterval, asc "busyInterval", .int, false, false, false⟩,
   ⟨.confFile, asc "confFile", .strkey, true, false, true⟩,
   ⟨.coverage, asc "coverage", .bool, false, false, false⟩,
   ⟨.debugOpts, asc "debugOpts", .custom, false, false, false⟩,
   ⟨.interactive, asc "interactive", .bool, true, false, false⟩,
   ⟨.hasOpenSSL, asc "hasOpenSSL", .bool, true, false, false⟩,
   ⟨.historyFile, asc "historyFile", .strkey, false, false, true⟩,
   ⟨.isSafe, asc "isSafe", .bool, true, false, false⟩,
   ⟨.jsppChars, asc "jsppChars", .strkey, false, false, false⟩,
   ⟨.jsppCallback, asc "jsppCallback", .func, false, false, false⟩,
   ⟨.lockTimeout, asc "lockTimeout", .int, false, false, false⟩,
   ⟨.lockDown, asc "lockDown", .strkey, false, false, false⟩,
   ⟨.logOpts, asc "logOpts", .custom, false, false, false⟩,
   ⟨.log_, asc "log", .custom, false, false, false⟩,
   ⟨.maxDepth, asc "maxDepth", .int, false, false, true⟩,
   ⟨.maxDumpStack, asc "maxDumpStack", .uint, false, false, true⟩,
   ⟨.maxDumpArgs, asc "maxDumpArgs", .uint, false, false, true⟩,
   ⟨.maxArrayList, asc "maxArrayList", .uint, false, false, true⟩,
   ⟨.maxIncDepth, asc "maxIncDepth", .int, false, false, true⟩,
   ⟨.maxInterpDepth, asc "maxInterpDepth", .int, false, false, true⟩,
   ⟨.maxUserObjs, asc "maxUserObjs", .int, false, false, true⟩,
   ⟨.maxOpCnt, asc "maxOpCnt", .int, true, false, true⟩,
   ⟨.memDebug, asc "memDebug", .int, false, false, false⟩,
   ⟨.memLeakCnt, asc "memLeakCnt", .int, true, false, true⟩,
   ⟨.name_, asc "name", .strkey, false, false, false⟩,
   ⟨.noAutoLoad, asc "noAutoLoad", .bool, false, false, true⟩,
   ⟨.noCheck, asc "noCheck", .bool, false, false, true⟩,
   ⟨.noConfig, asc "noConfig", .bool, true, false, false⟩,
   ⟨.noError, asc "noError", .bool, false, false, true⟩,
   ⟨.noES6, asc "noES6", .bool, false, false, false⟩,
   ⟨.noEval, asc "noEval", .bool, true, false, false⟩,
   ⟨.noInput, asc "noInput", .bool, false, false, true⟩,
   ⟨.noLoad, asc "noLoad", .bool, false, false, true⟩,
   ⟨.noNetwork, asc "noNetwork", .bool, false, false, true⟩,
   ⟨.noStderr, asc "noStderr", .bool, false, false, true⟩,
   ⟨.noSubInterps, asc "noSubInterps", .bool, false, false, true⟩,
   ⟨.onComplete, asc "onComplete", .func, false, false, false⟩,
   ⟨.onEval, asc "onEval", .func, false, false, false⟩,
   ⟨.onExit, asc "onExit", .func, true, false, false⟩,
   ⟨.pkgDirs, asc "pkgDirs", .array, false, false, false⟩,
   ⟨.profile, asc "profile", .bool, false, false, false⟩,
   ⟨.retValue, asc "retValue", .value, false, true, false⟩,
   ⟨.safeMode, asc "safeMode", .custom, true, false, false⟩,
   ⟨.safeReadDirs, asc "safeReadDirs", .array, true, false, false⟩,
   ⟨.safeWriteDirs, asc "safeWriteDirs", .array, true, false, false⟩,
   ⟨.safeExecPattern, asc "safeExecPattern", .strkey, true, false, false⟩,
   ⟨.scriptStr, asc "scriptStr", .strkey, true, false, false⟩,
   ⟨.scriptFile, asc "scriptFile", .string, false, false, false⟩,
   ⟨.stdinStr, asc "stdinStr", .string, false, false, false⟩,
   ⟨.stdoutStr, asc "stdoutStr", .string, false, false, false⟩,
   ⟨.subOpts, asc "subOpts", .custom, false, false, false⟩,
   ⟨.subthread, asc "subthread", .bool, true, false, true⟩,
   ⟨.traceCall, asc "traceCall", .custom, false, false, false⟩,
   ⟨.traceOp, asc "traceOp", .int, false, false, false⟩,
   ⟨.tracePuts, asc "tracePuts", .bool, false, false, false⟩,
   ⟨.typeCheck, asc "typeCheck", .custom, false, false, false⟩,
   ⟨.typeWarnMax, asc "typeWarnMax", .int, false, false, false⟩,
   ⟨.udata, asc "udata", .obj, false, false, false⟩,
   ⟨.testMode, asc "testMode", .uint, false, false, false⟩]

/-- `Jsi_OptionsFind`, src/jsiOptions.c:175-228: an exact name, or an abbreviation that fits one name only.  `m` is
`matchPtr`. -/
def findLoop (name : Str) : Option Spec → List Spec → Option Spec
  | m, [] => m
  | m, s :: t =>
    if s.name.head? ≠ name.head? ∨ s.name.take name.length ≠ name then findLoop name m t
    else if s.name.length = name.length then some s
    else if m.isSome then none
    else findLoop name (some s) t

def find (name : Str) : Option Spec := findLoop name none table

/-- The record: the value of every option. -/
abbrev Rec := Opt → Val

def Rec.set (r : Rec) (o : Opt) (v : Val) : Rec := fun o' => if o' = o then v else r o'

/-- `jsi_SetOption_`, src/jsiOptions.c:230-545, for the types in the table: the value to be kept, `none` if the value
is refused.  The parsers of `JSI_OPTION_CUSTOM` options (enumerations, bit sets, sub-options) and the argument check
of `JSI_OPTION_FUNC` are the parameter `cust`; an enumeration is kept as `num`. -/
def setOption (cust : Opt → Val → Option Val) (s : Spec) (v : Val) : Option Val :=
  match s.kind, v with
  | .bool, .bool b => some (.bool b)
  | .bool, _ => none
  | .int, .num n => if -2147483648 ≤ n ∧ n ≤ 2147483647 then some (.num n) else none
  | .int, _ => none
  | .uint, .num n => if 0 ≤ n ∧ n ≤ 4294967295 then some (.num n) else none
  | .uint, _ => none
  | .strkey, .null => some .null
  | .strkey, .str t => some (.str t)
  | .strkey, _ => none
  | .string, .null => some .null
  | .string, .str t => some (.str t)
  | .string, _ => none
  | .array, .null => some .null
  | .array, .list l => some (.list l)
  | .array, _ => none
  | .value, v => some v
  | .obj, .null => some .null
  | .obj, .list l => some (.list l)
  | .obj, .other n => some (.other n)
  | .obj, _ => none
  | .func, .null => some .null
  | .func, v => cust s.opt v
  | .custom, v => cust s.opt v

/-- `Jsi_OptionsProcess`, src/jsiOptions.c:930-1030, given an object (its keys in the order they are visited).  `upd`:
`JSI_OPTS_IS_UPDATE`; `safe`: `interp->isSafe` on entry; `extra`: `JSI_OPTS_IGNORE_EXTRA`.  The record as left, and
whether the call succeeded: options before the failing one stay set. -/
def process (cust : Opt → Val → Option Val) (upd safe extra : Bool) : Rec → List (Str × Val) → Rec × Bool
  | r, [] => (r, true)
  | r, (k, v) :: t =>
    match find k with
    | none => if extra then process cust upd safe extra r t else (r, false)
    | some s =>
      if s.readOnly then (r, false)
      else if upd && s.initOnly then (r, false)
      else if safe && upd && s.lockSafe then (r, false)
      else match setOption cust s v with
        | none => (r, false)
        | some x => process cust upd safe extra (r.set s.opt x) t

/-- One interpreter. -/
structure Ip where
  opt : Rec
  /-- the interpreter that created it -/
  parent : Option Nat
  /-- `interpDepth` -/
  depth : Int
  startSafe : Bool
  /-- `includeCnt` is not zero -/
  included : Bool
  /-- `safeReadDirs` and `safeWriteDirs` are the same array -/
  shared : Bool
  /-- the `load` command exists (src/jsiInterp.c:1527-1528) -/
  hasLoad : Bool

/-- What the machine supplies. -/
structure Env where
  cust : Opt → Val → Option Val
  /-- the system call `realpath` -/
  realpath : Str → Option Str
  /-- the home directory of the password file -/
  home : Str
  /-- the working directory -/
  cwd : Str
  /-- options in a configuration file, `none` if it cannot be read or is not JSON -/
  conf : Str → Option (List (Str × Val))
  /-- the options in /etc/jsish.conf if that file is readable: `some none` if it is not JSON -/
  etc : Option (Option (List (Str × Val)))
  /-- `stat` and `access` accept the `lockDown` path (src/jsiInterp.c:1579-1581) -/
  lockOk : Str → Bool
  /-- a regular expression matches a text: `Jsi_RegExpMatch` (`none`: invalid expression) -/
  regex : Str → Str → Option Bool

def isSafe (r : Rec) : Bool := r .isSafe = .bool true
def flag (r : Rec) (o : Opt) : Bool := r o = .bool true

/-- A numeric option. -/
def limit (r : Rec) (o : Opt) : Int :=
  match r o with
  | .num n => n
  | _ => 0

/-- `jsi_safe_None`, src/jsiInt.h. -/
def modeNone : Val := .num 0
def modeRead : Val := .num 1
def modeWrite : Val := .num 2
def modeWriteRead : Val := .num 3
def modeLockdown : Val := .num 4

def dirs (v : Val) : Option (List Str) :=
  match v with
  | .list l => some l
  | _ => none

/-- `Jsi_InterpAccess` for reading or writing a file, src/jsiInterp.c:2972-3000. -/
def mayFile (e : Env) (r : Rec) (o : Opt) (path : Str) : Bool :=
  !isSafe r || Path.interpAccess e.realpath e.home e.cwd (dirs (r o)) path

def mayRead (e : Env) (r : Rec) (path : Str) : Bool := mayFile e r .safeReadDirs path
def mayWrite (e : Env) (r : Rec) (path : Str) : Bool := mayFile e r .safeWriteDirs path

/-- `Jsi_InterpAccess`, `JSI_INTACCESS_NETWORK`, src/jsiInterp.c:2958-2959. -/
def mayNet (r : Rec) : Bool := !flag r .noNetwork

/-- `load(...)`: the command exists and `Jsi_LoadLibrary` (src/jsiLoad.c:45-48) does not refuse. -/
def mayLoad (i : Ip) : Bool := i.hasLoad && !flag i.opt .noLoad

/-- The value an option has in a record of zeroes. -/
def zero : Kind → Val
  | .bool => .bool false
  | .int => .num 0
  | .uint => .num 0
  | .custom => .num 0
  | _ => .null

def kindOf (o : Opt) : Kind :=
  match table.find? (fun s => s.opt = o) with
  | some s => s.kind
  | none => .bool

/-- A new record, src/jsiInterp.c:1119-1142, 1174-1182: zeroes, defaults, and what every sub-interpreter takes from
its parent.  Left out: the initial values of `log`, `logOpts` and `subOpts`. -/
def fresh (p : Rec) : Rec := fun o =>
  match o with
  | .maxInterpDepth => p .maxInterpDepth
  | .maxDepth => .num 200
  | .maxIncDepth => .num 50
  | .maxArrayList => .num 100000
  | .maxDumpStack => .num 100
  | .maxDumpArgs => .num 80
  | .typeWarnMax => .num 50
  | .pkgDirs => p .pkgDirs
  | o => zero (kindOf o)

/-- src/jsiInterp.c:1370-1393: what a safe parent imposes. -/
def impose (p r : Rec) : Rec := fun o =>
  match o with
  | .isSafe => .bool true
  | .safeMode => p .safeMode
  | .safeWriteDirs => .null
  | .safeReadDirs => .null
  | .safeExecPattern =>
    if r .safeWriteDirs ≠ .null ∨ r .safeReadDirs ≠ .null ∨ r .safeExecPattern ≠ .null then .null
    else r .safeExecPattern
  | .maxDepth => p .maxDepth
  | .maxArrayList => p .maxArrayList
  | .maxIncDepth => p .maxIncDepth
  | .maxInterpDepth => p .maxInterpDepth
  | .maxUserObjs => p .maxUserObjs
  | .maxOpCnt => p .maxOpCnt
  | .memLeakCnt => p .memLeakCnt
  | .noLoad => if flag p .noLoad then .bool true else r .noLoad
  | .noNetwork => if flag p .noNetwork then .bool true else r .noNetwork
  | .noStderr => if flag p .noStderr then .bool true else r .noStderr
  | .noSubInterps => if flag p .noSubInterps then .bool true else r .noSubInterps
  | o => r o

/-- `Jsi_OptionsFree`, src/jsiOptions.c:1352-1440, after options that do not fit: everything back to zero, except
`JSI_OPT_NO_CLEAR` (`memDebug`). -/
def cleared (r : Rec) : Rec := fun o => if o = .memDebug then r o else zero (kindOf o)

/-- `jsi_InterpConfFile`, src/jsiInterp.c:2854-2881, once the file has been read: the record and whether all was
well. -/
def confApply (e : Env) (r : Rec) (l : List (Str × Val)) : Rec × Bool :=
  if (process e.cust false (isSafe r) false r l).2 then process e.cust false (isSafe r) false r l
  else (cleared (process e.cust false (isSafe r) false r l).1, false)

/-- The file named by the `confFile` option (src/jsiInterp.c:2891-2892), read if the interpreter may read it. -/
def confUser (e : Env) (r : Rec) : Rec × Bool :=
  match r .confFile with
  | .str f =>
    if mayRead e r f then
      match e.conf f with
      | none => (r, false)
      | some l => confApply e r l
    else (r, false)
  | _ => (r, true)

/-- /etc/jsish.conf, read with `isSafe` off, which is then restored (src/jsiInterp.c:2860-2862, 2873-2874, 2893-2894). -/
def confEtc (e : Env) (r : Rec) : Rec :=
  match e.etc with
  | none => r
  | some none => r
  | some (some l) =>
    if isSafe r then ((confApply e (r.set .isSafe (.bool false)) l).1).set .isSafe (.bool true)
    else (confApply e r l).1

/-- `jsi_InterpConfFiles`, src/jsiInterp.c:2883-2901.  Left out: the check of `jsppChars`. -/
def confFiles (e : Env) (r : Rec) : Rec :=
  if (confUser e r).2 then confEtc e (confUser e r).1 else (confUser e r).1

/-- src/jsiInterp.c:1418-1419. -/
def modeSafe (r : Rec) : Rec := if r .safeMode ≠ modeNone then r.set .isSafe (.bool true) else r

/-- src/jsiInterp.c:1484-1485. -/
def clampDepth (r : Rec) : Rec :=
  match r .maxDepth with
  | .num n => if 200 < n then r.set .maxDepth (.num 200) else r
  | _ => r

/-- The record up to the creation of the commands, src/jsiInterp.c:1350-1485. -/
def settle (e : Env) (p r : Rec) : Rec :=
  clampDepth (modeSafe (confFiles e (if isSafe p then impose p r else r)))

/-- `Jsi_FileRealpathStr` of the `lockDown` path. -/
def lockPath (e : Env) (path : Str) : List Str :=
  match Path.fileRealpath e.realpath e.home e.cwd path with
  | some s => [s]
  | none => []

/-- src/jsiInterp.c:1576-1602: the `lockDown` option, at the end of the creation. -/
def lockRec (e : Env) (r : Rec) (path : Str) : Rec := fun o =>
  match o with
  | .isSafe => .bool true
  | .safeMode => modeLockdown
  | .safeWriteDirs => .list (lockPath e path)
  | .safeReadDirs => if r .safeReadDirs = .null then .list (lockPath e path) else r .safeReadDirs
  | o => r o

def made (a : Nat) (d : Int) (r0 r : Rec) (sh : Bool) : Ip where
  opt := r
  parent := some a
  depth := d
  startSafe := decide (r0 .safeMode ≠ modeNone)
  included := false
  shared := sh
  hasLoad := !isSafe r0

/-- src/jsiInterp.c:1527-1604. -/
def finish (e : Env) (a : Nat) (d : Int) (r : Rec) : Option Ip :=
  match r .lockDown with
  | .str path =>
    if e.lockOk path then some (made a d r (lockRec e r path) (decide (r .safeReadDirs = .null))) else none
  | _ => some (made a d r r false)

/-- `jsi_InterpNew` called by `new Interp(opts)` in interpreter `a` (src/jsiInterp.c:1105-1635, 2777-2780): the new
interpreter, `none` if it is refused.  Left out: `subOpts.privKeys` (the options are processed twice), threads other
than being refused in a safe interpreter, and the initialisation of the commands. -/
def newInterp (e : Env) (a : Nat) (p : Ip) (opts : List (Str × Val)) : Option Ip :=
  if flag p.opt .noSubInterps then none
  else if limit p.opt .maxInterpDepth < p.depth + 1 then none
  else if (process e.cust false false false (fresh p.opt) opts).2 = false then none
  else if flag (process e.cust false false false (fresh p.opt) opts).1 .subthread &&
      (isSafe p.opt || isSafe (process e.cust false false false (fresh p.opt) opts).1) then none
  else finish e a (p.depth + 1) (settle e p.opt (process e.cust false false false (fresh p.opt) opts).1)

/-- The directory part of a file name, with the slash (src/jsiEval.c:2550-2553). -/
def dirPart (f : Str) : Str := (f.reverse.dropWhile (· ≠ 47)).reverse

/-- src/jsiEval.c:2543-2571, `JSI_EVAL_ARGV0` in an interpreter with `startSafe` and no `safeReadDirs`: the
directories opened up.  `file` is the file's full name. -/
def argv0Rec (e : Env) (r : Rec) (file : Str) : Rec :=
  if (r .safeMode = modeWriteRead ∨ r .safeMode = modeLockdown) ∧ r .safeWriteDirs = .null then
    (r.set .safeReadDirs (.list [dirPart file, e.cwd])).set .safeWriteDirs (.list [dirPart file, e.cwd])
  else if r .safeMode = modeWrite then
    (r.set .safeReadDirs (.list [dirPart file, e.cwd])).set .safeWriteDirs (.list [e.cwd])
  else r.set .safeReadDirs (.list [dirPart file, e.cwd])

/-- The first `Interp.source` of an interpreter (src/jsiInterp.c:2141-2144, src/jsiEval.c:2543-2572): the interpreter
afterwards, and whether the file is opened (if it exists). -/
def sourceFirst (e : Env) (i : Ip) (file : Str) : Ip × Bool :=
  if i.startSafe then
    if i.opt .safeReadDirs ≠ .null ∨ i.opt .safeMode = modeNone then ({ i with included := true }, true)
    else
      ({ i with included := true, opt := argv0Rec e i.opt file,
                shared := i.shared || decide ((i.opt .safeMode = modeWriteRead ∨ i.opt .safeMode = modeLockdown) ∧
                    i.opt .safeWriteDirs = .null) },
        mayRead e (argv0Rec e i.opt file) file)
  else ({ i with included := true }, mayRead e i.opt file)

/-- `Interp.source`, src/jsiInterp.c:2139-2150: later calls have no special rights. -/
def source (e : Env) (i : Ip) (file : Str) : Ip × Bool :=
  if i.included then (i, mayRead e i.opt file) else sourceFirst e i file

/-- What scripts can do to interpreters.  `a` is the interpreter whose script acts. -/
inductive Op where
  /-- `new Interp(opts)` -/
  | create (a : Nat) (opts : List (Str × Val))
  /-- `Interp.conf(opts)` (`j = a`) or `sub.conf(opts)` -/
  | conf (a j : Nat) (opts : List (Str × Val))
  /-- `Interp.source(file)` (`j = a`) or `sub.source(file)` -/
  | source (a j : Nat) (file : Str)
  /-- `source(file)`: no special rights, but it counts as a first one (src/jsiCmds.c:146) -/
  | plainSource (a : Nat)
  /-- a change to the array that `Interp.conf(name)` returned: `jsi_GetOption` gives out the array itself
  (src/jsiOptions.c:774-786), so `Interp.conf(name).push(...)` changes the option -/
  | edit (a : Nat) (o : Opt) (l : List Str)

/-- All interpreters, in the order of their creation. -/
abbrev World := List Ip

/-- `j` is `a` or a sub-interpreter `a` created. -/
def reaches (w : World) (a j : Nat) : Bool :=
  a == j || (match w[j]? with | some i => i.parent == some a | none => false)

/-- `InterpConfCmd` with an object, src/jsiInterp.c:2904-2935. -/
def confRec (e : Env) (self : Bool) (r : Rec) (opts : List (Str × Val)) : Rec :=
  if self && flag r .noConfig then r else (process e.cust true (isSafe r) false r opts).1

/-- A changed array: both lists of directories change if they are one array. -/
def editRec (i : Ip) (o : Opt) (l : List Str) : Rec :=
  if i.shared && (o = .safeReadDirs || o = .safeWriteDirs) then
    (i.opt.set .safeReadDirs (.list l)).set .safeWriteDirs (.list l)
  else i.opt.set o (.list l)

/-- One action. -/
def step (e : Env) (w : World) : Op → World
  | .create a opts =>
    match w[a]? with
    | none => w
    | some p =>
      match newInterp e a p opts with
      | none => w
      | some c => w ++ [c]
  | .conf a j opts =>
    match w[j]? with
    | none => w
    | some i => if reaches w a j then w.set j { i with opt := confRec e (a == j) i.opt opts } else w
  | .source a j file =>
    match w[j]? with
    | none => w
    | some i => if reaches w a j then w.set j (source e i file).1 else w
  | .plainSource a =>
    match w[a]? with
    | none => w
    | some i => w.set a { i with included := true }
  | .edit a o l =>
    match w[a]? with
    | none => w
    | some i => if kindOf o = .array ∧ (dirs (i.opt o)).isSome then w.set a { i with opt := editRec i o l } else w

/-- A history. -/
def run (e : Env) : World → List Op → World
  | w, [] => w
  | w, op :: t => run e (step e w op) t

/-! ### `exec`, src/jsiCmds.c:1479-1533 -/

/-- The characters refused in a restricted command, src/jsiCmds.c:1530: `<>|;&$` backquote `=`. -/
def badChar (c : UInt8) : Bool := c ∈ [60, 62, 124, 59, 38, 36, 96, 61]

/-- src/jsiCmds.c:1488-1511: `none` if the command is refused; else whether it is restricted.  `restr`: called as the
file system's `exec` (src/jsiVfs.c:837). -/
def execGate (e : Env) (r : Rec) (restr : Bool) (cmd : Str) : Option Bool :=
  if isSafe r = false then some restr
  else if restr then some true
  else match r .safeExecPattern with
    | .str pat => if e.regex pat cmd = some true then some true else none
    | _ => if r .lockDown = .str [46] ∧ cmd.take 7 = asc "fossil " then some true else none

/-- `exec(cmd, {noRedir})`: the text given to the shell, `none` if refused (src/jsiCmds.c:1488-1533).  `cmd` has no
zero byte. -/
def exec (e : Env) (r : Rec) (restr noRedir : Bool) (cmd : Str) : Option Str :=
  match execGate e r restr cmd with
  | none => none
  | some rs => if (rs || noRedir) && cmd.any badChar then none else some cmd

end Verif.Interp
