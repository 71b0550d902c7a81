import Verif.Interp.Model

/-!
What is meant by a descendant of an interpreter, by "no more rights", and by the ordinary use of sub-interpreters.
-/

namespace Verif.Interp

/-- `j` is `s` or was created, directly or not, by `s`. -/
inductive Within (w : World) (s : Nat) : Nat → Prop
  | self : Within w s s
  | sub {a j : Nat} {i : Ip} : Within w s a → w[j]? = some i → i.parent = some a → Within w s j

/-- Creators come before what they create. -/
def Wf (w : World) : Prop := ∀ (j : Nat) (i : Ip) (a : Nat), w[j]? = some i → i.parent = some a → a < j

/-- `s` has created nothing yet. -/
def NoSubs (w : World) (s : Nat) : Prop := ∀ (j : Nat) (i : Ip), w[j]? = some i → i.parent ≠ some s

/-- The limits and switches a safe interpreter `s` passes on to `i`. -/
structure Bound (s i : Ip) : Prop where
  safe : isSafe i.opt = true
  depth : limit i.opt .maxDepth ≤ limit s.opt .maxDepth
  limits : ∀ o ∈ [Opt.maxArrayList, .maxIncDepth, .maxInterpDepth, .maxUserObjs, .maxOpCnt, .memLeakCnt],
    i.opt o = s.opt o
  net : mayNet i.opt = true → mayNet s.opt = true
  load : mayLoad i = true → mayLoad s = true
  switch : ∀ o ∈ [Opt.noLoad, .noNetwork, .noStderr, .noSubInterps], flag s.opt o = true → flag i.opt o = true

/-- `i` may do nothing with files and programs that `s` may not. -/
structure Confined (e : Env) (s i : Ip) : Prop where
  read : ∀ f, mayRead e i.opt f = true → mayRead e s.opt f = true
  write : ∀ f, mayWrite e i.opt f = true → mayWrite e s.opt f = true
  exec : ∀ nr cmd t, exec e i.opt false nr cmd = some t → exec e s.opt false nr cmd = some t

/-- The options that decide what an interpreter may do. -/
def guarded : List Opt :=
  [.isSafe, .safeMode, .safeReadDirs, .safeWriteDirs, .safeExecPattern, .lockDown, .maxDepth, .maxArrayList,
   .maxIncDepth, .maxInterpDepth, .maxUserObjs, .maxOpCnt, .memLeakCnt, .noLoad, .noNetwork, .noStderr,
   .noSubInterps]

/-- The machine's own configuration file, if any, is well formed and leaves the guarded options alone (`isSafe` is
restored anyway). -/
def EtcOk (e : Env) : Prop :=
  ∀ l, e.etc = some (some l) → ∀ b r, (process e.cust false b false r l).2 = true ∧
    ∀ o ∈ guarded, (process e.cust false b false r l).1 o = r o

/-- The given options do not name (or abbreviate) `o`. -/
def NotNamed (o : Opt) (opts : List (Str × Val)) : Prop := ∀ kv ∈ opts, ∀ sp, find kv.1 = some sp → sp.opt ≠ o

/-- Ordinary actions: no `lockDown` option, no change to the arrays of directories, and `Interp.source` only where
`safeMode` is not in use. -/
def Quiet (s : Ip) : Op → Prop
  | .create _ opts => NotNamed .lockDown opts
  | .conf _ _ opts => NotNamed .lockDown opts
  | .source _ _ _ => s.startSafe = false ∧ s.opt .safeMode = modeNone
  | .plainSource _ => True
  | .edit _ o _ => o ≠ .safeReadDirs ∧ o ≠ .safeWriteDirs

end Verif.Interp
