import Verif.Basic
/-!
# Signals (C203–C205)

`src/jsiSignal.c`: the names of signals, what is done on them, and the callbacks, which `Jsi_EventProcess` (src/jsiCmds.c 240-335) calls.
The numbers are those of Linux on x86.
-/
namespace Verif.Signal

abbrev Bytes := List UInt8

/-! ## Names -/

/-- `Jsi_SignalId`.  src/jsiSignal.c:39-76. -/
def ids : List (Nat × Bytes) :=
  [(1, asc "SIGHUP"), (2, asc "SIGINT"), (3, asc "SIGQUIT"), (4, asc "SIGILL"), (5, asc "SIGTRAP"), (6, asc "SIGABRT"), (7, asc "SIGBUS"),
   (8, asc "SIGFPE"), (9, asc "SIGKILL"), (10, asc "SIGUSR1"), (11, asc "SIGSEGV"), (12, asc "SIGUSR2"), (13, asc "SIGPIPE"), (14, asc "SIGALRM"),
   (15, asc "SIGTERM"), (17, asc "SIGCLD"), (18, asc "SIGCONT"), (19, asc "SIGSTOP"), (20, asc "SIGTSTP"), (21, asc "SIGTTIN"), (22, asc "SIGTTOU"),
   (23, asc "SIGURG"), (24, asc "SIGXCPU"), (25, asc "SIGXFSZ"), (26, asc "SIGVTALRM"), (27, asc "SIGPROF"), (28, asc "SIGWINCH"), (29, asc "SIGIO"),
   (30, asc "SIGPWR"), (31, asc "SIGSYS")]

/-- `Jsi_SignalName`.  src/jsiSignal.c:78-91. -/
def signalName (n : Nat) : Bytes := (ids.lookup n).getD (asc "unknown signal")

/-- MAX_SIGNALS, the bits of a Jsi_Wide.  src/jsiSignal.c:14. -/
def maxSignals : Nat := 64

/-- `tolower`. -/
def lower (c : UInt8) : UInt8 := if 65 ≤ c ∧ c ≤ 90 then c + 32 else c

/-- `isdigit`. -/
def digit (c : UInt8) : Bool := 48 ≤ c && c ≤ 57

/-- The number digits stand for. -/
def decVal (s : Bytes) : Nat := s.foldl (fun a c => 10 * a + (c.toNat - 48)) 0

/-- `atoi` of a text that begins with a digit: a long, cut to an int.  C library. -/
def atoi (s : Bytes) : Int :=
  let n := min (decVal (s.takeWhile digit)) 9223372036854775807 % 4294967296
  if n < 2147483648 then (n : Int) else (n : Int) - 4294967296

/-- The name without `-`.  src/jsiSignal.c:104-107. -/
def noMinus (s : Bytes) : Bytes := if s.head? = some 45 then s.drop 1 else s

/-- The name without `-` and `sig`.  src/jsiSignal.c:104-110. -/
def stem (s : Bytes) : Bytes := if (s.take 3).map lower = asc "sig" then (noMinus s).drop 3 else noMinus s

/-- `find_signal_by_name`; none is -1.  src/jsiSignal.c:99-127. -/
def find (s : Bytes) : Option Nat :=
  if (stem s).head?.any digit then
    if 0 < atoi (stem s) ∧ atoi (stem s) < (maxSignals : Int) then some (atoi (stem s)).toNat else none
  else ((List.range (maxSignals - 1)).map (· + 1)).find? fun i => ((signalName i).drop 3).map lower == (stem s).map lower

/-! ## Actions -/

/-- SIGNAL_ACTION_DEFAULT, _HANDLE, _IGNORE.  src/jsiSignal.c:14. -/
inductive Action where
  | dflt
  | handle
  | ignore
  deriving DecidableEq

/-- What the process does on a signal: `signal_handler`, `signal_ignorer`, or what it did before (`k`). -/
inductive Disp where
  | handler
  | ignorer
  | before (k : Nat)
  deriving DecidableEq

/-- The process and the tables signal_handling, saOld and saOldPtr.  src/jsiSignal.c:16-20. -/
structure St where
  disp : Nat → Disp
  handling : Nat → Action
  /-- saOld; it is zero, SIG_DFL, at first. -/
  old : Nat → Disp

/-- A function changed at one place. -/
def upd {α : Type} (f : Nat → α) (n : Nat) (a : α) : Nat → α := fun m => if m = n then a else f m

/-- `sigaction`; `can`: the kernel lets this signal be changed. -/
def sigaction (can : Nat → Bool) (s : St) (n : Nat) (d : Disp) : St := if can n then { s with disp := upd s.disp n d } else s

/-- The same, which first stores what there was in saOld. -/
def sigactionOld (can : Nat → Bool) (s : St) (n : Nat) (d : Disp) : St :=
  if can n then { s with disp := upd s.disp n d, old := upd s.old n (s.disp n) } else s

/-- The handler of an action.  src/jsiSignal.c:187-195. -/
def dispOf : Action → Disp
  | .handle => .handler
  | _ => .ignorer

/-- The action of one signal is set.  src/jsiSignal.c:204-222; `jsi_SignalSet` (138-158) is this with HANDLE. -/
def setAction (can : Nat → Bool) (s : St) (a : Action) (n : Nat) : St :=
  if a = s.handling n then s
  else
    let t := match a with
      | .dflt => sigaction can s n (s.old n)
      | a => if s.handling n = Action.dflt then sigactionOld can s n (dispOf a) else sigaction can s n (dispOf a)
    { t with handling := upd t.handling n a }

/-- `SignalSub` with arguments: the names one after the other, up to one that is unknown (an error).  src/jsiSignal.c:197-226. -/
def signalSub (can : Nat → Bool) (a : Action) : St → List Bytes → St × Bool
  | s, [] => (s, true)
  | s, x :: r =>
    match find x with
    | none => (s, false)
    | some n => signalSub can a (setAction can s a n) r

/-- `SignalSub` without arguments: the signals with this action.  src/jsiSignal.c:174-185. -/
def listed (s : St) (a : Action) : List Nat := (List.range maxSignals).filter fun n => s.handling n = a

/-- What a script does. -/
inductive Op where
  /-- `Signal.handle`, `ignore`, `reset` with these names. -/
  | sub (a : Action) (names : List Bytes)
  /-- `Signal.callback(f, n)`, n the number of a signal.  src/jsiSignal.c:305-344. -/
  | callback (n : Nat)

/-- One of them. -/
def step (can : Nat → Bool) (s : St) : Op → St
  | .sub a l => (signalSub can a s l).1
  | .callback n => if n < maxSignals then setAction can s .handle n else s

/-- At first. -/
def start (d0 : Nat → Disp) : St := ⟨d0, fun _ => .dflt, fun _ => .before 0⟩

/-- After a history. -/
def run (can : Nat → Bool) (d0 : Nat → Disp) (h : List Op) : St := h.foldl (step can) (start d0)

/-! ### What it should be -/

/-- The numbers these names stand for, up to an unknown one. -/
def known : List Bytes → List Nat
  | [] => []
  | x :: r =>
    match find x with
    | none => []
    | some n => n :: known r

/-- The signals an operation sets, and the action. -/
def sets : Op → List (Nat × Action)
  | .sub a l => (known l).map fun n => (n, a)
  | .callback n => if n < maxSignals then [(n, .handle)] else []

/-- The action the last operation gave that set this signal. -/
def lastAction (h : List Op) (n : Nat) : Action := (((h.flatMap sets).filter fun e => e.1 = n).getLast?.map (·.2)).getD .dflt

/-! ## Callbacks -/

/-- The bits that are set, and the callbacks that are running. -/
structure Dl where
  set : Nat → Bool
  busy : Nat → Bool

/-- What happens. -/
inductive Ev where
  /-- Signal `s` arrives: `signal_handler`.  src/jsiSignal.c:25-31. -/
  | arrive (s : Nat)
  /-- `Jsi_EventProcess` comes to callback `k` in the table.  src/jsiCmds.c:258-286. -/
  | look (k : Nat)
  /-- The function of callback `k` returns.  src/jsiCmds.c:299. -/
  | ret (k : Nat)

/-- … and whether callback `k` was called; `sig` its signal.  The bit is cleared at once (see `clearStore`). -/
def dstep (sig : Nat → Nat) (d : Dl) : Ev → Dl × Option Nat
  | .arrive s => ({ d with set := upd d.set s true }, none)
  | .look k =>
    if d.set (sig k) then
      let d' := { d with set := upd d.set (sig k) false }
      if d.busy k then (d', none) else ({ d' with busy := upd d'.busy k true }, some k)
    else (d, none)
  | .ret k => ({ d with busy := upd d.busy k false }, none)

/-- The callbacks called in a history, in order. -/
def calls (sig : Nat → Nat) : Dl → List Ev → List Nat
  | _, [] => []
  | d, e :: h => (dstep sig d e).2.toList ++ calls sig (dstep sig d e).1 h

/-- After a history. -/
def dafter (sig : Nat → Nat) (d : Dl) (h : List Ev) : Dl := h.foldl (fun d e => (dstep sig d e).1) d

/-- At first. -/
def dstart : Dl := ⟨fun _ => false, fun _ => false⟩

/-- `jsi_SignalClear` in two steps: the mask `m` was read, and is written without the bit, whatever it is now.  src/jsiSignal.c:129-132. -/
def clearStore (m : Nat → Bool) (s : Nat) : Nat → Bool := upd m s false

end Verif.Signal
