import Verif.Basic
/-!
# Breakpoints (C213)

`Debug.add`, `Debug.remove`, `Debug.enable` (src/jsiCmds.c 2814-2901) and `jsi_InterpDebugHook` (src/jsiInterp.c 987-1080) for an interpreter with a parent
and a `debugCallback`.  Not modelled: stops for errors and for signals (`opCode` "DEBUG" and "SIGINT"), the message that is given to the callback except the
number of the breakpoint, and a callback that fails.
-/
namespace Verif.Debug

/-- Where a breakpoint is. -/
inductive Place where
  | func (name : List UInt8)
  | line (file : List UInt8) (n : Int)

/-- `jsi_BreakPoint`. -/
structure Bp where
  id : Nat
  enabled : Bool
  temp : Bool
  hits : Nat
  place : Place

/-- The breakpoints, in the order in which the table is searched, and `debugOpts`. -/
structure St where
  bps : List Bp
  idx : Nat
  cont : Bool
  noFilter : Bool
  forceBreak : Bool
  minLevel : Int
  lastFile : List UInt8
  lastLine : Int
  lastLevel : Int
  bpLast : Bool
  bpOpCnt : Nat

/-- An instruction that is about to be done; `isFun`: it is `PUSHVAR` before `PUSHFUN`. -/
structure Ev where
  file : List UInt8
  line : Int
  level : Int
  func : List UInt8
  opCnt : Nat
  isFun : Bool
  nodebug : Bool

/-- An enabled breakpoint is here.  src/jsiInterp.c:1027-1031. -/
def here (b : Bp) (e : Ev) : Bool :=
  b.enabled && match b.place with
    | .func f => f == e.func
    | .line f n => n == e.line && f == e.file

/-- The first breakpoint that is here is counted, and put out if it is temporary.  src/jsiInterp.c:1024-1039. -/
def search (e : Ev) : List Bp → List Bp × Option Nat
  | [] => ([], none)
  | b :: l =>
    if here b e then ({ b with hits := b.hits + 1, enabled := if b.temp then false else b.enabled } :: l, some b.id)
    else (b :: (search e l).1, (search e l).2)

/-- src/jsiInterp.c:1008-1009. -/
def sameLine (s : St) (e : Ev) : Bool := s.lastLine == e.line && s.lastLevel == e.level && s.lastFile == e.file

/-- src/jsiInterp.c:1058-1063. -/
def told (s : St) (e : Ev) (bps : List Bp) (bp : Bool) : St :=
  { s with bps := bps, bpLast := bp, bpOpCnt := e.opCnt, lastLine := e.line, lastLevel := e.level, lastFile := e.file, forceBreak := false }

/-- `jsi_InterpDebugHook`: what is kept, and `some id` if the callback is called (0: not for a breakpoint).  src/jsiInterp.c:987-1074. -/
def hook (s : St) (e : Ev) : St × Option Nat :=
  if e.line ≤ 0 ∨ e.nodebug = true then (s, none)
  else if s.noFilter || s.forceBreak then (told s e s.bps false, some 0)
  else if sameLine s e && (!s.bpLast || decide (e.opCnt ≤ s.bpOpCnt + 10)) then (s, none)
  else match search e s.bps with
    | (bps, some id) => (told s e bps true, some id)
    | (_, none) =>
      if s.cont || decide (0 < s.minLevel ∧ s.minLevel < e.level) then (s, none)
      else if e.isFun then ({ s with lastLine := e.line, lastLevel := e.level, lastFile := e.file }, none)
      else (told s e s.bps false, some 0)

/-- `Debug.add`.  src/jsiCmds.c:2847-2856. -/
def add (s : St) (p : Place) (temp : Bool) : St := { s with bps := ⟨s.idx + 1, true, temp, 0, p⟩ :: s.bps, idx := s.idx + 1 }

/-- What happens: an instruction, or a command of the debugger. -/
inductive Step where
  | ev (e : Ev)
  | add (p : Place) (temp : Bool)
  | remove (id : Nat)
  | enable (id : Nat) (b : Bool)
  | mode (cont noFilter forceBreak : Bool) (minLevel : Int)

/-- `Debug.remove` and `Debug.enable`: src/jsiCmds.c:2874-2882. -/
def step (s : St) : Step → St × Option Nat
  | .ev e => hook s e
  | .add p t => (add s p t, none)
  | .remove id => ({ s with bps := s.bps.filter fun b => b.id != id }, none)
  | .enable id v => ({ s with bps := s.bps.map fun b => if b.id = id then { b with enabled := v } else b }, none)
  | .mode c n f m => ({ s with cont := c, noFilter := n, forceBreak := f, minLevel := m }, none)

/-- All that happens: the state at the end and the stops. -/
def run (s : St) : List Step → St × List Nat
  | [] => (s, [])
  | x :: xs => ((run (step s x).1 xs).1, (step s x).2.toList ++ (run (step s x).1 xs).2)

/-- No breakpoints yet. -/
def start : St := ⟨[], 0, false, false, false, 0, [], 0, 0, false, 0⟩

/-- The hits of the breakpoint `id`. -/
def hitsOf (id : Nat) (l : List Bp) : Nat := ((l.filter fun b => b.id == id).map Bp.hits).sum

end Verif.Debug
