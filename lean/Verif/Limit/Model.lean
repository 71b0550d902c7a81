import Verif.Basic

/-!
Model of the loop of the interpreter as far as limits, exit and interruption go: `jsiEvalCodeSub`
(src/jsiEval.c:1112-1220, 2121-2138), `jsi_evalcode` (src/jsiEval.c:2195-2246), `jsiDoThrow` (src/jsiEval.c:347-393),
`exit()` (src/jsiCmds.c:518-547), the signal handler (src/jsiUtils.c:1155-1160).

What the instructions do is a parameter: an instruction is a finite tree of calls back into the interpreter (a native
function may call functions any number of times, depending on their results) and ends by going on, failing, or leaving
the frame.  Not modelled: skipped log statements, the debugger, `busyCallback`, interpreters being deleted.
-/

namespace Verif.Limit

/-- `JSI_OK`, `JSI_ERROR`, and the other codes. -/
inductive RC where
  | ok
  | error
  | other
deriving DecidableEq, Repr

/-- A frame: `tries` is the length of its list of active try and with blocks, `v` the rest. -/
structure Frame (φ : Type) where
  tries : Nat
  v : φ

/-- How an instruction ends: the frame goes on, the instruction failed (the try list is as before), or the frame is left
with a code. -/
inductive Fin (φ : Type) where
  | next (f : Frame φ)
  | fail (v : φ)
  | leave (rc : RC)

/-- What an instruction does. -/
inductive Body (σ φ : Type) where
  | done (f : Fin φ) (s : σ)
  | exit (k : Body σ φ)
  | intr (k : Body σ φ)
  | call (s : σ) (g : φ) (k : RC → σ → Body σ φ)

/-- The program: the instruction at which a frame stands, if it is not at its end; where a failure goes on, if there is
a handler for it (src/jsiEval.c:371-392). -/
structure Machine (σ φ : Type) where
  op : σ → Frame φ → Option (Body σ φ)
  handle : σ → Frame φ → Option (Frame φ × σ)

/-- `interp->opCnt, maxOpCnt, exited, interrupted, level, maxDepth` -/
structure Ctl where
  opCnt : Nat
  maxOpCnt : Nat
  exited : Bool
  interrupted : Nat
  level : Nat
  maxDepth : Nat

/-- What is seen of a run: an instruction executed at a depth of nested calls, exit(), the cap, an interruption. -/
inductive Ev where
  | run (depth : Nat)
  | exit
  | cap
  | intr
deriving DecidableEq, Repr

abbrev Result (σ : Type) := RC × Ctl × σ × List Ev

variable {σ φ : Type}

/-- The tree of an instruction, when calls do `ev`. -/
def runBody (ev : Ctl → σ → φ → Option (Result σ)) : Body σ φ → Ctl → Option (Fin φ × Ctl × σ × List Ev)
  | .done f s, c => some (f, c, s, [])
  | .exit k, c =>
    match runBody ev k { c with exited := true } with
    | none => none
    | some (f, c', s', t) => some (f, c', s', .exit :: t)
  | .intr k, c =>
    match runBody ev k { c with interrupted := 1 } with
    | none => none
    | some (f, c', s', t) => some (f, c', s', .intr :: t)
  | .call s g k, c =>
    match ev c s g with
    | none => none
    | some (rc, c1, s1, t1) =>
      match runBody ev (k rc s1) c1 with
      | none => none
      | some (f, c', s', t) => some (f, c', s', t1 ++ t)

/-- Behind the loop in `jsi_evalcode` (src/jsiEval.c:2238-2245). -/
def ret : Option (Result σ) → Option (Result σ)
  | none => none
  | some (rc, c, s, t) => some (if c.exited then .error else rc, { c with level := c.level - 1 }, s, t)

/-- src/jsiEval.c:2195-2246  `jsi_evalcode`, with the check of the depth (src/jsiEval.c:1130-1131).  A new frame starts
with no try of its own. -/
def call (lp : Ctl → σ → Frame φ → Option (Result σ)) (c : Ctl) (s : σ) (g : φ) : Option (Result σ) :=
  if c.exited then some (.error, c, s, [])
  else if 0 < c.maxDepth ∧ c.maxDepth < c.level + 1 then some (.error, c, s, [])
  else ret (lp { c with level := c.level + 1 } s ⟨0, g⟩)

/-- Instruction executed: what comes before in the trace. -/
def pre (t : List Ev) : Option (Result σ) → Option (Result σ)
  | none => none
  | some (rc, c, s, t') => some (rc, c, s, t ++ t')

/-- src/jsiEval.c:1133-1181, 2121-2138: the loop of `jsiEvalCodeSub`.  `n` bounds the number of instructions of the
frame plus the depth of calls, `base` is the number of tries of the frames below (`frame = *interp->framePtr` hands
`tryDepth` on), `d` is the depth of this frame, for the trace only. -/
def loop (M : Machine σ φ) : Nat → Nat → Nat → Ctl → σ → Frame φ → Option (Result σ)
  | 0, _, _, _, _, _ => none
  | n + 1, base, d, c, s, f =>
    match M.op s f with
    | none => some (.ok, c, s, [])
    | some b =>
      if 0 < c.interrupted then
        if base + f.tries = 0 then some (.error, { c with interrupted := 0 }, s, [])
        else some (.error, { c with interrupted := c.interrupted + 1 }, s, [])
      else if c.exited then some (.error, c, s, [])
      else if 0 < c.maxOpCnt ∧ c.maxOpCnt < c.opCnt + 1 then
        some (.error, { c with opCnt := c.opCnt + 1, maxOpCnt := c.maxOpCnt + 1000, exited := true }, s, [.cap])
      else
        match runBody (call (loop M n (base + f.tries) (d + 1))) b { c with opCnt := c.opCnt + 1 } with
        | none => none
        | some (.next f', c', s', t) => pre (.run d :: t) (loop M n base d c' s' f')
        | some (.leave rc, c', s', t) => some (rc, c', s', .run d :: t)
        | some (.fail v, c', s', t) =>
          if c'.exited then some (.error, c', s', .run d :: t)
          else if f.tries = 0 then some (.error, c', s', .run d :: t)
          else
            match M.handle s' ⟨f.tries, v⟩ with
            | none => some (.error, c', s', .run d :: t)
            | some (f', s'') => pre (.run d :: t) (loop M n base d c' s'' f')

/-- A script started from outside: no frame below it (depth 1). -/
def start (M : Machine σ φ) (n maxOpCnt maxDepth : Nat) (s : σ) (g : φ) : Option (Result σ) :=
  call (loop M n 0 1) ⟨0, maxOpCnt, false, 0, 0, maxDepth⟩ s g

end Verif.Limit
