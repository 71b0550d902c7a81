import Verif.Basic

/-!
The queues through which one thread sends work to the interpreter of another:
`sub.call(f, args)`, `sub.eval(js)`, `sub.eval(js, true)` and calls of aliases post to the queue of an
interpreter, whose own thread empties it in `update()` (`SubInterpEvalCallback`).

The model is a machine whose steps are single statements of the C code; the schedule is an arbitrary
list of labels.  Any number of threads post, one thread owns the interpreter.

Simplifications: addresses of freed records are never given out again, so that every use of a freed
record is noticed (`fault`); the posting of alias definitions and of alias calls is the same code as the
posting of calls, only the content of the record differs; memory is sequentially consistent, also for
`isExec` and `rc`, which are read without a lock; the unlocked look at the queue in `SysUpdateCmd`
(src/jsiCmds.c:413) only decides whether a handler is installed and is left out.
-/

namespace Verif.Queue

/-- What a record holds: the thread that posted it, the message, and whether the thread waits. -/
structure Post (M : Type) where
  who : Nat
  msg : M
  sync : Bool
  deriving DecidableEq, Repr

/-- `InterpStrEvent`, src/jsiInt.h:886-898.  `post` are the fields `func`, `data`, `acfunc`, `acdata`
(`filled` until they are freed), `isExec` and `rc` as in C. -/
structure Rec (M R : Type) where
  post : Post M
  filled : Bool
  isExec : Bool
  rc : Option R
  next : Option Nat

/-- Where a posting thread is: between calls, or at a statement of `InterpCallCmd`
(src/jsiInterp.c:2545-2573), `InterpEvalCmd_` (2119-2130, 2167-2196) or `jsi_AliasInvoke` (308-336). -/
inductive PPc (M : Type) where
  | idle
  /-- before `Jsi_MutexLock`, 2546, 2167 -/
  | want (m : M) (sync : Bool)
  /-- before `Jsi_Calloc` and the filling of the record, 2550-2564, 2169-2175 -/
  | alloc (m : M) (sync : Bool)
  /-- before `se = sinterp->interpStrEvents; if (!se)`, 2565-2567 -/
  | look (a : Nat) (sync : Bool)
  /-- before `while (se->next)`, 2569-2571 -/
  | walk (a : Nat) (sync : Bool) (se : Nat)
  /-- before `Jsi_MutexUnlock`, 2573, 2187 -/
  | unlock (a : Nat) (sync : Bool)
  /-- before `while (s->isExec)`, 2188 -/
  | wait (a : Nat)
  /-- before `rc = s->rc`, 2190-2195 -/
  | fin (a : Nat)
  /-- asynchronous eval: before `Jsi_MutexLock`, 2125 -/
  | evWant (t : List UInt8)
  /-- before `Jsi_DSAppend`, 2127 -/
  | evPut (t : List UInt8)
  /-- before `Jsi_MutexUnlock`, 2128 -/
  | evUnlock
  deriving DecidableEq

/-- Where the owner is in `SubInterpEvalCallback`, src/jsiInterp.c:2361-2438. -/
inductive CPc where
  /-- before the first lock, 2365 -/
  | c1
  /-- before `if (*cp)`, 2367-2371 -/
  | c2
  /-- before the unlock in 2372, with the text taken -/
  | c3 (text : List UInt8)
  /-- in `Jsi_EvalString`, 2373 -/
  | ev
  /-- before the lock in 2376 -/
  | c4
  /-- before the unlock in 2379 -/
  | c5
  /-- before the lock in 2381 -/
  | c6
  /-- before `se = interp->interpStrEvents`, 2385 -/
  | c7
  /-- before the unlock in 2386 -/
  | c8 (se : Option Nat)
  /-- before `while (se)`, 2387-2389 -/
  | loop (se : Option Nat)
  /-- while the event is carried out, 2390-2426; `e` is the local variable `isExec` -/
  | run (a : Nat) (e : Bool)
  /-- before the lock in 2427 -/
  | c9 (a : Nat) (e : Bool)
  /-- before `interp->interpStrEvents = se->next`, 2429 -/
  | c10 (a : Nat) (e : Bool)
  /-- before `if (!isExec) Jsi_Free(se)`, 2430 -/
  | c11 (a : Nat) (e : Bool)
  /-- before `se = interp->interpStrEvents`, 2431 -/
  | c12 (a : Nat) (e : Bool)
  /-- before the unlock in 2432 -/
  | c13 (a : Nat) (e : Bool) (se : Option Nat)
  /-- before `if (isExec) oldse->isExec = 0`, 2433-2434 -/
  | c14 (a : Nat) (e : Bool) (se : Option Nat)
  deriving DecidableEq

/-- The state: memory, `interpStrEvents`, `interpEvalQ`, the holder of `QMutex` (`none`: the owner,
`some t`: thread t), the posting threads, the calls of `SubInterpEvalCallback` under way (innermost
first), whether a freed record was used; and for the record of what happened: messages put into the
queue, messages started, messages finished with their results, results given back to waiting threads,
texts posted by asynchronous eval, texts evaluated, and what had been posted when the callback began. -/
structure St (M R : Type) where
  heap : Nat → Option (Rec M R)
  fresh : Nat
  head : Option Nat
  evalQ : List UInt8
  lock : Option (Option Nat)
  prods : Nat → PPc M
  frames : List CPc
  fault : Bool
  posted : List (Post M)
  started : List (Post M)
  finished : List (Post M × R)
  returned : List (Nat × R)
  texts : List (Nat × List UInt8)
  batches : List (List UInt8)
  since : List (Post M)

/-- At the beginning. -/
def init (M R : Type) : St M R :=
  ⟨fun _ => none, 0, none, [], none, fun _ => .idle, [], false, [], [], [], [], [], [], []⟩

/-- Change the place of thread `t`. -/
def St.setP {M R} (s : St M R) (t : Nat) (p : PPc M) : St M R :=
  { s with prods := fun u => if u = t then p else s.prods u }

/-- Change a record. -/
def St.put {M R} (s : St M R) (a : Nat) (r : Rec M R) : St M R :=
  { s with heap := fun b => if b = a then some r else s.heap b }

/-- Free a record. -/
def St.free {M R} (s : St M R) (a : Nat) : St M R :=
  { s with heap := fun b => if b = a then none else s.heap b }

/-- A freed record was used. -/
def St.crash {M R} (s : St M R) : St M R := { s with fault := true }

/-- What is between two texts in `interpEvalQ`, src/jsiInterp.c:2127: a semicolon, unless it is empty. -/
def joinQ (q t : List UInt8) : List UInt8 := if q = [] then t else q ++ 59 :: t

/-- The next statement of posting thread `t`; `none` if it has to wait for the lock or is idle. -/
def stepP {M R} (s : St M R) (t : Nat) : Option (St M R) :=
  match s.prods t with
  | .idle => none
  | .want m b => if s.lock = none then some ({ s with lock := some (some t) }.setP t (.alloc m b)) else none
  | .alloc m b =>
    some (({ s with fresh := s.fresh + 1 }.put s.fresh ⟨⟨t, m, b⟩, true, b, none, none⟩).setP t (.look s.fresh b))
  | .look a b =>
    match s.head with
    | none =>
      match s.heap a with
      | some r => some ({ s with head := some a, posted := s.posted ++ [r.post] }.setP t (.unlock a b))
      | none => some s.crash
    | some se => some (s.setP t (.walk a b se))
  | .walk a b se =>
    match s.heap se with
    | none => some s.crash
    | some r =>
      match r.next with
      | some se' => some (s.setP t (.walk a b se'))
      | none =>
        match s.heap a with
        | some ra =>
          some (({ s with posted := s.posted ++ [ra.post] }.put se { r with next := some a }).setP t (.unlock a b))
        | none => some s.crash
  | .unlock a b => some ({ s with lock := none }.setP t (if b then .wait a else .idle))
  | .wait a =>
    match s.heap a with
    | none => some s.crash
    | some r => if r.isExec then some s else some (s.setP t (.fin a))
  | .fin a =>
    match s.heap a with
    | none => some s.crash
    | some r =>
      match r.rc with
      | none => some s.crash
      | some x => some ({ s.free a with returned := s.returned ++ [(t, x)] }.setP t .idle)
  | .evWant x => if s.lock = none then some ({ s with lock := some (some t) }.setP t (.evPut x)) else none
  | .evPut x => some ({ s with evalQ := joinQ s.evalQ x, texts := s.texts ++ [(t, x)] }.setP t .evUnlock)
  | .evUnlock => some ({ s with lock := none }.setP t .idle)

/-- The next statement of the callback that runs innermost; a body under way ends with the result `x`. -/
def stepC {M R} (s : St M R) (x : R) : Option (St M R) :=
  match s.frames with
  | [] => none
  | c :: fs =>
    match c with
    | .c1 => if s.lock = none then some { s with lock := some none, frames := .c2 :: fs } else none
    | .c2 =>
      if s.evalQ = [] then some { s with frames := .c5 :: fs }
      else some { s with evalQ := [], frames := .c3 s.evalQ :: fs }
    | .c3 b => some { s with lock := none, batches := s.batches ++ [b], frames := .ev :: fs }
    | .ev => some { s with frames := .c4 :: fs }
    | .c4 => if s.lock = none then some { s with lock := some none, frames := .c5 :: fs } else none
    | .c5 => some { s with lock := none, frames := .c6 :: fs }
    | .c6 => if s.lock = none then some { s with lock := some none, frames := .c7 :: fs } else none
    | .c7 => some { s with frames := .c8 s.head :: fs }
    | .c8 se => some { s with lock := none, frames := .loop se :: fs }
    | .loop none => some { s with frames := fs }
    | .loop (some a) =>
      match s.heap a with
      | none => some s.crash
      | some r =>
        if r.filled then some { s with started := s.started ++ [r.post], frames := .run a r.isExec :: fs }
        else some s.crash
    | .run a e =>
      match s.heap a with
      | none => some s.crash
      | some r =>
        some { (s.put a (if e then { r with rc := some x } else { r with filled := false })) with
          finished := s.finished ++ [(r.post, x)], frames := .c9 a e :: fs }
    | .c9 a e => if s.lock = none then some { s with lock := some none, frames := .c10 a e :: fs } else none
    | .c10 a e =>
      match s.heap a with
      | none => some s.crash
      | some r => some { s with head := r.next, frames := .c11 a e :: fs }
    | .c11 a e =>
      if e then some { s with frames := .c12 a e :: fs }
      else match s.heap a with
        | none => some s.crash
        | some _ => some { s.free a with frames := .c12 a e :: fs }
    | .c12 a e => some { s with frames := .c13 a e s.head :: fs }
    | .c13 a e se => some { s with lock := none, frames := .c14 a e se :: fs }
    | .c14 a e se =>
      if e then
        match s.heap a with
        | none => some s.crash
        | some r => some { (s.put a { r with isExec := false }) with frames := .loop se :: fs }
      else some { s with frames := .loop se :: fs }

/-- A failed lock (only with the option `lockTimeout`): the callback returns an error, 2366, 2377, 2382,
2428. -/
def giveUp {M R} (s : St M R) : Option (St M R) :=
  match s.frames with
  | .c1 :: fs => some { s with frames := fs }
  | .c4 :: fs => some { s with frames := fs }
  | .c6 :: fs => some { s with frames := fs }
  | .c9 _ _ :: fs => some { s with frames := fs }
  | _ => none

/-- The records that deleting the interpreter frees, src/jsiInterp.c:1909-1917, following `next`. -/
def freeAll {M R} : Nat → Option Nat → St M R → St M R
  | 0, _, s => s
  | _, none, s => s
  | n+1, some a, s =>
    match s.heap a with
    | none => s.crash
    | some r => freeAll n r.next (s.free a)

/-- What can happen next. -/
inductive Lab (M R : Type) where
  /-- thread `t` begins `sub.call(...)`, or `sub.eval(...)` for which it waits -/
  | post (t : Nat) (m : M) (sync : Bool)
  /-- thread `t` begins `sub.eval(text, true)` -/
  | eval (t : Nat) (text : List UInt8)
  /-- thread `t` does its next statement -/
  | prod (t : Nat)
  /-- the owner, which does nothing else, begins `SubInterpEvalCallback` -/
  | start
  /-- the owner does its next statement -/
  | cons (x : R)
  /-- a body that is carried out makes its own thread begin another `SubInterpEvalCallback`
  (`sub.call` from a function that `sub` called as an alias, 2574-2577; in `update()` the flag `busy`
  of the event prevents it, src/jsiCmds.c:284-286) -/
  | nest
  /-- a lock fails -/
  | timeout
  /-- the interpreter is deleted -/
  | delete
  deriving DecidableEq

/-- One step; `none`: not possible now. -/
def step {M R} (s : St M R) : Lab M R → Option (St M R)
  | .post t m b =>
    match s.prods t with
    | .idle => some (s.setP t (.want m b))
    | _ => none
  | .eval t x =>
    match s.prods t with
    | .idle => if x = [] then some s else some (s.setP t (.evWant x))
    | _ => none
  | .prod t => stepP s t
  | .start => match s.frames with
    | [] => some { s with frames := [.c1], since := s.posted }
    | _ => none
  | .cons x => stepC s x
  | .nest => match s.frames with
    | .run a e :: fs => some { s with frames := .c1 :: .run a e :: fs }
    | _ => none
  | .timeout => giveUp s
  | .delete => match s.frames with
    | [] => some { freeAll s.fresh s.head s with head := none }
    | _ => none

/-- A schedule; steps that are not possible are skipped. -/
def run {M R} (s : St M R) : List (Lab M R) → St M R
  | [] => s
  | l :: r => run ((step s l).getD s) r

end Verif.Queue
