/-!
Model of the timers of src/jsiCmds.c: `setTimeout`, `setInterval`, `clearInterval` (441-517),
`Jsi_EventProcess` (239-335), `Jsi_EventFree` (205-215), `freeEventTbl` (src/jsiInterp.c:564-572) and the loop
of `update` (410-433).

Time is counted in milliseconds (`gettimeofday`, 195-203); it is assumed not to go backwards.  The program is
a transition system: between two steps anything may happen that a script can do, so a callback is any
sequence of steps.  The table of events is a function from identifiers to events; the order in which the search
visits entries is left open (any order), but for one thing: while an entry is handled, the search already
holds a pointer to the next entry of the same bucket (src/jsiHash.c:557-585).

Not modelled: signal and "always" events, handlers in C, `maxEvents`, errors in callbacks, deletion of the
interpreter, the wrap-around of the event counter, the parent's events (332-333).
-/

namespace Verif.Timer

/-- The fields of `Jsi_Event` that matter here; `once` is set by `setTimeout`. -/
structure Ev where
  whenSec : Nat
  whenMs : Nat
  initialms : Nat
  once : Bool
  busy : Bool
deriving DecidableEq, Repr

/-- src/jsiCmds.c:468-475 and 313-319: when an event is due that is set at time `t`. -/
def schedule (t ms : Nat) : Nat × Nat :=
  let sec := t / 1000 + ms / 1000
  let m := t % 1000 + ms % 1000
  if m ≥ 1000 then (sec + 1, m - 1000) else (sec, m)

/-- src/jsiCmds.c:270-274: the event is left alone; `cur` is the time read when the processing began. -/
def notDue (cur : Nat) (e : Ev) : Bool :=
  (decide (cur / 1000 ≤ e.whenSec) && (decide (cur / 1000 ≠ e.whenSec) || decide (cur % 1000 < e.whenMs))) &&
    (decide (e.whenSec ≠ 0) && decide (e.whenMs ≠ 0))

/-- A call of `Jsi_EventProcess` that has not returned: `cur_sec`, `cur_ms`; `newIdx`; the event whose callback
is running; the entry the search will look at next, if it is in the same bucket. -/
structure Frame where
  cur : Nat
  newIdx : Nat
  running : Option Nat
  next : Option Nat
deriving DecidableEq, Repr

/-- What happened, for the statements. -/
inductive Act where
  /-- `setTimeout` or `setInterval` at time `t` returned `id`. -/
  | set (id : Nat) (once : Bool) (ms t : Nat)
  /-- The callback of `id` was called at time `t`, in an event processing begun at `cur`. -/
  | run (id cur t : Nat)
  /-- `clearInterval(id)` succeeded. -/
  | clear (id : Nat)
deriving DecidableEq, Repr

/-- The state: `eventIdx`, the table, the calls of `Jsi_EventProcess`, the time, the history (the last act
first). -/
structure State where
  idx : Nat
  table : Nat → Option Ev
  frames : List Frame
  now : Nat
  log : List Act

/-- The start of an interpreter at time `t`. -/
def init (t : Nat) : State := ⟨0, fun _ => none, [], t, []⟩

/-- The table with the entry of `id` changed. -/
def upd (f : Nat → Option Ev) (id : Nat) (e : Option Ev) : Nat → Option Ev := fun j => if j = id then e else f j

/-- A script runs: at the top level, or in a callback. -/
def scripting (s : State) : Prop :=
  match s.frames with
  | [] => True
  | f :: _ => f.running ≠ none

/-- src/jsiCmds.c:441-480  `intervalTimer`. -/
def setTimer (s : State) (once : Bool) (ms : Nat) : State :=
  let id := s.idx + 1
  let w := schedule s.now ms
  { s with idx := id, table := upd s.table id (some ⟨w.1, w.2, ms, once, false⟩), log := .set id once ms s.now :: s.log }

/-- src/jsiCmds.c:489-508  `clearIntervalCmd` for an `id` in the table. -/
def clearTimer (s : State) (id : Nat) : State := { s with table := upd s.table id none, log := .clear id :: s.log }

/-- src/jsiCmds.c:239-253: the processing begins. -/
def enter (s : State) : State := { s with frames := ⟨s.now, s.idx, none, none⟩ :: s.frames }

/-- src/jsiCmds.c:285-297: the callback of `id` is called, `next` being what the search holds. -/
def start (s : State) (f : Frame) (fs : List Frame) (id : Nat) (e : Ev) (next : Option Nat) : State :=
  { s with table := upd s.table id (some { e with busy := true })
           frames := { f with running := some id, next := next } :: fs
           log := .run id f.cur s.now :: s.log }

/-- src/jsiCmds.c:298-319: the callback of `id` has returned. -/
def finish (s : State) (f : Frame) (fs : List Frame) (id : Nat) (e : Ev) : State :=
  let w := schedule f.cur e.initialms
  let e' : Option Ev := if e.once then none else some { e with busy := false, whenSec := w.1, whenMs := w.2 }
  { s with table := upd s.table id e', frames := { f with running := none } :: fs }

/-- The steps; `bucket` says in which bucket an identifier is. -/
inductive Step (bucket : Nat → Nat) : State → State → Prop
  /-- Time passes. -/
  | tick (s : State) (t : Nat) : s.now ≤ t → Step bucket s { s with now := t }
  /-- `setTimeout`, `setInterval`. -/
  | set (s : State) (once : Bool) (ms : Nat) : scripting s → Step bucket s (setTimer s once ms)
  /-- `clearInterval`. -/
  | clear (s : State) (id : Nat) : scripting s → s.table id ≠ none → Step bucket s (clearTimer s id)
  /-- `update` begins a pass over the events. -/
  | enter (s : State) : scripting s → Step bucket s (enter s)
  /-- The search comes to `id` and its callback is called.  It does not come to an entry it held that is no
  longer there: see `Crash`. -/
  | visit (s : State) (f : Frame) (fs : List Frame) (id : Nat) (e : Ev) (next : Option Nat) :
      s.frames = f :: fs → f.running = none → (∀ j, f.next = some j → id = j) →
      s.table id = some e → id ≤ f.newIdx → notDue f.cur e = false → e.busy = false →
      (∀ j, next = some j → j ≠ id ∧ s.table j ≠ none ∧ bucket j = bucket id) →
      Step bucket s (start s f fs id e next)
  /-- The search comes to `id` and leaves it alone. -/
  | skip (s : State) (f : Frame) (fs : List Frame) (id : Nat) (e : Ev) (next : Option Nat) :
      s.frames = f :: fs → f.running = none → (∀ j, f.next = some j → id = j) →
      s.table id = some e → (f.newIdx < id ∨ notDue f.cur e = true ∨ e.busy = true) →
      (∀ j, next = some j → j ≠ id ∧ s.table j ≠ none ∧ bucket j = bucket id) →
      Step bucket s { s with frames := { f with next := next } :: fs }
  /-- The callback returns. -/
  | finish (s : State) (f : Frame) (fs : List Frame) (id : Nat) (e : Ev) :
      s.frames = f :: fs → f.running = some id → s.table id = some e →
      Step bucket s (finish s f fs id e)
  /-- The pass ends. -/
  | leave (s : State) (f : Frame) (fs : List Frame) : s.frames = f :: fs → f.running = none → f.next = none →
      Step bucket s { s with frames := fs }

/-- Freed memory is used: the event whose callback returns has been freed (src/jsiCmds.c:298, 310), or the
entry the search holds has been (src/jsiHash.c:577-585). -/
inductive Crash (s : State) : Prop
  | ret (f : Frame) (fs : List Frame) (id : Nat) : s.frames = f :: fs → f.running = some id → s.table id = none → Crash s
  | search (f : Frame) (fs : List Frame) (id : Nat) : s.frames = f :: fs → f.running = none → f.next = some id →
      s.table id = none → Crash s

/-- The states an interpreter started at time `t0` can reach. -/
inductive Reach (bucket : Nat → Nat) (t0 : Nat) : State → Prop
  | init : Reach bucket t0 (init t0)
  | step (s s' : State) : Reach bucket t0 s → Step bucket s s' → Reach bucket t0 s'

/-! ### update -/

/-- src/jsiCmds.c:424-428: the time that has passed, as the loop counts it. -/
def diftime (start cur : Nat) : Int :=
  if cur / 1000 = start / 1000 then (cur % 1000 : Nat) - (start % 1000 : Nat)
  else ((cur / 1000 : Nat) - (start / 1000 : Nat) : Int) * 1000 + (cur % 1000 : Nat) + (1000 - (start % 1000 : Nat))

/-- The loop of src/jsiCmds.c:410-433 for `minTime > 0` without `maxPasses`; `clock k` is the time read after the
`k`-th pass.  The result is the number of the pass after which `update` returns; `none`: it does not within
`fuel` passes. -/
def updateLoop (minTime start : Nat) (clock : Nat → Nat) : Nat → Nat → Option Nat
  | 0, _ => none
  | fuel + 1, k => if diftime start (clock k) ≥ minTime then some k else updateLoop minTime start clock fuel (k + 1)

end Verif.Timer
