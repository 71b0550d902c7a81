import Verif.Timer.Model
/-!
What the history of an interpreter says about its timers.  Only the acts a script can see are used: timers set
(with the identifier returned), callbacks called, timers cleared.
-/
namespace Verif.Timer

/-- What was asked for when `id` was set: one-shot or not, and the delay. -/
def asked (id : Nat) : List Act → Option (Bool × Nat)
  | [] => none
  | .set i once ms _ :: l => if i = id then some (once, ms) else asked id l
  | _ :: l => asked id l

/-- The time before which the callback of `id` may not be called: the delay after it was set, or after the
beginning of the event processing that last called it. -/
def due (id : Nat) : List Act → Option Nat
  | [] => none
  | .set i _ ms t :: l => if i = id then some (t + ms) else due id l
  | .run i cur _ :: l => if i = id then (asked id l).map (fun p => cur + p.2) else due id l
  | .clear _ :: l => due id l

/-- How often the callback of `id` was called. -/
def runs (id : Nat) : List Act → Nat
  | [] => 0
  | .run i _ _ :: l => if i = id then runs id l + 1 else runs id l
  | _ :: l => runs id l

/-- How often `id` was given out. -/
def sets (id : Nat) : List Act → Nat
  | [] => 0
  | .set i _ _ _ :: l => if i = id then sets id l + 1 else sets id l
  | _ :: l => sets id l

/-- A script that clears timers and calls `update` only outside of timer callbacks. -/
def Calm (s s' : State) : Prop :=
  s.frames = [] ∨ (s'.frames.length ≤ s.frames.length ∧ ∀ id, Act.clear id ∈ s'.log → Act.clear id ∈ s.log)

/-- The states such scripts can reach. -/
inductive CalmReach (bucket : Nat → Nat) (t0 : Nat) : State → Prop
  | init : CalmReach bucket t0 (init t0)
  | step (s s' : State) : CalmReach bucket t0 s → Step bucket s s' → Calm s s' → CalmReach bucket t0 s'

end Verif.Timer
