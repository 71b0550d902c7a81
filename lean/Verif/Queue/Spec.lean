import Verif.Queue.Model

/-! What is expected of the queues. -/

namespace Verif.Queue

variable {M R : Type}

/-- The steps of ordinary use: no nested callback, no failing lock, the interpreter is not deleted. -/
def Lab.good : Lab M R → Bool
  | .nest => false
  | .timeout => false
  | .delete => false
  | _ => true

/-- The message whose sending begins with a step, if that step is possible. -/
def begun (s : St M R) (l : Lab M R) : List (Post M) :=
  match l, step s l with
  | .post t m b, some _ => [⟨t, m, b⟩]
  | _, _ => []

/-- The messages that are sent during a schedule, in the order in which the calls begin. -/
def calls (s : St M R) : List (Lab M R) → List (Post M)
  | [] => []
  | l :: r => begun s l ++ calls ((step s l).getD s) r

/-- Those of thread `t`. -/
def ofThread (t : Nat) (l : List (Post M)) : List (Post M) := l.filter (fun p => p.who == t)

/-- Those of thread `t` for which it waits. -/
def awaited (t : Nat) (l : List (Post M)) : List (Post M) := l.filter (fun p => p.who == t && p.sync)

/-- The text whose sending (`sub.eval(text, true)`) begins with a step. -/
def begunText (s : St M R) (l : Lab M R) : List (Nat × List UInt8) :=
  match l, step s l with
  | .eval t x, some _ => if x = [] then [] else [(t, x)]
  | _, _ => []

/-- The texts that are sent during a schedule; an empty text is not sent (src/jsiInterp.c:2117). -/
def evals (s : St M R) : List (Lab M R) → List (Nat × List UInt8)
  | [] => []
  | l :: r => begunText s l ++ evals ((step s l).getD s) r

/-- Those of thread `t`. -/
def textsOf (t : Nat) (l : List (Nat × List UInt8)) : List (Nat × List UInt8) := l.filter (fun p => p.1 == t)

/-- Texts with semicolons between them. -/
def semis : List (List UInt8) → List UInt8
  | [] => []
  | [t] => t
  | t :: ts => t ++ 59 :: semis ts

end Verif.Queue
