import Verif.Queue.Props
import Verif.Lex.Model

/-! Concrete runs, and what goes wrong outside ordinary use. -/

namespace Verif.Queue

/-- A thread carries its call to the end, alone. -/
def sendP (t m : Nat) (b : Bool) : List (Lab Nat Nat) := .post t m b :: List.replicate 6 (.prod t)

/-- Thread 1 sends message 7 and waits, thread 2 sends 8, the owner empties the queue, thread 1 goes on. -/
def demo : List (Lab Nat Nat) :=
  sendP 1 7 true ++ sendP 2 8 false ++ [.eval 3 (asc "a"), .eval 4 (asc "b")] ++ List.replicate 3 (.prod 3) ++ List.replicate 3 (.prod 4) ++
    [.start] ++ List.replicate 30 (.cons 100) ++ [.prod 1, .prod 1]

theorem demo_good : ∀ l ∈ demo, l.good = true := by decide +kernel

theorem demo_started : (run (init Nat Nat) demo).started = [⟨1, 7, true⟩, ⟨2, 8, false⟩] := by decide +kernel
theorem demo_returned : (run (init Nat Nat) demo).returned = [(1, 100)] := by decide +kernel
theorem demo_idle : (run (init Nat Nat) demo).prods 1 = .idle := by decide +kernel
theorem demo_batches : (run (init Nat Nat) demo).batches = [asc "a;b"] := by decide +kernel
theorem demo_frames : (run (init Nat Nat) demo).frames = [] := by decide +kernel
theorem demo_calls : calls (init Nat Nat) demo = [⟨1, 7, true⟩, ⟨2, 8, false⟩] := by decide +kernel

/-- The theorems apply to it. -/
example : ofThread 1 (run (init Nat Nat) demo).started <+: [⟨1, 7, true⟩] := by
  have := C88_in_order_partial demo demo_good 1
  rw [demo_calls] at this; exact this

example : retOf (run (init Nat Nat) demo).returned 1 = (answers (run (init Nat Nat) demo).finished 1).map (·.2) :=
  (C89_all_answered_partial demo demo_good 1 demo_idle).2

/-- A nested callback carries out a message again whose body is still running, and the outer one then uses
the record that the inner one freed. -/
theorem C88_nested_refuted : ∃ ls : List (Lab Nat Nat), (∀ l ∈ ls, l.good = true ∨ l = .nest) ∧
    calls (init Nat Nat) ls = [⟨1, 7, false⟩] ∧ (run (init Nat Nat) ls).started = [⟨1, 7, false⟩, ⟨1, 7, false⟩] ∧
    (run (init Nat Nat) ls).fault = true :=
  ⟨sendP 1 7 false ++ [.start] ++ List.replicate 7 (.cons 0) ++ [.nest] ++ List.replicate 30 (.cons 0), by decide +kernel, by decide +kernel, by decide +kernel, by decide +kernel⟩

/-- A lock that fails after a body leaves the message in the queue; it is carried out again. -/
theorem C88_timeout_refuted : ∃ ls : List (Lab Nat Nat), (∀ l ∈ ls, l.good = true ∨ l = .timeout) ∧
    calls (init Nat Nat) ls = [⟨1, 7, true⟩] ∧ (run (init Nat Nat) ls).started = [⟨1, 7, true⟩, ⟨1, 7, true⟩] ∧
    (run (init Nat Nat) ls).returned = [(1, 6)] ∧ (run (init Nat Nat) ls).finished.map (·.2) = [5, 6] :=
  ⟨sendP 1 7 true ++ [.start] ++ List.replicate 8 (.cons 5) ++ [.timeout, .start] ++ List.replicate 30 (.cons 6) ++ [.prod 1, .prod 1],
    by decide +kernel, by decide +kernel, by decide +kernel, by decide +kernel, by decide +kernel⟩

/-- The same for a message for which nobody waits: its content is gone by then. -/
theorem C88_timeout_freed_refuted : ∃ ls : List (Lab Nat Nat), (∀ l ∈ ls, l.good = true ∨ l = .timeout) ∧
    (run (init Nat Nat) ls).fault = true :=
  ⟨sendP 1 7 false ++ [.start] ++ List.replicate 8 (.cons 5) ++ [.timeout, .start] ++ List.replicate 30 (.cons 6), by decide +kernel, by decide +kernel⟩

/-- Deleting the interpreter frees the record that a waiting thread looks at. -/
theorem C89_deleted_refuted : ∃ ls : List (Lab Nat Nat), (∀ l ∈ ls, l.good = true ∨ l = .delete) ∧
    (run (init Nat Nat) ls).fault = true ∧ (run (init Nat Nat) ls).returned = [] :=
  ⟨sendP 1 7 true ++ [.delete, .prod 1], by decide +kernel, by decide +kernel, by decide +kernel⟩

/-- Calls and asynchronous texts of one thread are not kept in order: here thread 1 sends a call, which is
complete, and then a text, and the text has been taken for evaluation while the call has not begun. -/
theorem C90_overtakes_refuted : ∃ ls ls' : List (Lab Nat Nat), (∀ l ∈ ls ++ ls', l.good = true) ∧
    (run (init Nat Nat) ls).posted = [⟨1, 7, false⟩] ∧ (run (init Nat Nat) ls).prods 1 = .idle ∧ (run (init Nat Nat) ls).texts = [] ∧
    (run (init Nat Nat) (ls ++ ls')).batches = [asc "x"] ∧ (run (init Nat Nat) (ls ++ ls')).started = [] :=
  ⟨sendP 1 7 false, [.eval 1 (asc "x"), .prod 1, .prod 1, .prod 1, .start, .cons 0, .cons 0, .cons 0], by decide +kernel, by decide +kernel, by decide +kernel, by decide +kernel,
    by decide +kernel, by decide +kernel⟩

/-- Texts that are joined are not always read as each of them alone: a comment that ends one of them hides the
next (whichever decimal numbers `strtod` accepts: none occurs). -/
theorem C90_comment_refuted : ∃ x y : List UInt8, x ≠ [] ∧ y ≠ [] ∧
    (Lex.lexAll (fun _ => true) y).1.length = 5 ∧
    (Lex.lexAll (fun _ => true) (semis [x, y])).1 = (Lex.lexAll (fun _ => true) x).1 :=
  ⟨asc "f() // c", asc "g();", by decide +kernel, by decide +kernel, by decide +kernel, by decide +kernel⟩

end Verif.Queue
