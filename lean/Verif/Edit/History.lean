import Verif.Basic
/-!
# The history of the line editor (C211)

`linenoiseHistoryAdd`, `linenoiseHistorySetMaxLen`, `linenoiseHistorySave`, `linenoiseHistoryLoad`, `linenoiseEditHistoryNext` (src/linenoise.c 700-720,
790-817, 1100-1199).  The array of the history is a list with the **newest line first**: `history[history_len - 1 - k]` is the entry `k` of it.
Copies that fail for want of memory are not modelled.
-/
namespace Verif.Edit

abbrev Line := List UInt8

/-- `linenoiseHistoryAdd`.  src/linenoise.c:1100-1127. -/
def histAdd (max : Nat) (h : List Line) (s : Line) : List Line :=
  if max = 0 then h
  else if h.head? = some s then h
  else if h.length = max then s :: h.dropLast
  else s :: h

/-- `linenoiseHistorySetMaxLen`: the history after it; `history_max_len` is then `n`.  src/linenoise.c:1133-1159. -/
def histSetMax (n : Nat) (h : List Line) : List Line := if n < 1 then h else h.take n

/-- The file of `linenoiseHistorySave`, the oldest line first.  src/linenoise.c:1172-1173. -/
def histSave (h : List Line) : List UInt8 := h.reverse.flatMap fun s => s ++ [10]

/-- `fgets` with room for `n` bytes: them, and the rest of the file. -/
def fgets : Nat → List UInt8 → List UInt8 × List UInt8
  | 0, s => ([], s)
  | _ + 1, [] => ([], [])
  | n + 1, c :: s => if c = 10 then ([10], s) else (c :: (fgets n s).1, (fgets n s).2)

/-- The text up to the first `c`. -/
def cut (c : UInt8) (s : List UInt8) : List UInt8 := s.takeWhile (fun x => x != c)

/-- A line that was read, without its end.  src/linenoise.c:1192-1194. -/
def chop (b : List UInt8) : Line := if 13 ∈ cut 0 b then cut 13 (cut 0 b) else cut 10 (cut 0 b)

/-- `linenoiseHistoryLoad`, with `room` = `LINENOISE_MAX_LINE - 1` bytes for a line; at most `fuel` lines.  src/linenoise.c:1189-1196. -/
def histLoad (room max : Nat) : Nat → List UInt8 → List Line → List Line
  | 0, _, h => h
  | _ + 1, [], h => h
  | fuel + 1, f, h => histLoad room max fuel (fgets room f).2 (histAdd max h (chop (fgets room f).1))

/-- While a line is edited: the history with the present entry in front, where we are in it, and the line. -/
structure Ses where
  h : List Line
  idx : Nat
  line : Line
deriving DecidableEq

/-- `linenoiseEdit` begins.  src/linenoise.c:784-792. -/
def sesStart (max : Nat) (h : List Line) : Ses := ⟨histAdd max h [], 0, []⟩

/-- What one does: older, newer, and whatever other keys make of the line (C210). -/
inductive Act where
  | up
  | down
  | edit (t : Line)

/-- The entry `i`, cut to the buffer.  src/linenoise.c:715-717. -/
def entry (size : Nat) (h : List Line) (i : Nat) : Line := (h[i]?.getD []).take (size - 1)

/-- `linenoiseEditHistoryNext`, and other keys.  src/linenoise.c:700-720. -/
def act (size : Nat) (s : Ses) : Act → Ses
  | .up =>
    if 1 < s.h.length then
      if s.h.length ≤ s.idx + 1 then ⟨s.h.set s.idx s.line, s.h.length - 1, s.line⟩
      else ⟨s.h.set s.idx s.line, s.idx + 1, entry size (s.h.set s.idx s.line) (s.idx + 1)⟩
    else s
  | .down =>
    if 1 < s.h.length then
      if s.idx = 0 then ⟨s.h.set s.idx s.line, 0, s.line⟩
      else ⟨s.h.set s.idx s.line, s.idx - 1, entry size (s.h.set s.idx s.line) (s.idx - 1)⟩
    else s
  | .edit t => { s with line := t }

/-- The history after Enter.  src/linenoise.c:816-817. -/
def enter (s : Ses) : List Line := s.h.tail

/-! ## What it should be -/

/-- The lines without those that are the same as the one next to them. -/
def runs : List Line → List Line
  | [] => []
  | s :: l => if l.head? = some s then runs l else s :: runs l

/-- The texts one has before oneself, and which of them is in the editor. -/
def wantAct : List Line × Nat → Act → List Line × Nat
  | (e, i), .up => (e, min (i + 1) (e.length - 1))
  | (e, i), .down => (e, i - 1)
  | (e, i), .edit t => (e.set i t, i)

/-- Every text typed is shorter than the buffer. -/
def short (size : Nat) (as : List Act) : Prop := ∀ t, .edit t ∈ as → t.length < size

end Verif.Edit
