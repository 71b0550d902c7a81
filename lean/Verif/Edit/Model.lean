import Verif.Basic
/-!
# The line editor (C210)

The keys of `linenoiseEdit` (src/linenoise.c 636-663, 665-693, 724-764, 768-951) on its buffer.  Not modelled: drawing, completion, the keys of the
history, Ctrl-C, and what follows an escape that is not known.
-/
namespace Verif.Edit

/-- The buffer: `size` bytes and one for the end; `bad`: a byte outside was read or written. -/
structure St where
  mem : Nat → UInt8
  len : Nat
  pos : Nat
  size : Nat
  bad : Bool

def upd (f : Nat → UInt8) (n : Nat) (c : UInt8) : Nat → UInt8 := fun i => if i = n then c else f i

/-- `buf[n] = c`. -/
def put (s : St) (n : Nat) (c : UInt8) : St := { s with mem := upd s.mem n c, bad := s.bad || !decide (n < s.size + 1) }

/-- `memmove(buf + d, buf + a, n)`. -/
def move (s : St) (d a n : Nat) : St :=
  { s with mem := fun i => if d ≤ i ∧ i < d + n then s.mem (i - d + a) else s.mem i,
           bad := s.bad || !decide (d + n ≤ s.size + 1) || !decide (a + n ≤ s.size + 1) }

/-- `linenoiseEditInsert`.  src/linenoise.c:638-663. -/
def insert (s : St) (c : UInt8) : St :=
  if s.len < s.size then
    if s.len = s.pos then put { put s s.pos c with pos := s.pos + 1, len := s.len + 1 } (s.len + 1) 0
    else put { put (move s (s.pos + 1) s.pos (s.len - s.pos)) s.pos c with len := s.len + 1, pos := s.pos + 1 } (s.len + 1) 0
  else s

/-- `linenoiseEditMoveLeft`.  src/linenoise.c:665-670. -/
def left (s : St) : St := if 0 < s.pos then { s with pos := s.pos - 1 } else s

/-- `linenoiseEditMoveRight`.  src/linenoise.c:673-678. -/
def right (s : St) : St := if s.pos ≠ s.len then { s with pos := s.pos + 1 } else s

/-- `linenoiseEditMoveHome`.  src/linenoise.c:681-686. -/
def home (s : St) : St := if s.pos ≠ 0 then { s with pos := 0 } else s

/-- `linenoiseEditMoveEnd`.  src/linenoise.c:689-694. -/
def toEnd (s : St) : St := if s.pos ≠ s.len then { s with pos := s.len } else s

/-- `linenoiseEditDelete`.  src/linenoise.c:724-731. -/
def delete (s : St) : St :=
  if 0 < s.len ∧ s.pos < s.len then put { move s s.pos (s.pos + 1) (s.len - s.pos - 1) with len := s.len - 1 } (s.len - 1) 0 else s

/-- `linenoiseEditBackspace`.  src/linenoise.c:734-742. -/
def backspace (s : St) : St :=
  if 0 < s.pos ∧ 0 < s.len then
    put { move s (s.pos - 1) s.pos (s.len - s.pos) with pos := s.pos - 1, len := s.len - 1 } (s.len - 1) 0
  else s

/-- Back over these bytes. -/
def back (p : UInt8 → Bool) (m : Nat → UInt8) : Nat → Nat
  | 0 => 0
  | n + 1 => if p (m n) then back p m n else n + 1

/-- Where the word before starts.  src/linenoise.c:750-753. -/
def wordStart (s : St) : Nat := back (fun c => c != 32) s.mem (back (fun c => c == 32) s.mem s.pos)

/-- `linenoiseEditDeletePrevWord`.  src/linenoise.c:746-758. -/
def deleteWord (s : St) : St :=
  { move s (wordStart s) s.pos (s.len - s.pos + 1) with pos := wordStart s, len := s.len - (s.pos - wordStart s) }

/-- Ctrl-T.  src/linenoise.c:845-853. -/
def swap (s : St) : St :=
  if 0 < s.pos ∧ s.pos < s.len then
    { put (put s (s.pos - 1) (s.mem s.pos)) s.pos (s.mem (s.pos - 1)) with pos := if s.pos ≠ s.len - 1 then s.pos + 1 else s.pos }
  else s

/-- Ctrl-U.  src/linenoise.c:924-928. -/
def clear (s : St) : St := { put s 0 0 with pos := 0, len := 0 }

/-- Ctrl-K.  src/linenoise.c:929-933. -/
def kill (s : St) : St := { put s s.pos 0 with len := s.pos }

/-- A key.  src/linenoise.c:813-948. -/
inductive Key where
  | char (c : UInt8)
  | left
  | right
  | home
  | toEnd
  | delete
  | backspace
  | deleteWord
  | swap
  | clear
  | kill

def press (s : St) : Key → St
  | .char c => insert s c
  | .left => left s
  | .right => right s
  | .home => home s
  | .toEnd => toEnd s
  | .delete => delete s
  | .backspace => backspace s
  | .deleteWord => deleteWord s
  | .swap => swap s
  | .clear => clear s
  | .kill => kill s

/-- At first; `m`: what was in the buffer.  src/linenoise.c:772-791. -/
def start (m : Nat → UInt8) (size : Nat) : St := put ⟨m, 0, 0, size, false⟩ 0 0

/-- What `Enter` gives.  src/linenoise.c:815-827. -/
def line (s : St) : List UInt8 := (List.range s.len).map s.mem

/-! ## What it should be: a text before and a text after the cursor -/

abbrev Text := List UInt8 × List UInt8

/-- The text before the last word of it. -/
def beforeWord (l : List UInt8) : List UInt8 := ((l.reverse.dropWhile (fun c => c == 32)).dropWhile (fun c => c != 32)).reverse

def want (size : Nat) : Text → Key → Text
  | (l, r), .char c => if l.length + r.length < size then (l ++ [c], r) else (l, r)
  | (l, r), .left => (l.dropLast, l.getLast?.toList ++ r)
  | (l, r), .right => (l ++ r.head?.toList, r.tail)
  | (l, r), .home => ([], l ++ r)
  | (l, r), .toEnd => (l ++ r, [])
  | (l, r), .delete => (l, r.tail)
  | (l, r), .backspace => (l.dropLast, r)
  | (l, r), .deleteWord => (beforeWord l, r)
  | (l, r), .swap =>
    match l.getLast?, r with
    | some a, [b] => (l.dropLast ++ [b], [a])
    | some a, b :: d :: r => (l.dropLast ++ [b, a], d :: r)
    | _, _ => (l, r)
  | _, .clear => ([], [])
  | (l, _), .kill => (l, [])

end Verif.Edit
