import Verif.Basic
/-!
# The range of Info.completions (C212)

`InfoCompletionsCmd` (src/jsiCmds.c 3641-3686) up to the text it completes.  The search in the tables, which takes this text with `*` behind it as a
pattern, is not modelled here (see C40 and the claims on `Info`).
-/
namespace Verif.Complete

/-- `start` and `end` for a text of `n` bytes; arguments are whole numbers that fit an `int`.  src/jsiCmds.c:3647-3657. -/
def first (n : Int) : Option Int → Int
  | none => 0
  | some x => if (if x < 0 then 0 else x) ≥ n then n - 1 else if x < 0 then 0 else x

/-- src/jsiCmds.c:3647, 3658-3665. -/
def last (n : Int) : Option Int → Int
  | none => n - 1
  | some x => if (if x < 0 then n - 1 else x) ≥ n then n - 1 else if x < 0 then n - 1 else x

def upToNul (s : List UInt8) : List UInt8 := s.takeWhile (fun c => c != 0)

/-- `Jsi_DSAppendLen(&dStr, str + start, len)` on an empty `dStr`; `none`: bytes outside the text and its NUL are read.  src/jsiDString.c:93-114. -/
def append (s : List UInt8) (start len : Int) : Option (List UInt8) :=
  if start < 0 ∨ (s.length : Int) < start then none
  else if len < 0 then some (upToNul (s.drop start.toNat))
  else if start + len ≤ s.length + 1 then some (((s ++ [0]).drop start.toNat).take len.toNat)
  else none

/-- `substr[k] = 0` where `substr` is `t` and a NUL, then `substr` as a C string; `none`: the byte is outside. -/
def endAt (t : List UInt8) (k : Int) : Option (List UInt8) :=
  if k < 0 ∨ (t.length : Int) < k then none else some (upToNul (t.set k.toNat 0))

/-- The text that is completed; `none`: something outside the texts is read or written.  src/jsiCmds.c:3668-3686. -/
def stem (s : List UInt8) (a b : Option Int) : Option (List UInt8) :=
  match append s (first s.length a) (last s.length b - first s.length a + 1) with
  | none => none
  | some t => endAt (t ++ [42]) (last s.length b - first s.length a + 1)

end Verif.Complete
