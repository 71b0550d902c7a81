import Verif.Dict.Model
import Mathlib.Data.List.Lex

/-!
What a dictionary order is, written independently of the code: a string is cut into numbers (maximal runs of
digits) and single characters; numbers are ordered by value, characters without regard to case; only if that
does not decide, the first number with fewer leading zeros, or the first capital letter, comes first.
-/

namespace Verif.Dict

/-- The value of a run of digits. -/
def value (p : List UInt8) : Nat := p.foldl (fun n c => 10 * n + (c.toNat - 48)) 0

/-- Superfluous zeros in front of a number. -/
def zeros : List UInt8 → Nat
  | [] => 0
  | [_] => 0
  | a :: b :: t => if a = 48 then zeros (b :: t) + 1 else 0

/-- A character without its case. -/
def fold (c : UInt8) : Nat := if upper c then c.toNat + 32 else c.toNat

/-- The pieces of a string: what decides first and what decides last. A number is in the place of the digits
among the characters. -/
def toks : List UInt8 → List (List Nat × Nat)
  | [] => []
  | c :: t =>
    if digit c then
      ([48, value ((c :: t).takeWhile digit)], zeros ((c :: t).takeWhile digit)) :: toks (t.dropWhile digit)
    else ([fold c], if upper c then 0 else 1) :: toks t
termination_by s => s.length
decreasing_by
  · have := (List.dropWhile_sublist (p := digit) (l := t)).length_le
    simp; omega
  · simp

def first (s : List UInt8) : List (List Nat) := (toks s).map (·.1)
def second (s : List UInt8) : List Nat := (toks s).map (·.2)

/-- The dictionary order. -/
def Before (s t : List UInt8) : Prop := first s < first t ∨ (first s = first t ∧ second s < second t)

/-- The strings on which the code follows it: no comma, and none of the six characters between `Z` and `a`
(`[ \ ] ^ _` and backquote); C strings contain no NUL. -/
def Plain (s : List UInt8) : Prop := ∀ c ∈ s, c ≠ 0 ∧ c ≠ 44 ∧ ¬ (91 ≤ c.toNat ∧ c.toNat ≤ 96)

end Verif.Dict
