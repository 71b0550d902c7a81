import Verif.Tree.Model
import Mathlib.Data.Nat.Log

/-! Specification of ordered trees: a sorted finite map, and red-black trees. -/

namespace Verif.Tree

variable {K V : Type}

/-- A comparison function that is a total order. -/
structure IsOrder (cmp : K → K → Int) : Prop where
  eq : ∀ a b, cmp a b = 0 ↔ a = b
  anti : ∀ a b, cmp a b < 0 ↔ 0 < cmp b a
  trans : ∀ a b c, cmp a b < 0 → cmp b c < 0 → cmp a c < 0

/-- The tree presents the map `m`: lookups give the stored value; the in-order walk visits exactly the
keys of the map, with their values, in strictly ascending order; the size is the number of keys. -/
structure Presents (cmp : K → K → Int) (t : Tree K V) (m : K → Option V) : Prop where
  lookup : ∀ k, get cmp t k = m k
  mem : ∀ k v, m k = some v ↔ ∃ e ∈ t.root.walk, e.key = k ∧ e.val = v
  sorted : t.root.walk.Pairwise (fun a b => cmp a.key b.key < 0)
  size : size t = t.root.walk.length

/-- No red node has a red child. -/
def NoRedRed : T K V → Prop
  | .nil => True
  | .node c l _ r => (c = .red → l.color = .black ∧ r.color = .black) ∧ NoRedRed l ∧ NoRedRed r

/-- The number of black nodes on each path from the root to a NULL pointer. -/
def blackCounts : T K V → List Nat
  | .nil => [0]
  | .node c l _ r => (blackCounts l ++ blackCounts r).map (· + if c = .black then 1 else 0)

/-- The red-black conditions. -/
structure IsRedBlack (t : T K V) : Prop where
  root : t.color = .black
  noRedRed : NoRedRed t
  balanced : ∃ n, ∀ x ∈ blackCounts t, x = n

end Verif.Tree
