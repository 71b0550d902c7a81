import Verif.Hash.Model

/-! Specification: a finite map as a function, and what each operation does to it. -/

namespace Verif.Hash

variable {K V : Type} [DecidableEq K]

/-- The map after one operation: `set` stores, `new` stores the null value `z` unless the key is
there, `unset` removes. -/
def specStep (z : V) (m : K → Option V) : Op K V → (K → Option V)
  | .new k => fun x => if x = k then some ((m k).getD z) else m x
  | .set k v => fun x => if x = k then some v else m x
  | .unset k => fun x => if x = k then none else m x

/-- The map after a history. -/
def specRun (z : V) (ops : List (Op K V)) : K → Option V :=
  ops.foldl (specStep z) (fun _ => none)

/-- The table `t` presents the map `m` to its users: lookups give the stored value, a full search
visits every key of the map exactly once, with its value, and the size is the number of keys. -/
structure Presents (o : KeyOps K) (t : Tbl K V) (m : K → Option V) : Prop where
  lookup : ∀ k, get o t k = m k
  search : ∀ k v, m k = some v ↔ ∃ e ∈ searchAll t, e.key = k ∧ e.val = v
  once : ((searchAll t).map (·.key)).Nodup
  size : size t = (searchAll t).length

end Verif.Hash
