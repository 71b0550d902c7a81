import Verif.Dict.Props
import Verif.Tree.Props

/-! String-keyed trees are ordered by the dictionary comparison (`StringCompare`, src/jsiTree.c:265-269). -/

namespace Verif.Dict
open Verif.Tree
open Hash (Op specStep specRun)

/-- **C16 refuted** for string keys in general: a tree in which only `"12"` was stored finds `"1,2"`. -/
theorem C16_string_refuted : ¬ ∀ (ops : List (Op (List UInt8) Nat)) t,
    run dictCmp .string 0 new ops = some t → ∀ k, get dictCmp t k = specRun 0 ops k := by
  intro h
  have h1 : (run dictCmp .string 0 new [.set (asc "12") 7]).isSome = true := by decide +kernel
  obtain ⟨t, ht⟩ := Option.isSome_iff_exists.1 h1
  have h2 := h _ t ht (asc "1,2")
  have h3 : (run dictCmp .string 0 new [.set (asc "12") 7]).bind (fun t => get dictCmp t (asc "1,2")) = some 7 := by
    decide +kernel
  rw [ht] at h3
  simp only [Option.bind_some] at h3
  rw [h3] at h2
  have h4 : specRun 0 [.set (asc "12") 7] (asc "1,2") = none := by decide +kernel
  rw [h4] at h2
  exact absurd h2 (by simp)

/-- The comparison on plain strings. -/
def plainCmp (a b : {s : List UInt8 // Plain s}) : Int := dictCmp a.1 b.1

theorem plain_order : IsOrder plainCmp where
  eq a b := by unfold plainCmp; rw [C22_zero_partial _ _ a.2 b.2]; exact ⟨Subtype.ext, fun h => by rw [h]⟩
  anti a b := by unfold plainCmp; have := C22_antisymmetric a.1 b.1; omega
  trans a b c := C22_transitive_partial _ _ _ a.2 b.2 c.2

/-- **C16** for string keys: with keys without commas and without the characters between `Z` and `a`, every
history gives the map of its operations. -/
theorem C16_string_plain_partial {V : Type} (z : V) (ops : List (Op {s : List UInt8 // Plain s} V)) :
    ∃ t, run plainCmp .string z new ops = some t ∧ Presents plainCmp t (specRun z ops) :=
  C16_map plain_order .string (by decide) z ops

end Verif.Dict
