import Verif.Obj.KeysVar

/-! C79, C80: cases, and where the claims fail. -/

namespace Verif.Obj

/-- `p = {x: 1}; o = Object.create(p); o.b = 1; o.a = 1; a = [1]; a[2] = 1` -/
def hLoop : List Op :=
  [.lit 2 (num 1), .mk 0 [(asc "x", 2)], .create 1 0 [], .put 1 (key "b") 2, .put 1 (key "a") 2, .mkArr 3 [2], .put 3 (.n 2) 2]

/-- The state after a history. -/
def after (n : Nat) (h : List Op) : St := ((run E0 (start n) h).map (·.1)).getD (start 0)

example : run E0 (start 5) hLoop = some (after 5 hLoop, List.replicate 7 true) := by decide +kernel
example : fineRun true E0 (sstart 5) hLoop = true := by decide +kernel
example : ∀ op ∈ hLoop, op.kind ≠ .setProto ∧ op.kind ≠ .apply := by decide +kernel
example : namesOf (after 5 hLoop) 3 = some [asc "a", asc "b", asc "x"] ∧ lenOf (after 5 hLoop) 3 = none ∧
    3 < (after 5 hLoop).objs.length := by decide +kernel

/-- A body that counts and adds properties (`o.c = 1; o.x = 1`). -/
def bAdd : St → List Op := fun _ => [.incVar 2, .put 1 (key "c") 2, .put 1 kx 2]
/-- A body that deletes `b`. -/
def bDel : St → List Op := fun _ => [.del 1 (key "b")]

example : ∀ s, noLoss (bAdd s) := by
  intro s op hop
  simp only [bAdd, List.mem_cons, List.not_mem_nil, or_false] at hop
  rcases hop with rfl | rfl | rfl <;> exact ⟨(fun e => by cases e), (fun e => by cases e)⟩
example : (forNames E0 4 3 bAdd [asc "a", asc "b", asc "x"] (after 5 hLoop) []).vis = [asc "a", asc "b", asc "x"] := by decide +kernel
example : (forNames E0 4 3 bDel [asc "a", asc "b", asc "x"] (after 5 hLoop) []).vis = [asc "a", asc "x"] := by decide +kernel
example : lenOf (after 5 hLoop) 4 = some 3 ∧ keysOf (after 5 hLoop) 4 = .nums [0, 2] := by decide +kernel
example : (forElems E0 4 4 false (fun _ => [.incVar 2]) 3 0 (after 5 hLoop) []).vis = [0, 2] := by decide +kernel
example : hasOwn (after 5 hLoop) 3 (key "a") = true ∧ hasOwn (after 5 hLoop) 3 kx = false ∧ hasOwn (after 5 hLoop) 4 (.n 1) = false ∧
    hasOwn (after 5 hLoop) 4 (.n 2) = true := by decide +kernel
example : inOp (after 5 hLoop) 4 (.n 2) = true ∧ inOp (after 5 hLoop) 4 (.n 1) = false ∧ inName (.n 2) = (Key.n 2).name ∧
    canon (Key.n 2).name = true := by decide +kernel

example : noAlias hLoop ∧ ∀ s, noAlias (bAdd s) := by
  refine ⟨by unfold noAlias; decide +kernel, fun s op hop => ?_⟩
  simp only [bAdd, List.mem_cons, List.not_mem_nil, or_false] at hop
  rcases hop with rfl | rfl | rfl <;> exact ⟨(fun e => by cases e), (fun e => by cases e)⟩

/-- C79: names come in the order of their bytes, not in the order they were added; `10` comes before `9`. -/
theorem C79_order_refuted :
    namesOf (after 5 [.lit 2 (num 1), .mk 0 [(asc "b", 2), (asc "a", 2), (asc "9", 2), (asc "10", 2)]]) 2 =
      some [asc "10", asc "9", asc "a", asc "b"] := by decide +kernel

/-- C79: named properties of arrays are left out, although they can be read. -/
theorem C79_array_names_refuted :
    keysOf (after 5 [.lit 2 (num 1), .mkArr 0 [2], .put 0 kx 2]) 2 = .nums [0] ∧
    seen 5 3 [.lit 2 (num 1), .mkArr 0 [2], .put 0 kx 2, .get 3 0 kx] = some (num 1) := by decide +kernel

/-- C79: with prototypes in a circle the loop never starts. -/
theorem C79_cycle_refuted :
    namesOf (after 4 [.lit 2 (num 7), .mk 0 [(asc "a", 2)], .mk 1 [(asc "b", 2)], .setProto 0 1, .setProto 1 0]) 2 = none := by
  decide +kernel

/-- C80: `in` does not see inherited properties. -/
theorem C80_in_inherited_refuted :
    inOp (after 5 hLoop) 3 kx = false ∧ seen 5 4 (hLoop ++ [.get 4 1 kx]) = some (num 1) := by decide +kernel

/-- C80: `in` does not see named properties of arrays, nor `length`. -/
theorem C80_in_array_refuted :
    inOp (after 5 [.lit 2 (num 1), .mkArr 0 [2], .put 0 kx 2]) 2 kx = false ∧
    inOp (after 5 [.lit 2 (num 1), .mkArr 0 [2]]) 2 (key "length") = false := by decide +kernel

/-- C80: every object says it has an own property `this`; an array has an own property `0abc`. -/
theorem C80_hasOwn_refuted :
    hasOwn (after 5 [.mk 0 []]) 2 (key "this") = true ∧
    hasOwn (after 5 [.lit 2 (num 1), .mkArr 0 [2]]) 2 (key "0abc") = true := by decide +kernel

/-- C80: `Object.keys` gives inherited properties, too. -/
theorem C80_keys_refuted :
    keysOf (after 5 hLoop) 3 = .names [asc "a", asc "b", asc "x"] ∧ hasOwn (after 5 hLoop) 3 kx = false := by decide +kernel

end Verif.Obj
