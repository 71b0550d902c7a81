import Verif.Obj.Local
import Verif.Obj.Demo

/-!
Cases that meet the hypotheses of the theorems, and the cases in which the claims fail.
-/

namespace Verif.Obj

variable {m : Bool} {E : Env}

/-- The length of an array. -/
def lenOf (s : St) (q : Nat) : Option Nat := (s.objs[q]?).bind obLen

theorem plainKey_dec {i : Nat} (h : i < 2 ^ 31) : plainKey (Json.decNat i) = true := by
  have hc : canon (Json.decNat i) = true := by rw [canon, indexKey_dec]; simpa using h
  have hk : Json.decNat i ≠ kThis := by
    intro e
    have := congrArg indexKey e
    rw [indexKey_dec] at this
    exact absurd this (by rw [show indexKey kThis = none by decide +kernel]; exact fun e => by cases e)
  simp [plainKey, hc, hk]

/-- C77: in a history of the second kind, `a[i] = y` gives the element at `i` the value, keeps all others, and the array
is then at least `i + 1` long. -/
theorem C77_array_put_partial (hmax : E.maxList ≤ 2 ^ 31) (n : Nat) (h : List Op) (a : Nat) (i y : Nat) {s : St} {bs : List Bool} {q len : Nat}
    (hf : fineRun true E (sstart n) (h ++ [.put a (.n i) y]) = true) (hr : run E (start n) h = some (s, bs))
    (hq : (s.var a).val = .obj q) (hl : lenOf s q = some len) :
    ∃ s', step E s (.put a (.n i) y) = .ok s' ∧ lenOf s' q = some (max len (i + 1)) ∧
      ∀ j, j < 2 ^ 31 → propOf s' q (Json.decNat j) = if j = i then some (s.var y).val else propOf s q (Json.decNat j) := by
  obtain ⟨t, hR, hfi, ha⟩ := last_step hmax hf hr
  have e : sstep E t (.put a (.n i) y) = some (t.set q (Json.decNat i) (t.var y), true) := by
    rw [sstep, ← hR.varVal, hq]
    simp only [sObj]
    rfl
  rw [e] at ha
  cases e2 : step E s (.put a (.n i) y) with
  | crash => rw [e2] at ha; exact ha.elim
  | err s' => rw [e2] at ha; exact ha.elim
  | ok s' =>
    rw [e2] at ha
    have h3 : R true E s' (t.set q (Json.decNat i) (t.var y)) := ha
    refine ⟨s', rfl, ?_, fun j hj => ?_⟩
    · have h4 := h3.len q
      have h5 := hR.len q
      rw [lenOf] at hl ⊢
      rw [← h4]
      show (if q = q then _ else _) = _
      rw [if_pos rfl, h5, hl, indexKey_dec]; rfl
    · rw [prop_own h3 (plainKey_dec hj), prop_own hR (plainKey_dec hj), hR.varVal]
      show (if q = q ∧ Json.decNat j = Json.decNat i then _ else _) = _
      by_cases ej : j = i
      · subst ej; rw [if_pos ⟨rfl, rfl⟩, if_pos rfl]
      · rw [if_neg, if_neg ej]
        intro hh
        have := congrArg indexKey hh.2
        rw [indexKey_dec, indexKey_dec] at this
        exact ej (by injection this)

/-! ### Cases -/

def num (i : Int) : Val := .num (some i)
def key (t : String) : Key := .s (asc t)

/-- The first kind: `p = {x: 1}; b = {y: 2}; Object.assign(b, p); c = Object.create(b, p); d = merge; r = c.y`. -/
def hShare : List Op :=
  [.lit 2 (num 1), .mk 0 [(asc "x", 2)], .lit 2 (num 2), .mk 1 [(asc "y", 2)], .assign 1 [0], .create 3 1 [0], .merge 4 0 1,
    .get 5 3 (key "y"), .lit 2 (num 8), .put 0 kx 2, .get 6 1 kx, .mkArr 7 [2, 5], .filter 7 7 (fun i => i == 1), .get 8 7 (.n 0)]

/-- The second kind: `o = {x: 1}; p = Object.create(o); a = [1, o]; a[3] = 7; a[0]++; o.x++; f(o) { o.y = 9; }`. -/
def hChange : List Op :=
  [.lit 2 (num 1), .mk 0 [(asc "x", 2)], .create 1 0 [], .mkArr 3 [2, 0], .lit 2 (num 7), .put 3 (.n 3) 2, .inc 3 (.n 0),
    .inc 0 kx, .call [0], .lit 3 (num 9), .put 0 (key "y") 3, .ret, .get 5 1 (key "y"), .get 6 3 (key "length"), .get 7 1 kx]

example : fineRun false E0 (sstart 9) hShare = true := by decide +kernel
example : seen 9 5 hShare = some (num 2) ∧ seen 9 6 hShare = some (num 1) ∧ seen 9 8 hShare = some (num 2) := by decide +kernel
example : fineRun true E0 (sstart 9) hChange = true := by decide +kernel
example : seen 9 5 hChange = some (num 9) ∧ seen 9 6 hChange = some (num 4) ∧ seen 9 7 hChange = some (num 2) := by decide +kernel
example : E0.maxList ≤ 2 ^ 31 := by decide
example : SpecialOk E0 := fun _ _ _ _ _ e => by cases e

/-- `C76_put_one_place_partial`, `C76_inc_one_place_partial`, `C77_array_put_partial`, `C83_assign_all_partial` are about histories like
these. -/
example : fineRun true E0 (sstart 9) (hChange.take 5 ++ [.put 3 (.n 3) 2]) = true := by decide +kernel
example : fineRun true E0 (sstart 9) (hChange.take 7 ++ [.inc 0 kx]) = true := by decide +kernel
example : fineRun false E0 (sstart 9) (hShare.take 4 ++ [.assign 1 [0]]) = true := by decide +kernel
example : ((run E0 (start 9) (hChange.take 5)).map fun p => ((p.1.var 3).val, lenOf p.1 3)) = some (.obj 4, none) := by decide +kernel
example : ((run E0 (start 9) (hChange.take 5)).map fun p => lenOf p.1 4) = some (some 2) := by decide +kernel

/-- C78: `o = {x: 7}; Object.freeze(o)` and then attempts to change it. -/
def hFreeze : List Op := [.lit 2 (num 7), .mk 0 [(asc "x", 2)], .freeze 0 true false true]
def hAttack : List Op :=
  [.lit 2 (num 9), .put 0 kx 2, .put 0 (key "y") 2, .inc 0 kx, .del 0 kx, .mk 1 [(asc "x", 2)], .assign 0 [1], .create 1 0 [], .inc 1 kx]

example : (∀ op ∈ hFreeze, op.kind.safe = true) ∧ (∀ op ∈ hAttack, op.kind.safe = true) := by decide +kernel
example : ((run E0 (start 4) hFreeze).map fun p => (p.1.objs[2]?).map fun b => (b.freeze && b.noMod && !b.isarr && b.arr.isNone)) =
    some (some true) := by decide +kernel
example : (run E0 (start 4) (hFreeze ++ hAttack)).map (·.2.drop 3) =
    some [true, false, false, false, false, true, false, true, false] := by decide +kernel

/-- C81: a history without `setPrototypeOf` with inheritance. -/
example : ∀ op ∈ hShare, ∀ o p, op ≠ .setProto o p := by
  intro op hop o p e
  subst e
  simp [hShare] at hop

/-- C82: `f(x) { x = 5; }`: the parameter is a variable of its own. -/
example : seen 4 0 [.lit 0 (num 1), .call [0], .lit 0 (num 5), .ret] = some (num 1) := by decide +kernel

/-! ### Where the claims fail -/

/-- C75: in general the values differ. -/
theorem C75_refuted : ¬ ∀ (n : Nat) (h : List Op) (s : St) (t : SSt) (bs bs' : List Bool),
    run E0 (start n) h = some (s, bs) → srun E0 (sstart n) h = some (t, bs') → Sees s t := by
  intro hall
  have h1 : (run E0 (start 4) hInherit).map (fun p => p.1.vars.map fun c => (p.1.at c).val) = some [.obj 2, .obj 3, num 1, num 2] := by
    decide +kernel
  have h2 : (srun E0 (sstart 4) hInherit).map (fun p => p.1.vars) = some [.obj 2, .obj 3, num 1, num 1] := by decide +kernel
  cases e1 : run E0 (start 4) hInherit with
  | none => rw [e1] at h1; cases h1
  | some p =>
    cases e2 : srun E0 (sstart 4) hInherit with
    | none => rw [e2] at h2; cases h2
    | some p2 =>
      have h3 := hall 4 hInherit p.1 p2.1 p.2 p2.2 e1 e2
      rw [e1] at h1; rw [e2] at h2
      simp only [Option.map_some, Option.some.injEq] at h1 h2
      rw [Sees, h1, h2] at h3
      exact absurd h3 (by decide)

/-- C76: `++` on an inherited property changes the prototype. -/
theorem C76_inherited_refuted : seen 4 3 hInherit = some (num 2) ∧ wanted 4 3 hInherit = some (num 1) := by decide +kernel

/-- C76: after `Object.assign(b, a)`, `b.x++` changes `a.x`. -/
theorem C76_assigned_refuted : seen 4 3 hAssign = some (num 2) ∧ wanted 4 3 hAssign = some (num 1) := by decide +kernel

/-- `c = merge(a, b)`, `c.x++`. -/
def hMerge : List Op :=
  [.lit 2 (num 1), .mk 0 [(asc "x", 2)], .mk 1 [], .merge 1 0 1, .inc 1 kx, .get 3 0 kx]

/-- C76: the result of a merge shares its values with both. -/
theorem C76_merged_refuted : seen 4 3 hMerge = some (num 2) ∧ wanted 4 3 hMerge = some (num 1) := by decide +kernel

/-- `b = Object.create({}, a)`, `b.x++`. -/
def hCreate : List Op :=
  [.lit 2 (num 1), .mk 0 [(asc "x", 2)], .mk 1 [], .create 1 1 [0], .inc 1 kx, .get 3 0 kx]

/-- C76: the result of `Object.create` shares its values with the given properties. -/
theorem C76_created_refuted : seen 4 3 hCreate = some (num 2) ∧ wanted 4 3 hCreate = some (num 1) := by decide +kernel

/-- C76: assigning an element of the result of `filter` changes the array. -/
theorem C76_filtered_refuted : seen 4 3 hFilter = some (num 5) ∧ wanted 4 3 hFilter = some (num 1) := by decide +kernel

/-- C76: assigning an element of `Object.values(o)` changes `o`. -/
theorem C76_values_refuted :
    seen 4 3 [.lit 2 (num 1), .mk 0 [(asc "x", 2)], .values 1 0, .lit 2 (num 5), .put 1 (.n 0) 2, .get 3 0 kx] = some (num 5) := by
  decide +kernel

/-- C77: `a["0"] = 9` is accepted, `a["0"]` and `a[0]` stay what they were. -/
theorem C77_string_index_refuted :
    seen 4 3 [.lit 2 (num 7), .mkArr 0 [2, 2], .lit 2 (num 9), .put 0 (key "0") 2, .get 3 0 (key "0")] = some (num 7) ∧
    wanted 4 3 [.lit 2 (num 7), .mkArr 0 [2, 2], .lit 2 (num 9), .put 0 (key "0") 2, .get 3 0 (key "0")] = some (num 9) := by
  decide +kernel

/-- C77: `a["1abc"]`, `a["01"]` and `a["0x1"]` are `a[1]`. -/
theorem C77_notation_refuted :
    (["1abc", "01", "0x1", "1.5"].map fun k => seen 4 3 [.lit 2 (num 7), .mkArr 0 [2, 2], .get 3 0 (key k)]) =
      List.replicate 4 (some (num 7)) ∧
    (["1abc", "01", "0x1", "1.5"].map fun k => wanted 4 3 [.lit 2 (num 7), .mkArr 0 [2, 2], .get 3 0 (key k)]) =
      List.replicate 4 (some .undef) := by
  decide +kernel

/-- C77: `delete a[0]` is accepted and does nothing. -/
theorem C77_delete_refuted :
    seen 4 3 [.lit 2 (num 7), .mkArr 0 [2, 2], .del 0 (.n 0), .get 3 0 (.n 0)] = some (num 7) ∧
    wanted 4 3 [.lit 2 (num 7), .mkArr 0 [2, 2], .del 0 (.n 0), .get 3 0 (.n 0)] = some .undef := by
  decide +kernel

/-- C77: after `a.length = 0` the length reads 0, but `a[0]` is still there; after `a.length = 100` an element put at 5 is
not found. -/
theorem C77_length_refuted :
    seen 4 3 [.lit 2 (num 7), .mkArr 0 [2, 2], .lit 2 (num 0), .put 0 (key "length") 2, .get 3 0 (key "length")] = some (num 0) ∧
    seen 4 3 [.lit 2 (num 7), .mkArr 0 [2, 2], .lit 2 (num 0), .put 0 (key "length") 2, .get 3 0 (.n 0)] = some (num 7) ∧
    seen 4 3 [.lit 2 (num 7), .mkArr 0 [2, 2], .lit 2 (num 100), .put 0 (key "length") 2, .put 0 (.n 5) 2, .get 3 0 (.n 5)] =
      some .undef := by
  decide +kernel

/-- C78: elements of frozen arrays can be assigned. -/
theorem C78_array_refuted :
    seen 4 3 [.lit 2 (num 7), .mkArr 0 [2, 2], .freeze 0 true false true, .lit 2 (num 9), .put 0 (.n 0) 2, .get 3 0 (.n 0)] =
      some (num 9) := by
  decide +kernel

/-- C78: properties of frozen objects can be changed through `Object.values`. -/
theorem C78_values_refuted :
    seen 4 3 [.lit 2 (num 7), .mk 0 [(asc "x", 2)], .freeze 0 true false true, .values 1 0, .lit 2 (num 9), .put 1 (.n 0) 2,
      .get 3 0 kx] = some (num 9) := by
  decide +kernel

/-- C78: after `Object.assign(b, a); Object.freeze(a); Object.freeze(b); Object.freeze(b, false, …)`, `b.x++` changes the
frozen `a`. -/
theorem C78_shared_refuted :
    seen 4 3 [.lit 2 (num 7), .mk 0 [(asc "x", 2)], .mk 1 [], .assign 1 [0], .freeze 0 true false true, .freeze 1 true false true,
      .freeze 1 false true true, .inc 1 kx, .get 3 0 kx] = some (num 8) := by
  decide +kernel

/-- C78: the flag travels with the value: `x = o.x; x++` fails when `o` is frozen. -/
theorem C78_travels_refuted :
    (run E0 (start 4) (hFreeze ++ [.get 3 0 kx, .incVar 3])).map (fun p => ((p.1.var 3).val, p.2.drop 4)) =
      some (num 7, [false]) := by
  decide +kernel

/-- C81: `Object.setPrototypeOf` makes cycles, in which looking for a missing property does not end (the C stack
overflows). -/
theorem C81_cycle_refuted :
    run E0 (start 4) [.lit 2 (num 7), .mk 0 [(asc "a", 2)], .mk 1 [(asc "b", 2)], .setProto 0 1, .setProto 1 0, .get 3 0 kx] = none := by
  decide +kernel

/-- C81: `setPrototypeOf(o, p)` with an empty `p` does not make `p` the prototype. -/
theorem C81_empty_prototype_refuted :
    seen 4 3 [.lit 2 (num 7), .mk 0 [], .mk 1 [], .setProto 0 1, .put 1 kx 2, .get 3 0 kx] = some .undef ∧
    wanted 4 3 [.lit 2 (num 7), .mk 0 [], .mk 1 [], .setProto 0 1, .put 1 kx 2, .get 3 0 kx] = some (num 7) := by
  decide +kernel

/-- C82: the parameter of a `forEach` callback is the element: assigning it changes the array. -/
theorem C82_each_refuted :
    seen 4 3 [.lit 2 (num 7), .mkArr 0 [2], .each 0 0, .lit 0 (num 9), .ret, .get 3 0 (.n 0)] = some (num 9) ∧
    wanted 4 3 [.lit 2 (num 7), .mkArr 0 [2], .each 0 0, .lit 0 (num 9), .ret, .get 3 0 (.n 0)] = some (num 7) := by
  decide +kernel

/-- C82: so are those of `f.apply(this, a)`, which also makes the names of the parameters properties of the array. -/
theorem C82_apply_refuted :
    seen 4 3 [.lit 2 (num 7), .mkArr 0 [2], .apply 0 [asc "q"], .lit 0 (num 9), .ret, .get 3 0 (.n 0)] = some (num 9) ∧
    wanted 4 3 [.lit 2 (num 7), .mkArr 0 [2], .apply 0 [asc "q"], .lit 0 (num 9), .ret, .get 3 0 (.n 0)] = some (num 7) ∧
    seen 4 3 [.lit 2 (num 7), .mkArr 0 [2], .apply 0 [asc "q"], .ret, .get 3 0 (key "q")] = some (num 7) ∧
    wanted 4 3 [.lit 2 (num 7), .mkArr 0 [2], .apply 0 [asc "q"], .ret, .get 3 0 (key "q")] = some .undef := by
  decide +kernel

/-- C83: a value that came through a parameter is not copied: `f(v) { a = {x: v}; b = Object.assign({}, a); }`. -/
theorem C83_parameter_refuted :
    seen 4 3 [.lit 2 (num 7), .call [2], .mk 1 [(asc "x", 0)], .mk 2 [], .assign 2 [1], .get 4 2 kx, .ret] = some .undef ∧
    wanted 4 3 [.lit 2 (num 7), .call [2], .mk 1 [(asc "x", 0)], .mk 2 [], .assign 2 [1], .get 4 2 kx, .ret] = some (num 7) := by
  decide +kernel

/-- C83: the elements of an array are not copied. -/
theorem C83_array_refuted :
    seen 4 3 [.lit 2 (num 7), .mkArr 0 [2], .mk 1 [], .assign 1 [0], .get 3 1 (.n 0)] = some .undef ∧
    wanted 4 3 [.lit 2 (num 7), .mkArr 0 [2], .mk 1 [], .assign 1 [0], .get 3 1 (.n 0)] = some (num 7) := by
  decide +kernel

end Verif.Obj
