import Verif.Array.IterProps

/-!
C55: the array functions of the C interface, `Jsi_ValueArrayPush`, `Jsi_ValueArrayPop`,
`Jsi_ValueArrayShift`, `Jsi_ValueArrayUnshift` (src/jsiArray.c:144-236), for arrays in list form; and `flat`
(src/jsiArray.c:247-283).  `none` is an access outside the vector, as in `Verif.Array.Model`.
-/

namespace Verif.Array

variable {V : Type}

/-- src/jsiArray.c:144-157  `Jsi_ValueArrayPush` (with a value); the result of `Jsi_ObjArraySizer` is not
looked at. -/
def apiPush (M : Nat) (a : Arr) (p : Nat) : Option Arr :=
  let a1 := (sizer M a a.cnt).getD a
  (wr a1.mem a.cnt (some p)).map fun m => ⟨m, a1.cnt + 1⟩

/-- src/jsiArray.c:160-181  `Jsi_ValueArrayPop`: the cell removed. -/
def apiPop (a : Arr) : Option (Arr × Option Nat) :=
  if a.cnt = 0 then some (a, none)
  else match rd a.mem (a.cnt - 1) with
    | none => none
    | some none => some (a, none)
    | some (some p) => (wr a.mem (a.cnt - 1) none).map fun m => (⟨m, a.cnt - 1⟩, some p)

/-- src/jsiArray.c:184-204  `Jsi_ValueArrayUnshift`. -/
def apiUnshift (a : Arr) : Option (Arr × Option Nat) :=
  if a.cnt = 0 then some (a, none)
  else match rd a.mem 0 with
    | none => none
    | some none => some (a, none)
    | some (some p) => (wr a.mem 0 none).map fun m => (⟨m, a.cnt - 1⟩, some p)

/-- The loop of src/jsiArray.c:220-222: `k` more steps from `i`. -/
def apiShiftLoop : Nat → List (Option Nat) → Nat → Option (List (Option Nat))
  | 0, m, _ => some m
  | k + 1, m, i =>
    match rd m i with
    | none => none
    | some c =>
      match wr m (i - 1) c with
      | none => none
      | some m => apiShiftLoop k m (i + 1)

/-- src/jsiArray.c:207-225  `Jsi_ValueArrayShift` on an array in list form:
`o->arr[o->arrCnt--] = NULL` writes behind the last element. -/
def apiShift (a : Arr) : Option Arr :=
  if a.cnt = 0 then some a
  else match apiShiftLoop (a.cnt - 1) a.mem 1 with
    | none => none
    | some m => (wr m a.cnt none).map fun m => ⟨m, a.cnt - 1⟩

/-- **C55, push**: appends the cell, for every array within the limit. -/
theorem C55_push_partial (M : Nat) (a : Arr) (p : Nat) (h : Heap V) (hm : a.cnt ≤ a.mem.length)
    (hf : fits M a.cnt) : ∃ b, apiPush M a p = some b ∧ elems h b = elems h a ++ [some (h.val p)] ∧
      b.cnt ≤ b.mem.length := by
  obtain ⟨j, hj, hl⟩ := sizer_some (a := a) hf
  rw [Nat.max_self] at hj
  unfold apiPush
  rw [hj]
  simp only [Option.getD_some]
  unfold wr
  rw [if_pos (by simp; omega)]
  refine ⟨_, rfl, ?_, by simp; omega⟩
  simp only [elems]
  have : ((a.mem ++ List.replicate j none).set a.cnt (some p)).take (a.cnt + 1) = a.mem.take a.cnt ++ [some p] := by
    rw [List.take_add_one, List.take_set_of_le (by omega), List.take_append_of_le_length hm]
    congr 1
    rw [List.getElem?_set_self (by simp; omega)]
    rfl
  rw [this]
  simp

/-- **C55, pop**: removes the last element and gives its cell; an array whose last element is a hole is not
changed. -/
theorem C55_pop_partial (a : Arr) (L : List (Option Nat)) (p : Nat) (h : Heap V) (hm : a.cnt ≤ a.mem.length)
    (hL : a.mem.take a.cnt = L ++ [some p]) :
    ∃ b, apiPop a = some (b, some p) ∧ elems h a = elems h b ++ [some (h.val p)] ∧ b.cnt ≤ b.mem.length := by
  have hc : a.cnt = L.length + 1 := by
    have := congrArg List.length hL
    simp at this; omega
  have hr : a.mem[a.cnt - 1]? = some (some p) := by
    have : (a.mem.take a.cnt)[a.cnt - 1]? = some (some p) := by
      rw [hL, hc]; simp
    rw [List.getElem?_take, if_pos (by omega)] at this
    exact this
  unfold apiPop
  rw [if_neg (by omega)]
  unfold rd
  rw [hr]
  simp only []
  unfold wr
  rw [if_pos (by omega)]
  refine ⟨_, rfl, ?_, by simp; omega⟩
  simp only [elems]
  rw [List.take_set_of_le (by omega), hL]
  have : a.mem.take (a.cnt - 1) = L := by
    have : (a.mem.take a.cnt).take (a.cnt - 1) = L := by rw [hL, hc]; simp
    rw [List.take_take, Nat.min_eq_left (by omega)] at this
    exact this
  rw [this]
  simp

theorem apiShiftLoop_eq : ∀ (X : List (Option Nat)) (Y Z : List (Option Nat)) (c : Option Nat),
    apiShiftLoop X.length (Y ++ c :: X ++ Z) (Y.length + 1) = some (Y ++ X ++ (c :: X).getLast (by simp) :: Z)
  | [], Y, Z, c => by simp [apiShiftLoop]
  | d :: X, Y, Z, c => by
    have h1 : rd (Y ++ c :: (d :: X) ++ Z) (Y.length + 1) = some d := by
      simp [rd]
    have h2 : wr (Y ++ c :: (d :: X) ++ Z) (Y.length + 1 - 1) d = some (Y ++ [d] ++ d :: X ++ Z) := by
      simp [wr]
    rw [List.length_cons, apiShiftLoop, h1]
    simp only []
    rw [h2]
    simp only []
    have := apiShiftLoop_eq X (Y ++ [d]) Z d
    rw [List.length_append, List.length_singleton] at this
    rw [this]
    simp

/-- **C55, shift**: removes the first element, for every array with room behind its last element; the last
cell stays in the vector, behind the elements. -/
theorem C55_shift_partial (a : Arr) (c : Option Nat) (L : List (Option Nat)) (h : Heap V)
    (hm : a.cnt < a.mem.length) (hL : a.mem.take a.cnt = c :: L) :
    ∃ b, apiShift a = some b ∧ elems h a = c.map h.val :: elems h b ∧ b.cnt ≤ b.mem.length ∧
      b.mem[b.cnt]? = some ((c :: L).getLast (by simp)) := by
  have hc : a.cnt = L.length + 1 := by
    have := congrArg List.length hL
    simp at this; omega
  obtain ⟨mem, cnt⟩ := a
  simp only at hm hL hc
  subst hc
  have hmem : mem = [] ++ c :: L ++ mem.drop (L.length + 1) := by
    rw [List.nil_append, ← hL, List.take_append_drop]
  obtain ⟨z, Z, hz⟩ : ∃ z Z, mem.drop (L.length + 1) = z :: Z := by
    cases hd : mem.drop (L.length + 1) with
    | nil => have := List.drop_eq_nil_iff.1 hd; omega
    | cons z Z => exact ⟨z, Z, rfl⟩
  rw [hz] at hmem
  have hloop := apiShiftLoop_eq L [] (z :: Z) c
  rw [← hmem] at hloop
  unfold apiShift
  simp only []
  rw [if_neg (by omega), show L.length + 1 - 1 = L.length by omega]
  simp only [List.length_nil, Nat.zero_add, List.nil_append] at hloop
  rw [hloop]
  simp only []
  unfold wr
  rw [if_pos (by simp)]
  have hset : (L ++ (c :: L).getLast (by simp) :: z :: Z).set (L.length + 1) none =
      L ++ (c :: L).getLast (by simp) :: none :: Z := by
    rw [List.set_append_right _ _ (by omega)]
    simp
  refine ⟨_, rfl, ?_, by simp, ?_⟩
  · simp only [elems]
    rw [hset, hL, List.take_left' (by omega)]
    simp
  · simp only []
    rw [hset]
    simp

/-- `apiPush` of `n` cells. -/
def apiPushes (M : Nat) : Nat → Arr → Option Arr
  | 0, a => some a
  | n + 1, a => (apiPushes M n a).bind fun b => apiPush M b n

/-- **C55 refuted**: after sixteen pushes a shift writes outside the vector. -/
theorem C55_shift_refuted : ∃ a, apiPushes 100 16 .new = some a ∧ apiShift a = none := by
  refine ⟨⟨(List.range 16).map some, 16⟩, ?_, ?_⟩ <;> decide +kernel

/-- ... and so does every array whose vector is full. -/
theorem C55_shift_full_refuted (a : Arr) (hc : a.cnt ≠ 0) (hm : a.cnt = a.mem.length) : apiShift a = none := by
  unfold apiShift
  rw [if_neg hc]
  obtain ⟨mem, cnt⟩ := a
  simp only at hm hc
  subst hm
  cases mem with
  | nil => simp at hc
  | cons c L =>
    have := apiShiftLoop_eq L [] [] c
    simp only [List.length_nil, Nat.zero_add, List.nil_append, List.append_nil] at this
    simp only [List.length_cons, Nat.add_sub_cancel]
    rw [this]
    simp [wr]

/-- **C55 refuted**: after a shift, assigning behind the last element changes the last element and does not
lengthen the array. -/
theorem C55_shift_assign_refuted :
    ∃ a, apiShift ⟨[some 0, some 1, none, none], 2⟩ = some a ∧
      elems (⟨2, fun p => p⟩ : Heap Nat) a = [some 1] ∧
      ∃ o, assign 100 (⟨2, fun p => p⟩ : Heap Nat) a 1 7 = some o ∧ elems o.heap o.arr = [some 7] :=
  ⟨_, rfl, by decide +kernel, _, rfl, by decide +kernel⟩

/-- **C55 refuted**: `Jsi_ValueArrayUnshift` clears the first element and drops the last one. -/
theorem C55_unshift_refuted (p : Nat) (L Z : List (Option Nat)) (h : Heap V) :
    ∃ b, apiUnshift ⟨some p :: L ++ Z, L.length + 1⟩ = some (b, some p) ∧
      elems h b = (none :: L.map (Option.map h.val)).dropLast := by
  refine ⟨⟨none :: L ++ Z, L.length⟩, ?_, ?_⟩
  · simp [apiUnshift, rd, wr]
  · simp only [elems]
    cases L with
    | nil => simp
    | cons c L =>
      rw [List.take_append_of_le_length (by simp), List.map_take, List.dropLast_eq_take]
      simp

/-- **C55 refuted**: at the limit a push writes outside the vector. -/
theorem C55_push_refuted (M : Nat) (a : Arr) (p : Nat) (hm : a.cnt = a.mem.length) (hf : ¬ fits M a.cnt) :
    apiPush M a p = none := by
  unfold apiPush
  rw [sizer_none hf]
  simp [wr, hm]

example : ¬ fits 100 112 ∧ fits 100 15 := by decide +kernel

/-! ### flat -/

/-- A value: something that is not an array, `undefined`, or an array with holes. -/
inductive Nest (V : Type) where
  | val (v : V)
  | undef
  | hole
  | arr (l : List (Nest V))

mutual
/-- src/jsiArray.c:247-264  `jsi_ArrayFlatSub`, the new elements in order.  Not modelled: the size limit. -/
def flatSub : Nat → List (Nest V) → List (Nest V)
  | _, [] => []
  | d, x :: l => flatItem d x ++ flatSub d l
/-- The body of its loop: an element at remaining depth `d`. -/
def flatItem : Nat → Nest V → List (Nest V)
  | d + 1, .arr l => flatSub d l
  | 0, .arr l => [.arr l]
  | _, .val v => [.val v]
  | _, .undef => []
  | _, .hole => []
end

/-- src/jsiArray.c:266-283  `flat`; `none` is the error "bad depth". -/
def flat (d : Int) (l : List (Nest V)) : Option (List (Nest V)) :=
  if d < 0 ∨ d > 1000 then none else if d > 0 then some (flatSub d.toNat l) else some []

namespace ES
mutual
/-- ECMAScript `FlattenIntoArray`. -/
def flat : Nat → List (Nest V) → List (Nest V)
  | _, [] => []
  | d, x :: l => flatItem d x ++ flat d l
/-- An element: holes go, arrays are flattened while there is depth, anything else stays. -/
def flatItem : Nat → Nest V → List (Nest V)
  | d + 1, .arr l => flat d l
  | 0, .arr l => [.arr l]
  | _, .val v => [.val v]
  | _, .undef => [.undef]
  | _, .hole => []
end
end ES

mutual
/-- No `undefined` anywhere in the list. -/
def noUndef : List (Nest V) → Bool
  | [] => true
  | x :: l => noUndef1 x && noUndef l
/-- No `undefined` in the value. -/
def noUndef1 : Nest V → Bool
  | .undef => false
  | .arr l => noUndef l
  | _ => true
end

mutual
theorem flatSub_eq : ∀ (d : Nat) (l : List (Nest V)), noUndef l = true → flatSub d l = ES.flat d l
  | _, [], _ => by rw [flatSub, ES.flat]
  | d, x :: l, h => by
    rw [noUndef, Bool.and_eq_true] at h
    rw [flatSub, ES.flat, flatItem_eq d x h.1, flatSub_eq d l h.2]
theorem flatItem_eq : ∀ (d : Nat) (x : Nest V), noUndef1 x = true → flatItem d x = ES.flatItem d x
  | d + 1, .arr l, h => by
    rw [noUndef1] at h
    rw [flatItem, ES.flatItem, flatSub_eq d l h]
  | 0, .arr l, _ => by rw [flatItem, ES.flatItem]
  | _, .val v, _ => by rw [flatItem, ES.flatItem] <;> simp
  | _, .hole, _ => by rw [flatItem, ES.flatItem] <;> simp
  | _, .undef, h => by rw [noUndef1] at h; cases h
end

/-- **C54, flat** with a depth from 1 to 1000, for arrays without `undefined`. -/
theorem C54_flat_partial (d : Int) (l : List (Nest V)) (h1 : 1 ≤ d) (h2 : d ≤ 1000) (hu : noUndef l = true) :
    flat d l = some (ES.flat d.toNat l) := by
  unfold flat
  rw [if_neg (by omega), if_pos (by omega), flatSub_eq _ _ hu]

/-- **C54 refuted**: `flat(0)` is the empty array (JavaScript: a copy), and `undefined` is dropped. -/
theorem C54_flat_refuted (v : V) (l : List (Nest V)) :
    flat 0 (.val v :: l) = some [] ∧ ES.flat 0 (.val v :: l) = .val v :: ES.flat 0 l ∧
    flat 1 [Nest.undef (V := V)] = some [] ∧ ES.flat 1 [Nest.undef (V := V)] = [.undef] := by
  refine ⟨rfl, ?_, ?_, ?_⟩
  · rw [ES.flat, ES.flatItem] <;> simp
  · simp [flat, flatSub, flatItem]
  · simp [ES.flat, ES.flatItem]

example : noUndef [.arr [.val 1, .hole, .arr [.val 2]], Nest.val 3] = true := by decide +kernel

end Verif.Array
