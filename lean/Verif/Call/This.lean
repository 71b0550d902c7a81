import Verif.Call.Check
/-!
# `call`, `apply`, `bind` (C122), and where the claims fail
-/
namespace Verif.Call

/-! ## Specification -/

/-- The call passes the values `vs` and `this` to the function: it is the call of the function with an array `o` of
just these arguments. -/
def Passes (call : Body → (Chk × Heap) × Option Val) (f : Fn) (this : Val) (vs : List Val) (c : Chk) : Prop :=
  ∃ o h, (∀ body, call body = callSub f body o this false (c, h)) ∧ CellsOk h o ∧ (h.objs o).elems.length = vs.length
    ∧ ∀ i : Nat, argVal h o i = vs[i]?

/-- The array `a` has just the values `vs` (no holes). -/
def Holds (h : Heap) (a : Nat) (vs : List Val) : Prop :=
  CellsOk h a ∧ (h.objs a).elems.length = vs.length ∧ ∀ i : Nat, argVal h a i = vs[i]?

/-! ## Proofs -/

theorem argArr_holds (h : Heap) (vs : List Val) : Holds (argArr h vs).1 (argArr h vs).2 vs := by
  have hs := argArr_spec h vs
  rw [Holds, hs.1]
  exact ⟨fun c hc => (hs.2.2.2.2.2.2.1 c hc).2, hs.2.2.2.2.2.2.2.1, hs.2.2.2.2.2.2.2.2⟩

theorem shift_holds {h : Heap} {o : Nat} {v : Val} {vs : List Val} (hh : Holds h o (v :: vs)) : Holds (shift h o) o vs := by
  obtain ⟨h1, h2, h3⟩ := hh
  have e : ((shift h o).objs o).elems = (h.objs o).elems.drop 1 := by simp [shift]
  refine ⟨?_, ?_, ?_⟩
  · intro c hc; rw [e] at hc; exact h1 c (List.mem_of_mem_drop hc)
  · rw [e, List.length_drop, h2]; simp
  · intro i
    have := h3 (i + 1)
    unfold argVal argCell at this ⊢
    rw [e, List.getElem?_drop, Nat.add_comm 1 i]
    exact this

/-- **C122.** `f.call(th, vs…)` calls `f` with the arguments `vs` and `this` being `th` as an object, or the global
object when `th` is undefined or null. -/
theorem C122_call (toObj : Val → Val) (top : Val) (f : Fn) (th : Val) (vs : List Val) (s : Chk × Heap) :
    Passes (fun body => viaCall toObj top f body (th :: vs) s) f (if th = .undef ∨ th = .null then top else toObj th) vs s.1 := by
  have hs := argArr_holds s.2 (th :: vs)
  have h0 : argVal (argArr s.2 (th :: vs)).1 (argArr s.2 (th :: vs)).2 0 = some th := hs.2.2 0
  have ht : pickThis toObj top (some th) = (if th = .undef ∨ th = .null then top else toObj th) := by
    cases th <;> simp [pickThis]
  have hh := shift_holds hs
  refine ⟨(argArr s.2 (th :: vs)).2, shift (argArr s.2 (th :: vs)).1 (argArr s.2 (th :: vs)).2, fun body => ?_, hh.1, hh.2.1, hh.2.2⟩
  show viaCall toObj top f body (th :: vs) s = _
  unfold viaCall
  rw [h0, ht]

/-- **C122** … `f.apply(th, a)` calls `f` with the elements of `a`. -/
theorem C122_apply (toObj : Val → Val) (top : Val) (f : Fn) (th : Val) (a : Nat) (vs : List Val) (s : Chk × Heap) (ha : Holds s.2 a vs) :
    Passes (fun body => viaApply toObj top f body th a s) f (if th = .undef ∨ th = .null then top else toObj th) vs s.1 := by
  have ht : pickThis toObj top (some th) = (if th = .undef ∨ th = .null then top else toObj th) := by
    cases th <;> simp [pickThis]
  refine ⟨a, s.2, fun body => ?_, ha.1, ha.2.1, ha.2.2⟩
  show viaApply toObj top f body th a s = _
  unfold viaApply; rw [ht]

theorem argArr_old {h : Heap} {vs : List Val} {a : Nat} {ws : List Val} (ha : a < h.nextObj) (hh : Holds h a ws) : Holds (argArr h vs).1 a ws := by
  have hs := argArr_spec h vs
  have e := hs.2.2.2.2.1 a (by omega)
  refine ⟨?_, by rw [e]; exact hh.2.1, ?_⟩
  · intro c hc; rw [e] at hc; exact Nat.lt_of_lt_of_le (hh.1 c hc) hs.2.1
  · intro i
    have := hh.2.2 i
    unfold argVal argCell at this ⊢
    rw [e]
    rw [← this]
    cases hc : ((h.objs a).elems[i]?).join with
    | none => rfl
    | some c =>
      have : c < h.next := argCell_lt hh.1 (i := i) (by unfold argCell; exact hc)
      simp [hs.2.2.2.1 c this]

theorem argVal_elems (h : Heap) (o : Nat) (i : Nat) : argVal h o i = (((h.objs o).elems[i]?).join).map h.val := rfl

theorem boundArr_holds {h : Heap} {b o : Nat} {bs vs : List Val} (hb : Holds h b bs) (ho : Holds h o vs) :
    Holds (boundArr h b o).1 (boundArr h b o).2 (bs.drop 1 ++ vs) := by
  unfold boundArr
  split
  · rename_i hl
    have e : ((newArr h ((h.objs b).elems.drop 1 ++ (h.objs o).elems)).1.objs h.nextObj).elems = (h.objs b).elems.drop 1 ++ (h.objs o).elems := by
      simp [newArr]
    refine ⟨?_, ?_, ?_⟩
    · intro c hc
      have hc : some c ∈ (h.objs b).elems.drop 1 ++ (h.objs o).elems := by rw [← e]; exact hc
      show c < h.next
      rcases List.mem_append.mp hc with hc | hc
      · exact hb.1 c (List.mem_of_mem_drop hc)
      · exact ho.1 c hc
    · show ((newArr h _).1.objs h.nextObj).elems.length = _
      rw [e]; simp [hb.2.1, ho.2.1]
    · intro i
      show ((((newArr h _).1.objs h.nextObj).elems[i]?).join).map h.val = _
      rw [e]
      have hlen : ((h.objs b).elems.drop 1).length = (bs.drop 1).length := by simp [hb.2.1]
      rcases Nat.lt_or_ge i (bs.drop 1).length with hi | hi
      · rw [List.getElem?_append_left (by omega), List.getElem?_append_left hi]
        rw [List.getElem?_drop, List.getElem?_drop]
        exact hb.2.2 (1 + i)
      · rw [List.getElem?_append_right (by omega), List.getElem?_append_right hi, hlen]
        exact ho.2.2 _
  · rename_i hl
    rw [hb.2.1] at hl
    have : bs.drop 1 = [] := by apply List.drop_eq_nil_of_le; omega
    rw [this]; exact ho

/-- **C122** … A function bound to `b0` and the arguments `bs`, called directly with `vs`, calls the function with
`bs` and then `vs`; `this` is `b0`, or if that is null what the bound function was called on. -/
theorem C122_bind_partial (f : Fn) (b : Bound) (b0 : Val) (bs vs : List Val) (th : Val) (s : Chk × Heap) (hb : Holds s.2 b.args (b0 :: bs))
    (ho : b.args < s.2.nextObj) :
    Passes (fun body => boundDirect f body b vs th s) f (if b0 = .null then th else b0) (bs ++ vs) s.1 := by
  have h1 := argArr_old (vs := vs) ho hb
  have h2 := argArr_holds s.2 vs
  have h3 := boundArr_holds h1 h2
  have ht : boundThis th (argVal (argArr s.2 vs).1 b.args 0) = (if b0 = .null then th else b0) := by
    rw [h1.2.2 0]
    cases b0 <;> simp [boundThis]
  refine ⟨_, _, fun body => ?_, h3.1, h3.2.1, h3.2.2⟩
  show boundDirect f body b vs th s = _
  unfold boundDirect boundCall
  rw [if_neg (by simp), ht]

/-- What `bind` makes holds its arguments. -/
theorem C122_bind_makes_partial (h : Heap) (vs : List Val) :
    Holds (bind h vs).1 (bind h vs).2.args vs ∧ (bind h vs).2.args < (bind h vs).1.nextObj := by
  refine ⟨argArr_holds h vs, ?_⟩
  have hs := argArr_spec h vs
  show (argArr h vs).2 < (argArr h vs).1.nextObj
  rw [hs.1, hs.2.2.1]; exact Nat.lt_succ_self _

/-- **C122** is not so for bound functions that are called otherwise: one that was never called directly, called
by `apply`, `forEach`, a timer, …, is an error ("bind failure") whatever its function. -/
theorem C122_bind_failure_refuted (f : Fn) (h : Heap) (vs : List Val) (o : Nat) (th : Val) (c : Chk) (body : Body) :
    boundOther f body (bind h vs).2 o th (c, (bind h vs).1) = ((c, (bind h vs).1), none) := by
  unfold boundOther boundCall; exact if_pos rfl

/-! ## Examples, and what is not so -/

/-- No cells, no arrays. -/
def heap0 : Heap := ⟨fun _ => .undef, 0, fun _ => ⟨[], fun _ => none⟩, 0⟩

/-- Checking as it is at the start. -/
def chk0 : Chk := ⟨false, false, false, false, 0, 50⟩

/-- `function f(x) { … }` -/
def f1 : Fn := ⟨mkParams [⟨asc "x", noTys, none⟩], false, [], noTys⟩

/-- `{ var r = x; x = 9; return r; }` -/
def setX : Body := fun o _ s => ((s.1, assign s.2 o (asc "x", .num 9)), var s.2 o (asc "x"))

/-- `[1, 2]`, as the object 0. -/
def one : Heap := (argArr heap0 [.num 1, .num 2]).1

/-- **C118** is not so for `apply`: `function f(x, y) { x = 9; }  var a = [1, 2];  f.apply(null, a);` leaves 9 in
`a[0]`. -/
theorem C118_apply_refuted : ∃ f : Fn, Holds one 0 [.num 1, .num 2] ∧ argVal (viaApply id .undef f setX .null 0 (chk0, one)).1.2 0 0 = some (.num 9) :=
  ⟨⟨mkParams [⟨asc "x", noTys, none⟩, ⟨asc "y", noTys, none⟩], false, [], noTys⟩, argArr_holds heap0 _, by decide +kernel⟩

/-- **C118** is not so for `bind`: `function f(x) { var r = x; x = 9; return r; }  var g = f.bind(null, 1);`: the
first `g()` is 1 and the second 9. -/
theorem C118_bind_refuted :
    (boundDirect f1 setX ⟨0, true⟩ [] .null (chk0, (bind heap0 [.null, .num 1]).1)).2 = some (.num 1) ∧
    (boundDirect f1 setX ⟨0, true⟩ [] .null (boundDirect f1 setX ⟨0, true⟩ [] .null (chk0, (bind heap0 [.null, .num 1]).1)).1).2 = some (.num 9) := by
  constructor <;> decide +kernel

/-- **C118** is not so for `forEach`: `[1, 2].forEach(function (x) { x = 9; })` leaves `[9, 9]`. -/
theorem C118_forEach_refuted :
    argVal (eachFrom f1 setX 0 (fun i => UInt64.ofNat i) .undef 2 0 (chk0, one)).1.2 0 0 = some (.num 9) ∧
    argVal (eachFrom f1 setX 0 (fun i => UInt64.ofNat i) .undef 2 0 (chk0, one)).1.2 0 1 = some (.num 9) := by
  constructor <;> decide +kernel

/-- `function f(...) { var v; v = 5; }` and `function g(...) { … }`. -/
def fV : Fn := ⟨mkParams [], true, [asc "v"], noTys⟩
def gV : Fn := ⟨mkParams [], true, [], noTys⟩
def setV : Body := fun o _ s => ((s.1, assign s.2 o (asc "v", .num 5)), some .undef)
def getV : Body := fun o _ s => (s, var s.2 o (asc "v"))

/-- **C118** … Two calls by `apply` with the same array share their variables: after `f.apply(null, a)`, `v` in `g`
called by `g.apply(null, a)` is the local variable of `f`; in `g` called directly it is not. -/
theorem C118_shared_scope_refuted :
    (viaApply id .undef gV getV .null 0 (viaApply id .undef fV setV .null 0 (chk0, one)).1).2 = some (.num 5) ∧
    (direct gV getV [.num 1, .num 2] .undef false (viaApply id .undef fV setV .null 0 (chk0, one)).1).2 = none := by
  constructor <;> decide +kernel

/-- **C119** … A function without any type is checked too: `function f(a, b) {}  f(1)` is refused, although
lib/www/md/Functions.md says that it takes a type to enable the check of the count. -/
theorem C119_untyped_refuted : ∃ ds : List Decl, (∀ d ∈ ds, ∀ t, ¬ Declares d t) ∧
    Refused (fun body => direct ⟨mkParams ds, false, [], noTys⟩ body [.num 1] .undef false (chk0, heap0)) := by
  refine ⟨[⟨asc "a", noTys, none⟩, ⟨asc "b", noTys, none⟩], ?_, ?_⟩
  · intro d hd t ht
    simp only [List.mem_cons, List.not_mem_nil, or_false] at hd
    rcases hd with rfl | rfl <;> simp [Declares, noTys] at ht
  · rcases callSub_cases ⟨mkParams [⟨asc "a", noTys, none⟩, ⟨asc "b", noTys, none⟩], false, [], noTys⟩ (argArr heap0 [.num 1]).2 .undef false
      (chk0, (argArr heap0 [.num 1]).1) with ⟨h, _⟩ | ⟨_, h⟩
    · exact absurd h (by decide +kernel)
    · exact h

/-- **C119** … Reaching `typeWarnMax` does not end checking ("typeCheck disabled"): the bits are cleared, and with
them `noundef`, so that a call that was in order before is refused afterwards. -/
theorem C119_limit_refuted : ∃ c : Chk, c.noundef = true ∧ c.max = c.cnt + 1 ∧ Strict c ∧
    (argCheck c noTys .undef false false).2 = true ∧ (argCheck (mismatch c) noTys .undef false false).2 = false ∧
    (argCheck (mismatch c) (single .number) (.str []) false false).2 = false :=
  ⟨⟨false, false, true, false, 49, 50⟩, rfl, rfl, ⟨rfl, rfl⟩, by decide +kernel, by decide +kernel, by decide +kernel⟩

/-- C117–C119 at work: `function f(a:number, b=7, c) { var v; … }` -/
def f3 : List Decl := [⟨asc "a", single .number, none⟩, ⟨asc "b", noTys, some (.num 7)⟩, ⟨asc "c", noTys, some .void⟩]
def fn3 : Fn := ⟨mkParams f3, false, [asc "v"], union (single .number) (single .void)⟩
example : (direct fn3 (fun o _ s => (s, var s.2 o (asc "b"))) [.num 1] .undef false (chk0, heap0)).2 = some (.num 7) := by decide +kernel
example : (direct fn3 (fun o _ s => (s, var s.2 o (asc "b"))) [.num 1, .num 2] .undef false (chk0, heap0)).2 = some (.num 2) := by decide +kernel
example : (direct fn3 (fun o _ s => (s, var s.2 o (asc "v"))) [.num 1, .num 2] .undef false (chk0, heap0)).2 = some .undef := by decide +kernel
example : (direct fn3 (fun _ _ s => (s, some (.str []))) [.num 1, .num 2] .undef false (chk0, heap0)).2 = none := by decide +kernel
example : (direct fn3 (fun _ _ s => (s, some .null)) [.str [], .num 2] .undef false (chk0, heap0)).2 = none := by decide +kernel
example : (mkParams f3).args.map (·.name) = [asc "a", asc "b", asc "c"] := by decide +kernel
example : CountOk f3 false 1 ∧ ¬ CountOk f3 false 0 ∧ ¬ CountOk f3 false 4 := by
  refine ⟨⟨by decide +kernel, fun _ => by decide +kernel⟩, fun h => absurd h.1 (by decide +kernel), fun h => absurd (h.2 rfl) (by decide +kernel)⟩
example : (boundDirect f1 (fun o th s => (s, if th = .null then var s.2 o (asc "x") else some th)) ⟨0, true⟩ [.num 4] .null
    (chk0, (bind heap0 [.null]).1)).2 = some (.num 4) := by decide +kernel

end Verif.Call
