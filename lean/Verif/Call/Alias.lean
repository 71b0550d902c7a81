import Verif.Call.This
/-!
# Calls through aliases, and calls without arguments (C196, C197)

`Jsi_FunctionInvoke` (src/jsiFunc.c 746-806) and `jsi_AliasInvoke` (src/jsiInterp.c 277-373) in one thread.  The memory is that
of the interpreter the function belongs to.  Not modelled: threads, profiling, what becomes of the message of an error.
-/
namespace Verif.Call

/-! ## Model -/

/-- The array of a call without arguments: one for all such calls of an interpreter, made by the first
(`nullFuncArg`, src/jsiFunc.c:764-770). -/
def nullArr (na : Option Nat) (h : Heap) : Heap × Nat :=
  match na with
  | some o => (h, o)
  | none => newArr h []

/-- `Jsi_FunctionInvoke` with no arguments: `db.transaction(f)`, `Info.times(f)`, the functions `onCommit` and
`onRollback` of a database, aliases.  src/jsiFunc.c:746-806, src/jsiSqlite.c:1199, 1243, 3447, src/jsiCmds.c:4162. -/
def viaNull (f : Fn) (body : Body) (na : Option Nat) (th : Val) (s : Chk × Heap) : (Chk × Heap) × Option Val :=
  callSub f body (nullArr na s.2).2 th false (s.1, (nullArr na s.2).1)

/-- New cells for values, none for holes. -/
def optCells : List (Option Val) → Heap → Heap × List (Option Nat)
  | [], h => (h, [])
  | none :: vs, h => ((optCells vs h).1, none :: (optCells vs h).2)
  | some v :: vs, h => ((optCells vs (newCell h v).1).1, some (newCell h v).2 :: (optCells vs (newCell h v).1).2)

/-- `Jsi_ValueArrayConcat`.  src/jsiArray.c:112-142. -/
def concatArr (h : Heap) (b o : Nat) : Heap × Nat :=
  newArr (optCells (((h.objs b).elems ++ (h.objs o).elems).map (·.map h.val)) h).1
    (optCells (((h.objs b).elems ++ (h.objs o).elems).map (·.map h.val)) h).2

/-- The call of the function of an alias: `pre` is the array given when the alias was made, `o` the array of the
arguments.  src/jsiInterp.c:292-309, 352. -/
def aliasCall (f : Fn) (body : Body) (pre na : Option Nat) (o : Nat) (th : Val) (s : Chk × Heap) : (Chk × Heap) × Option Val :=
  if (s.2.objs o).elems.length = 0 then
    match pre with
    | some b => callSub f body b th false s
    | none => viaNull f body na th s
  else
    match pre with
    | some b =>
      if (s.2.objs b).elems.length = 0 then callSub f body o th false s
      else callSub f body (concatArr s.2 b o).2 th false (s.1, (concatArr s.2 b o).1)
    | none => callSub f body o th false s

/-- A direct call of an alias in the interpreter the function belongs to.  src/jsiInterp.c:295-296. -/
def aliasOwn (f : Fn) (body : Body) (pre na : Option Nat) (vs : List Val) (th : Val) (s : Chk × Heap) : (Chk × Heap) × Option Val :=
  aliasCall f body pre na (argArr s.2 vs).2 th (s.1, (argArr s.2 vs).1)

/-- … in another interpreter: the arguments are copied (`xf`, which may fail).  src/jsiInterp.c:297-298.  (Without
arguments no array is made; here an empty one is, that nothing refers to.) -/
def aliasFrom (xf : List Val → Option (List Val)) (f : Fn) (body : Body) (pre na : Option Nat) (vs : List Val) (th : Val) (s : Chk × Heap) :
    (Chk × Heap) × Option Val :=
  if vs = [] then aliasOwn f body pre na [] th s
  else match xf vs with
    | none => (s, none)
    | some ws => aliasOwn f body pre na ws th s

/-! ## Proofs -/

theorem optCells_spec (vs : List (Option Val)) : ∀ h : Heap, h.next ≤ (optCells vs h).1.next ∧ (optCells vs h).1.nextObj = h.nextObj
    ∧ (optCells vs h).1.objs = h.objs ∧ (∀ c, c < h.next → (optCells vs h).1.val c = h.val c)
    ∧ (∀ c, some c ∈ (optCells vs h).2 → h.next ≤ c ∧ c < (optCells vs h).1.next)
    ∧ (optCells vs h).2.length = vs.length
    ∧ (∀ i : Nat, (((optCells vs h).2[i]?).join).map (optCells vs h).1.val = (vs[i]?).join) := by
  induction vs with
  | nil =>
    intro h
    refine ⟨Nat.le_refl _, rfl, rfl, fun _ _ => rfl, ?_, rfl, ?_⟩
    · intro c hc; simp [optCells] at hc
    · intro i; simp [optCells]
  | cons v vs ih =>
    intro h
    cases v with
    | none =>
      obtain ⟨a1, a2, a3, a4, a5, a6, a7⟩ := ih h
      refine ⟨a1, a2, a3, a4, ?_, by simp [optCells, a6], ?_⟩
      · intro c hc
        have hc : some c ∈ (optCells vs h).2 := by simpa [optCells] using hc
        exact a5 c hc
      · intro i
        cases i with
        | zero => simp [optCells]
        | succ i => simpa [optCells] using a7 i
    | some v =>
      obtain ⟨a1, a2, a3, a4, a5, a6, a7⟩ := ih (newCell h v).1
      have hnx : (newCell h v).1.next = h.next + 1 := rfl
      refine ⟨?_, a2, a3, ?_, ?_, by simp [optCells, a6], ?_⟩
      · show h.next ≤ (optCells vs (newCell h v).1).1.next; omega
      · intro c hc
        show (optCells vs (newCell h v).1).1.val c = _
        rw [a4 c (by omega)]; simp [newCell, Nat.ne_of_lt hc]
      · intro c hc
        show h.next ≤ c ∧ c < (optCells vs (newCell h v).1).1.next
        have hc : some c = some (newCell h v).2 ∨ some c ∈ (optCells vs (newCell h v).1).2 := by simpa [optCells] using hc
        rcases hc with hc | hc
        · have : c = h.next := Option.some.inj hc
          omega
        · have := a5 c hc; omega
      · intro i
        cases i with
        | zero =>
          show some ((optCells vs (newCell h v).1).1.val (newCell h v).2) = some v
          rw [show (newCell h v).2 = h.next from rfl, a4 h.next (by omega)]
          simp [newCell]
        | succ i => simpa [optCells] using a7 i

theorem concatArr_objs (h : Heap) (b o k : Nat) : (concatArr h b o).1.objs k =
    if k = h.nextObj then ⟨(optCells (((h.objs b).elems ++ (h.objs o).elems).map (·.map h.val)) h).2, fun _ => none⟩ else h.objs k := by
  have hs := optCells_spec (((h.objs b).elems ++ (h.objs o).elems).map (·.map h.val)) h
  unfold concatArr newArr
  dsimp only
  rw [hs.2.1, hs.2.2.1]

theorem concatArr_idx (h : Heap) (b o : Nat) : (concatArr h b o).2 = h.nextObj :=
  by
  have := (optCells_spec (((h.objs b).elems ++ (h.objs o).elems).map (fun x : Option Nat => x.map h.val)) h).2.1
  unfold concatArr newArr
  exact this

theorem concatArr_holds {h : Heap} {b o : Nat} {bs vs : List Val} (hb : Holds h b bs) (ho : Holds h o vs) :
    Holds (concatArr h b o).1 (concatArr h b o).2 (bs ++ vs) := by
  obtain ⟨a1, a2, a3, a4, a5, a6, a7⟩ := optCells_spec (((h.objs b).elems ++ (h.objs o).elems).map (·.map h.val)) h
  rw [concatArr_idx, Holds, CellsOk]
  rw [concatArr_objs, if_pos rfl]
  refine ⟨fun c hc => (a5 c hc).2, ?_, ?_⟩
  · show (optCells _ h).2.length = _
    rw [a6, List.length_map, List.length_append, hb.2.1, ho.2.1, List.length_append]
  · intro i
    have e : argVal (concatArr h b o).1 h.nextObj i = (((((h.objs b).elems ++ (h.objs o).elems).map (·.map h.val))[i]?).join) := by
      rw [argVal_elems, concatArr_objs, if_pos rfl]
      exact a7 i
    rw [e, List.getElem?_map]
    have hj : ∀ x : Option (Option Nat), (x.map (·.map h.val)).join = x.join.map h.val := by
      intro x; cases x <;> rfl
    rw [hj]
    rcases Nat.lt_or_ge i bs.length with hi | hi
    · rw [List.getElem?_append_left (by rw [hb.2.1]; exact hi), List.getElem?_append_left hi]
      exact hb.2.2 i
    · rw [List.getElem?_append_right (by rw [hb.2.1]; exact hi), List.getElem?_append_right hi, hb.2.1]
      exact ho.2.2 _

theorem newArr_old {h : Heap} {es : List (Option Nat)} {a : Nat} {ws : List Val} (ha : a < h.nextObj) (hh : Holds h a ws) :
    Holds (newArr h es).1 a ws := by
  have e : (newArr h es).1.objs a = h.objs a := by
    have : a ≠ h.nextObj := by omega
    simp [newArr, this]
  refine ⟨?_, by rw [e]; exact hh.2.1, ?_⟩
  · intro c hc; rw [e] at hc; exact hh.1 c hc
  · intro i
    have := hh.2.2 i
    rw [argVal_elems] at this ⊢
    rw [e]
    exact this

/-- **C196.** An alias made for the function `f` and the arguments `bs` (`none`: null), called in the interpreter of `f`, calls it
with `bs` and then the arguments of the call.  (An alias without arguments of its own, called without any: if the array of such
calls is empty.) -/
theorem C196_own (f : Fn) (pre na : Option Nat) (bs vs : List Val) (th : Val) (s : Chk × Heap)
    (hp : match pre with | some b => b < s.2.nextObj ∧ Holds s.2 b bs | none => bs = [])
    (hna : ∀ o, na = some o → o < s.2.nextObj ∧ Holds s.2 o []) :
    Passes (fun body => aliasOwn f body pre na vs th s) f th (bs ++ vs) s.1 := by
  have h2 := argArr_holds s.2 vs
  have hlen : ((argArr s.2 vs).1.objs (argArr s.2 vs).2).elems.length = vs.length := h2.2.1
  by_cases hv : vs = []
  · subst hv
    cases pre with
    | some b =>
      have h1 := argArr_old (vs := []) hp.1 hp.2
      refine ⟨b, (argArr s.2 []).1, fun body => ?_, h1.1, by rw [List.append_nil]; exact h1.2.1, by rw [List.append_nil]; exact h1.2.2⟩
      show aliasOwn f body (some b) na [] th s = _
      unfold aliasOwn aliasCall
      dsimp only
      rw [if_pos (by rw [hlen]; rfl)]
    | none =>
      simp only at hp
      subst hp
      cases na with
      | some o =>
        have h1 := argArr_old (vs := []) (hna o rfl).1 (hna o rfl).2
        refine ⟨o, (argArr s.2 []).1, fun body => ?_, h1.1, h1.2.1, h1.2.2⟩
        show aliasOwn f body none (some o) [] th s = _
        unfold aliasOwn aliasCall
        dsimp only
        rw [if_pos (by rw [hlen]; rfl)]
        rfl
      | none =>
        refine ⟨(newArr (argArr s.2 []).1 []).2, (newArr (argArr s.2 []).1 []).1, fun body => ?_, ?_, ?_, ?_⟩
        · show aliasOwn f body none none [] th s = _
          unfold aliasOwn aliasCall
          dsimp only
          rw [if_pos (by rw [hlen]; rfl)]
          rfl
        · intro c hc; simp [newArr] at hc
        · simp [newArr]
        · intro i; simp [argVal_elems, newArr]
  · have hpos : ((argArr s.2 vs).1.objs (argArr s.2 vs).2).elems.length ≠ 0 := by
      rw [hlen]; intro h; exact hv (List.length_eq_zero_iff.1 h)
    cases pre with
    | some b =>
      have h1 := argArr_old (vs := vs) hp.1 hp.2
      have h3 := concatArr_holds h1 h2
      by_cases hb : bs = []
      · subst hb
        refine ⟨_, _, fun body => ?_, h2.1, h2.2.1, h2.2.2⟩
        show aliasOwn f body (some b) na vs th s = _
        unfold aliasOwn aliasCall
        dsimp only
        rw [if_neg hpos, if_pos (by rw [h1.2.1]; rfl)]
      · refine ⟨_, _, fun body => ?_, h3.1, h3.2.1, h3.2.2⟩
        show aliasOwn f body (some b) na vs th s = _
        unfold aliasOwn aliasCall
        dsimp only
        rw [if_neg hpos, if_neg (by rw [h1.2.1]; intro h; exact hb (List.length_eq_zero_iff.1 h))]
    | none =>
      simp only at hp
      subst hp
      refine ⟨_, _, fun body => ?_, h2.1, h2.2.1, h2.2.2⟩
      show aliasOwn f body none na vs th s = _
      unfold aliasOwn aliasCall
      dsimp only
      rw [if_neg hpos]

/-- **C196** … called in another interpreter, with copies of the arguments, if they can be copied. -/
theorem C196_other (xf : List Val → Option (List Val)) (f : Fn) (pre na : Option Nat) (bs vs ws : List Val) (th : Val) (s : Chk × Heap)
    (hp : match pre with | some b => b < s.2.nextObj ∧ Holds s.2 b bs | none => bs = [])
    (hna : ∀ o, na = some o → o < s.2.nextObj ∧ Holds s.2 o []) (hx : vs ≠ [] → xf vs = some ws) (hw : vs = [] → ws = []) :
    Passes (fun body => aliasFrom xf f body pre na vs th s) f th (bs ++ ws) s.1 := by
  have h := C196_own f pre na bs ws th s hp hna
  by_cases hv : vs = []
  · obtain rfl := hw hv
    obtain ⟨o, g, h1, h2⟩ := h
    refine ⟨o, g, fun body => ?_, h2⟩
    show aliasFrom xf f body pre na vs th s = _
    rw [aliasFrom, if_pos hv]
    exact h1 body
  · obtain ⟨o, g, h1, h2⟩ := h
    refine ⟨o, g, fun body => ?_, h2⟩
    show aliasFrom xf f body pre na vs th s = _
    rw [aliasFrom, if_neg hv, hx hv]
    exact h1 body

/-- **C196** … and if they cannot the function is not called. -/
theorem C196_refused (xf : List Val → Option (List Val)) (f : Fn) (pre na : Option Nat) (vs : List Val) (th : Val) (s : Chk × Heap)
    (hv : vs ≠ []) (hx : xf vs = none) (body : Body) : aliasFrom xf f body pre na vs th s = (s, none) := by
  rw [aliasFrom, if_neg hv, hx]

/-! ### Own variables -/

theorem concatArr_own (h : Heap) (b o : Nat) : (concatArr h b o).2 = h.nextObj ∧ h.next ≤ (concatArr h b o).1.next ∧
    (∀ c, c < h.next → (concatArr h b o).1.val c = h.val c) ∧ (∀ k, k ≠ h.nextObj → (concatArr h b o).1.objs k = h.objs k) ∧
    Above (concatArr h b o).1 h.nextObj h.next := by
  obtain ⟨a1, a2, a3, a4, a5, a6, a7⟩ := optCells_spec (((h.objs b).elems ++ (h.objs o).elems).map (·.map h.val)) h
  refine ⟨concatArr_idx h b o, a1, a4, fun k hk => by rw [concatArr_objs, if_neg hk], ?_, ?_⟩
  · intro n c hc; rw [concatArr_objs, if_pos rfl] at hc; cases hc
  · intro c hc; rw [concatArr_objs, if_pos rfl] at hc; exact (a5 c hc).1

/-- **C197 (part).** A call of an alias with at least one argument has its own variables: whatever it assigns to them, what there was
before is as it was, the arguments given with the alias too. -/
theorem C197_arguments_partial (f : Fn) (pre na : Option Nat) (vs : List Val) (th : Val) (s : Chk × Heap) (hv : vs ≠ []) :
    Refused (fun body => aliasOwn f body pre na vs th s) ∨ ∃ o c' h',
      Starts (fun body => aliasOwn f body pre na vs th s) f o th false (c', h') ∧ Own s.2 o h' := by
  have hs := argArr_spec s.2 vs
  have hlen : ((argArr s.2 vs).1.objs (argArr s.2 vs).2).elems.length ≠ 0 := by
    rw [(argArr_holds s.2 vs).2.1]; intro h; exact hv (List.length_eq_zero_iff.1 h)
  have direct : (∀ body, aliasOwn f body pre na vs th s = direct f body vs th false s) →
      Refused (fun body => aliasOwn f body pre na vs th s) ∨ ∃ o c' h',
      Starts (fun body => aliasOwn f body pre na vs th s) f o th false (c', h') ∧ Own s.2 o h' := by
    intro he
    have : (fun body => aliasOwn f body pre na vs th s) = (fun body => Call.direct f body vs th false s) := funext he
    rw [this]
    rcases C118_direct_partial f vs th false s with h | ⟨o, c', h', h1, h2, _⟩
    · exact Or.inl h
    · exact Or.inr ⟨o, c', h', h1, h2⟩
  cases pre with
  | none =>
    apply direct
    intro body
    unfold aliasOwn aliasCall Call.direct
    dsimp only
    rw [if_neg hlen]
  | some b =>
    by_cases hb : ((argArr s.2 vs).1.objs b).elems.length = 0
    · apply direct
      intro body
      unfold aliasOwn aliasCall Call.direct
      dsimp only
      rw [if_neg hlen, if_pos hb]
    · have he : ∀ body, aliasOwn f body (some b) na vs th s = callSub f body (concatArr (argArr s.2 vs).1 b (argArr s.2 vs).2).2 th false
          (s.1, (concatArr (argArr s.2 vs).1 b (argArr s.2 vs).2).1) := by
        intro body
        unfold aliasOwn aliasCall
        dsimp only
        rw [if_neg hlen, if_neg hb]
      rw [show (fun body => aliasOwn f body (some b) na vs th s) = _ from funext he]
      rcases callSub_cases f (concatArr (argArr s.2 vs).1 b (argArr s.2 vs).2).2 th false
        (s.1, (concatArr (argArr s.2 vs).1 b (argArr s.2 vs).2).1) with ⟨_, h⟩ | ⟨_, h⟩
      · refine Or.inr ⟨_, _, _, h, ?_⟩
        obtain ⟨c1, c2, c3, c4, c5⟩ := concatArr_own (argArr s.2 vs).1 b (argArr s.2 vs).2
        rw [c1]
        refine own_of (by rw [hs.2.2.1]; omega) (Nat.le_trans hs.2.1 c2) ?_ ?_ ?_
        · intro c hc; rw [c3 c (by have := hs.2.1; omega)]; exact hs.2.2.2.1 c hc
        · intro k hk
          rw [c4 k (by rw [hs.2.2.1]; omega)]
          exact hs.2.2.2.2.1 k (by omega)
        · exact ⟨fun n c hc => Nat.le_trans hs.2.1 (c5.1 n c hc), fun c hc => Nat.le_trans hs.2.1 (c5.2 c hc)⟩
      · exact Or.inl h

/-- **C197 (part).** A call without arguments starts with its parameters at their defaults or undefined, and its local variables
undefined. -/
theorem C197_start_partial (f : Fn) (o : Nat) (th : Val) (s : Chk × Heap) (ho : Holds s.2 o [])
    (hn : (f.ps.args.map (·.name)).Nodup) (hl : ∀ n ∈ f.locals, n ∉ f.ps.args.map (·.name)) :
    Refused (fun body => viaNull f body (some o) th s) ∨ ∃ (c' : Chk) (h' : Heap), Starts (fun body => viaNull f body (some o) th s) f o th false (c', h')
      ∧ (∀ (i : Nat) (p : Param), f.ps.args[i]? = some p → var h' o p.name = some (expected p none)) ∧ (∀ n ∈ f.locals, var h' o n = some .undef) := by
  have e : (fun body => viaNull f body (some o) th s) = (fun body => callSub f body o th false s) := rfl
  rw [e]
  rcases C117_parameters f o th false s ho.1 hn hl with h | ⟨c', h', h1, h2, h3, _⟩
  · exact Or.inl h
  · refine Or.inr ⟨c', h', h1, fun i p hp => ?_, h3⟩
    rw [h2 i p hp, ho.2.2 i]
    rfl

/-! ## Where it is not so -/

/-- `[1]`, as the object 0. -/
def one1 : Heap := (argArr heap0 [.num 1]).1

/-- **C197 refuted.** `function f(x) { var r = x; x = 9; return r; }  Interp.alias('g', f, [1]);`: the first `g()` is 1 and the
second 9. -/
theorem C197_preset_refuted :
    Holds one1 0 [.num 1] ∧
    (aliasOwn f1 setX (some 0) none [] .null (chk0, one1)).2 = some (.num 1) ∧
    (aliasOwn f1 setX (some 0) none [] .null (aliasOwn f1 setX (some 0) none [] .null (chk0, one1)).1).2 = some (.num 9) :=
  ⟨argArr_holds heap0 _, by decide +kernel, by decide +kernel⟩

/-- `function f() { var v; v = 5; g(); return v; }`, where `g` is called without arguments. -/
def outer (g : Nat → Chk × Heap → (Chk × Heap) × Option Val) : Body := fun o _ s =>
  ((g o (s.1, assign s.2 o (asc "v", .num 5))).1, var (g o (s.1, assign s.2 o (asc "v", .num 5))).1.2 o (asc "v"))

/-- `function g() { var v; v = 7; }`, -/
def set7 : Body := fun o _ s => ((s.1, assign s.2 o (asc "v", .num 7)), some .undef)

/-- An empty array, as the object 0. -/
def empty1 : Heap := (argArr heap0 []).1

/-- **C197 refuted.** Calls without arguments share their variables: `function g() { var v; v = 7; }` called by
`function f() { var v; v = 5; …; return v; }` in this way changes the variable of `f`, which returns 7 (as with a
transaction of a database inside another, or an alias called within itself); called directly it does not. -/
theorem C197_nested_refuted :
    Holds empty1 0 [] ∧
    (viaNull fV (outer fun o s => viaNull fV set7 (some 0) .null s) (some 0) .null (chk0, empty1)).2 = some (.num 7) ∧
    (viaNull fV (outer fun o s => direct fV set7 [] .null false s) (some 0) .null (chk0, empty1)).2 = some (.num 5) :=
  ⟨argArr_holds heap0 _, by decide +kernel, by decide +kernel⟩

/-- **C197 refuted.** A function without a variable `v` sees that of a function called before in this way. -/
theorem C197_left_over_refuted :
    (viaNull gV getV (some 0) .null (viaNull fV setV (some 0) .null (chk0, empty1)).1).2 = some (.num 5) ∧
    (direct gV getV [] .undef false (viaNull fV setV (some 0) .null (chk0, empty1)).1).2 = none := by
  constructor <;> decide +kernel

/-! ## Cases -/

/-- `Interp.alias('g', f, [1]); g(2)` passes 1 and 2. -/
example : Passes (fun body => aliasOwn f1 body (some 0) none [.num 2] .null (chk0, one1)) f1 .null [.num 1, .num 2] chk0 :=
  C196_own f1 (some 0) none [.num 1] [.num 2] .null (chk0, one1) ⟨by decide, argArr_holds heap0 _⟩ (by simp)

/-- … and from another interpreter. -/
example : Passes (fun body => aliasFrom some f1 body (some 0) none [.num 2] .null (chk0, one1)) f1 .null [.num 1, .num 2] chk0 :=
  C196_other some f1 (some 0) none [.num 1] [.num 2] [.num 2] .null (chk0, one1) ⟨by decide, argArr_holds heap0 _⟩ (by simp) (fun _ => rfl)
    (by simp)

example : (aliasOwn (⟨mkParams [⟨asc "x", noTys, none⟩, ⟨asc "y", noTys, none⟩], false, [], noTys⟩ : Fn)
    (fun o _ s => (s, var s.2 o (asc "y"))) (some 0) none [.num 2] .null (chk0, one1)).2 = some (.num 2) := by decide +kernel

end Verif.Call
