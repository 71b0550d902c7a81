import Verif.Array.Refine
import Verif.Array.Safe

/-!
The properties of arrays: C25, C26 and C53.
-/

namespace Verif.Array

variable {V : Type}

/-! ### C53: memory safety -/

/-- **C53.** No sequence of array operations, whatever the arrays and arguments and whatever the limit
`maxArrayList`, accesses memory outside a vector or runs into a failed `assert`. -/
theorem C53_no_undefined_behaviour (M : Nat) (h : Heap V) (ops : List (Op V)) :
    ∃ w rs, run M ⟨h, []⟩ ops = some (w, rs) ∧ ∀ a ∈ w.arrs, a.cnt ≤ a.mem.length := by
  obtain ⟨w, rs, e, s⟩ := run_safe M ops ⟨h, []⟩ (fun i a ha => by simp at ha)
  refine ⟨w, rs, e, fun a ha => ?_⟩
  obtain ⟨i, hi⟩ := List.mem_iff_getElem?.1 ha
  exact s i a hi

/-! ### Histories -/

/-- **C25, C26 (part).** Whatever a script does with its arrays, as long as JavaScript's result is
defined by `specRun` (which spells out the exceptions), the results of all calls and the contents of
all arrays at the end are those of JavaScript: no operation disturbs another array, an array returned
by `slice`, `splice` or `concat` is independent of its origin, and nothing is lost or invented.

`B` bounds the lengths, `M` is `maxArrayList`; every `concat` costs 16 places of it (see
`C26_concat_chain_refuted`). -/
theorem C25_history_partial (M B : Nat) (h : Heap V) (ops : List (Op V)) (s : List (List (Option V)))
    (rs : List (Ret V)) (hB : 112 ≤ B) (hM : B + 16 * concats ops ≤ M)
    (hs : specRun B [] ops = some (s, rs)) :
    ∃ w, run M ⟨h, []⟩ ops = some (w, rs) ∧ w.view = s := by
  have I : InvL B (⟨h, []⟩ : World V) [] [] :=
    ⟨rfl, fun i a L ha => by simp at ha, rfl, fun i j Li Lj _ hi => by simp at hi⟩
  obtain ⟨w, Ls, C, e, I'⟩ := run_refines (M := M) (B := B) ops I hB (Nat.le_refl _) hM hs
  exact ⟨w, e, inv_view I'⟩

/-- What a script sees after some operations, with the default limit. -/
def out (ops : List (Op Nat)) : Option (List (List (Option Nat)) × List (Ret Nat)) :=
  (run 100000 ⟨⟨0, fun _ => 0⟩, []⟩ ops).map fun x => (x.1.view, x.2)

def sample : List (Op Nat) :=
  [.create, .push 0 [1, 2, 3, 4], .unshift 0 [8, 9], .splice 0 1 (some 2) [5, 6, 7], .slice 0 (-3) none,
    .concat 0 [.arr 2, .val 4, .arr 0], .reverse 0, .fill 2 0 none none, .pop 3, .shift 0, .assign 1 4 3]

example : specRun 1000 [] sample = some
    ([[some 3, some 2, some 7, some 6, some 5, some 8], [some 9, some 1, none, none, some 3],
      [some 0, some 0, some 0],
      [some 8, some 5, some 6, some 7, some 2, some 3, some 4, some 2, some 3, some 4, some 4, some 8, some 5,
        some 6, some 7, some 2, some 3]],
      [.newArray, .num 4, .num 6, .newArray, .newArray, .newArray, .this, .this, .value 4, .value 4,
        .undef]) := by decide +kernel

example : out sample = specRun 1000 [] sample := by decide +kernel

/-- The arrays a script may hold: `w` is reached by some operations that JavaScript defines, and `s` is
what it should see. -/
def Reached (M B : Nat) (w : World V) (s : List (List (Option V))) : Prop :=
  112 ≤ B ∧ ∃ h ops rs, specRun B [] ops = some (s, rs) ∧ B + 16 * concats ops + 16 ≤ M ∧
    run M ⟨h, []⟩ ops = some (w, rs)

theorem run_append (M : Nat) (ops : List (Op V)) (op : Op V) : ∀ (w : World V),
    run M w (ops ++ [op]) = (run M w ops).bind fun x =>
      (step M x.1 op).map fun y => (y.1, x.2 ++ [y.2]) := by
  induction ops with
  | nil =>
    intro w
    simp only [List.nil_append, run, Option.bind_some]
    cases step M w op <;> rfl
  | cons o ops ih =>
    intro w
    simp only [List.cons_append, run]
    cases step M w o with
    | none => rfl
    | some x =>
      simp only [Option.bind_some, ih]
      cases run M x.1 ops with
      | none => rfl
      | some y =>
        simp only [Option.map_some, Option.bind_some]
        cases step M y.1 op <;> rfl

/-- Every single step from a reached state. -/
theorem step_reached {M B : Nat} {w : World V} {s s' : List (List (Option V))} {op : Op V} {r : Ret V}
    (hw : Reached M B w s) (hs : specStep B s op = some (s', r)) :
    w.view = s ∧ ∃ w', step M w op = some (w', r) ∧ w'.view = s' := by
  obtain ⟨hB, h, ops, rs, h1, h2, h3⟩ := hw
  have I : InvL B (⟨h, []⟩ : World V) [] [] :=
    ⟨rfl, fun i a L ha => by simp at ha, rfl, fun i j Li Lj _ hi => by simp at hi⟩
  have key : ∀ (ops : List (Op V)) {C : Nat} {w : World V} {Ls s s' rs},
      InvL C w Ls s → 112 ≤ C → B ≤ C → C + 16 * concats ops ≤ M →
      specRun B s ops = some (s', rs) →
      ∃ w' Ls', run M w ops = some (w', rs) ∧ InvL (C + 16 * concats ops) w' Ls' s' := by
    intro ops
    induction ops with
    | nil => intro C w Ls s s' rs I _ _ _ h; cases h; exact ⟨w, Ls, rfl, I⟩
    | cons op ops ih =>
      intro C w Ls s s' rs I h112 hBC hM h
      rw [concats_cons] at hM
      simp only [specRun, Option.bind_eq_bind] at h
      obtain ⟨⟨s1, r⟩, h1, h2⟩ := Option.bind_eq_some_iff.1 h
      obtain ⟨⟨s2, rs'⟩, h3, h4⟩ := Option.bind_eq_some_iff.1 h2
      cases h4
      obtain ⟨w1, Ls1, e1, I1⟩ := step_refines (M := M) I h112 hBC (by omega) h1
      obtain ⟨w2, Ls2, e2, I2⟩ := ih I1 (by omega) (by omega) (by omega) h3
      refine ⟨w2, Ls2, ?_, ?_⟩
      · rw [run, e1]
        simp only [Option.bind_some, e2, Option.map_some]
      · rw [concats_cons, show C + 16 * (concats [op] + concats ops)
          = C + 16 * concats [op] + 16 * concats ops by omega]
        exact I2
  obtain ⟨w1, Ls1, e1, I1⟩ := key ops I hB (Nat.le_refl _) (by omega) h1
  rw [h3] at e1
  cases e1
  refine ⟨inv_view I1, ?_⟩
  have hc : concats [op] ≤ 1 := by cases op <;> simp [concats]
  obtain ⟨w', Ls', e2, I2⟩ := step_refines (M := M) I1 (by omega) (by omega) (by omega) hs
  exact ⟨w', e2, inv_view I2⟩

example : Reached 100000 1000 (V := Nat) ⟨⟨0, fun _ => 0⟩, [.new]⟩ [[]] :=
  ⟨by decide, ⟨0, fun _ => 0⟩, [.create], [.newArray], rfl, by decide, rfl⟩

/-! ### C25 -/

/-- **C25.** `push` appends its arguments in order and returns the new length. -/
theorem C25_push_partial (M B : Nat) (w : World V) (s : List (List (Option V))) (hw : Reached M B w s)
    (i : Nat) (l : List (Option V)) (hl : w.view[i]? = some l) (vs : List V)
    (hr : l.length + vs.length + 20 ≤ B) :
    ∃ w', step M w (.push i vs) = some (w', .num (l.length + vs.length)) ∧
      w'.view = w.view.set i (l ++ vs.map some) := by
  have hv : ∀ op s' r, specStep B s op = some (s', r) → w.view = s := fun op s' r hs =>
    (step_reached hw hs).1
  have he : w.view = s := hv .create _ _ rfl
  rw [he] at hl ⊢
  refine (step_reached hw ?_).2
  simp only [specStep, hl, Option.bind_eq_bind, Option.bind_some]
  rw [if_pos (show roomFor _ _ from hr)]

/-- **C25.** `pop` returns the last element and removes it; on an empty array it returns `undefined`. -/
theorem C25_pop (M B : Nat) (w : World V) (s : List (List (Option V))) (hw : Reached M B w s)
    (i : Nat) (l : List (Option V)) (hl : w.view[i]? = some l) :
    (l = [] → step M w (.pop i) = some (w, .undef) ∨
      ∃ w', step M w (.pop i) = some (w', .undef) ∧ w'.view = w.view) ∧
    ∀ l' v, l = l' ++ [v] → ∃ w', step M w (.pop i) =
      some (w', match v with | some v => .value v | none => .undef) ∧ w'.view = w.view.set i l' := by
  have he : w.view = s := (step_reached (op := .create) hw rfl).1
  rw [he] at hl ⊢
  have := (step_reached (op := .pop i) hw (s' := s.set i l.dropLast) (r := Ret.ofOption l.getLast?) (by
    simp only [specStep, hl, Option.bind_eq_bind, Option.bind_some])).2
  refine ⟨?_, ?_⟩
  · rintro rfl
    right
    obtain ⟨w', h1, h2⟩ := this
    refine ⟨w', h1, ?_⟩
    rw [h2]
    apply List.ext_getElem?
    intro j
    by_cases hj : j = i
    · subst hj
      rw [List.getElem?_set_self (List.getElem?_eq_some_iff.1 hl).1, hl]; rfl
    · rw [List.getElem?_set_ne (fun e => hj e.symm)]
  · rintro l' v rfl
    obtain ⟨w', h1, h2⟩ := this
    refine ⟨w', ?_, by simpa using h2⟩
    rw [h1]
    simp only [List.getLast?_append, List.getLast?_singleton, Option.some_or]
    cases v <;> rfl

/-- **C25.** `shift` returns the first element and moves the others down, unless the first one is a
hole. -/
theorem C25_shift_partial (M B : Nat) (w : World V) (s : List (List (Option V))) (hw : Reached M B w s)
    (i : Nat) (v : V) (l : List (Option V)) (hl : w.view[i]? = some (some v :: l)) :
    ∃ w', step M w (.shift i) = some (w', .value v) ∧ w'.view = w.view.set i l := by
  have he : w.view = s := (step_reached (op := .create) hw rfl).1
  rw [he] at hl ⊢
  refine (step_reached hw ?_).2
  simp only [specStep, hl, Option.bind_eq_bind, Option.bind_some]
  rfl

/-- **C25.** `unshift` puts its arguments in front in order and returns the new length. -/
theorem C25_unshift_partial (M B : Nat) (w : World V) (s : List (List (Option V)))
    (hw : Reached M B w s) (i : Nat) (l : List (Option V)) (hl : w.view[i]? = some l) (vs : List V)
    (hne : vs ≠ []) (hr : l.length + vs.length + 20 ≤ B) :
    ∃ w', step M w (.unshift i vs) = some (w', .num (l.length + vs.length)) ∧
      w'.view = w.view.set i (vs.map some ++ l) := by
  have he : w.view = s := (step_reached (op := .create) hw rfl).1
  rw [he] at hl ⊢
  refine (step_reached hw ?_).2
  simp only [specStep, hl, Option.bind_eq_bind, Option.bind_some]
  rw [if_pos ⟨hne, hr⟩]

/-- **C25 refuted**: `shift` of a leading hole returns `undefined` as it should, but the length stays:
the hole moves to the end, for every array. -/
theorem C25_shift_hole_refuted (h : Heap V) (a : Arr) (X : List (Option Nat)) (hR : Rep a (none :: X)) :
    ∃ a', shift h a = some ⟨h, a', none, false⟩ ∧ elems h a' = (elems h a).tail ++ [none] ∧
      (elems h a').length = (elems h a).length := by
  obtain ⟨a', h1, h2⟩ := shift_hole h a X hR
  refine ⟨a', h1, ?_, ?_⟩
  · rw [rep_elems h2, rep_elems hR]; simp [contents]
  · rw [rep_elems h2, rep_elems hR]; simp [contents]

/-- The script: `a = []; a[1] = 7; a.shift()` leaves `a.length` at 2. -/
example : out [.create, .assign 0 1 7, .shift 0] = some ([[some 7, none]], [.newArray, .undef, .undef]) := by
  decide +kernel

/-- **C25 refuted**: `unshift` without arguments returns 0, not the length. -/
theorem C25_unshift_none_refuted : out [.create, .push 0 [1, 2], .unshift 0 []] =
    some ([[some 1, some 2]], [.newArray, .num 2, .num 0]) := by decide +kernel

/-- **C25 refuted**: near the limit `push` drops its arguments and reports success, with the old length. -/
theorem C25_push_limit_refuted (M : Nat) (h : Heap V) (a : Arr) (L : List (Option Nat)) (ps : List Nat)
    (hR : Rep a L) (hf : ¬ (L.length + 1 < M ∧ roundUp (L.length + 1) ≤ M)) :
    push M h a ps = some ⟨h, a, L.length, false⟩ := by
  unfold push
  rw [pushLoop_nofit ps 0 (by rw [hR.sizeOf]; exact hf)]
  simp only [Option.bind_eq_bind, Option.bind_some, hR.sizeOf]
  rfl

/-- With the default limit the last length that can be reached is 99999. -/
example : ¬ (99999 + 1 < 100000 ∧ roundUp (99999 + 1) ≤ 100000) ∧
    (99998 + 1 < 100000 ∧ roundUp (99998 + 1) ≤ 100000) := by decide +kernel

example : ((run 16 (⟨⟨0, fun _ => 0⟩, []⟩ : World Nat) [.create, .push 0 (List.range 20), .push 0 [1]]).map
    fun x => (x.1.view.map List.length, x.2)) = some ([15], [.newArray, .num 15, .num 15]) := by decide +kernel

/-! ### C26 -/

/-- **C26.** `slice` returns JavaScript's slice, with the element at `end` included. -/
theorem C26_slice_partial (M B : Nat) (w : World V) (s : List (List (Option V))) (hw : Reached M B w s)
    (i : Nat) (l : List (Option V)) (hl : w.view[i]? = some l) (st : Int) (e : Option Int)
    (hst : -(l.length : Int) ≤ st) (hr : l.length + 20 ≤ B) :
    ∃ w', step M w (.slice i st e) = some (w', .newArray) ∧
      w'.view = w.view ++ [ES.slice l st (inclusive e)] := by
  have he : w.view = s := (step_reached (op := .create) hw rfl).1
  rw [he] at hl ⊢
  refine (step_reached hw ?_).2
  simp only [specStep, hl, Option.bind_eq_bind, Option.bind_some]
  rw [if_pos ⟨hst, hr⟩]

/-- **C26.** Without `end` it is JavaScript's slice. -/
theorem C26_slice_to_end (M B : Nat) (w : World V) (s : List (List (Option V))) (hw : Reached M B w s)
    (i : Nat) (l : List (Option V)) (hl : w.view[i]? = some l) (st : Int)
    (hst : -(l.length : Int) ≤ st) (hr : l.length + 20 ≤ B) :
    ∃ w', step M w (.slice i st none) = some (w', .newArray) ∧
      w'.view = w.view ++ [ES.slice l st none] :=
  C26_slice_partial M B w s hw i l hl st none hst hr

/-- **C26.** `splice` removes, inserts and returns what JavaScript says. -/
theorem C26_splice_partial (M B : Nat) (w : World V) (s : List (List (Option V))) (hw : Reached M B w s)
    (i : Nat) (l : List (Option V)) (hl : w.view[i]? = some l) (st : Int) (how : Option Int)
    (vs : List V) (hst : st ≤ l.length) (hh : 0 ≤ how.getD 0) (hv : how = none → vs = [])
    (hr : l.length + vs.length + 20 ≤ B) :
    ∃ w', step M w (.splice i st how vs) = some (w', .newArray) ∧
      w'.view = w.view.set i (ES.splice l st how vs).2 ++ [(ES.splice l st how vs).1] := by
  have he : w.view = s := (step_reached (op := .create) hw rfl).1
  rw [he] at hl ⊢
  refine (step_reached hw ?_).2
  simp only [specStep, hl, Option.bind_eq_bind, Option.bind_some]
  rw [if_pos ⟨hst, hh, hv, hr⟩]

/-- **C26.** `concat` returns the elements of `this`, then those of its arguments, and changes none of
them. -/
theorem C26_concat_partial (M B : Nat) (w : World V) (s : List (List (Option V))) (hw : Reached M B w s)
    (i : Nat) (l ls : List (Option V)) (hl : w.view[i]? = some l) (args : List (Item V))
    (ha : itemsSpec w.view args = some ls) (hr : l.length + ls.length + 20 ≤ B) :
    ∃ w', step M w (.concat i args) = some (w', .newArray) ∧ w'.view = w.view ++ [l ++ ls] := by
  have he : w.view = s := (step_reached (op := .create) hw rfl).1
  rw [he] at hl ha ⊢
  refine (step_reached hw ?_).2
  simp only [specStep, hl, ha, Option.bind_eq_bind, Option.bind_some]
  rw [if_pos (show roomFor _ _ from hr)]

/-- **C26.** `reverse` reverses in place, holes included. -/
theorem C26_reverse (M B : Nat) (w : World V) (s : List (List (Option V))) (hw : Reached M B w s)
    (i : Nat) (l : List (Option V)) (hl : w.view[i]? = some l) :
    ∃ w', step M w (.reverse i) = some (w', .this) ∧ w'.view = w.view.set i l.reverse := by
  have he : w.view = s := (step_reached (op := .create) hw rfl).1
  rw [he] at hl ⊢
  refine (step_reached hw ?_).2
  simp only [specStep, hl, Option.bind_eq_bind, Option.bind_some]

/-- **C26.** `fill` fills JavaScript's range, with the element at `end` included. -/
theorem C26_fill_partial (M B : Nat) (w : World V) (s : List (List (Option V))) (hw : Reached M B w s)
    (i : Nat) (l : List (Option V)) (hl : w.view[i]? = some l) (v : V) (st e : Option Int)
    (hst : -(l.length : Int) ≤ st.getD 0) :
    ∃ w', step M w (.fill i v st e) = some (w', .this) ∧
      w'.view = w.view.set i (ES.fill l v st (inclusive e)) := by
  have he : w.view = s := (step_reached (op := .create) hw rfl).1
  rw [he] at hl ⊢
  refine (step_reached hw ?_).2
  simp only [specStep, hl, Option.bind_eq_bind, Option.bind_some]
  rw [if_pos hst]

/-- **C26 refuted**: the element at `end` is included (`[1,2,3].slice(0,1)`, `[1,2,3].fill(9,0,1)`). -/
theorem C26_end_refuted :
    out [.create, .push 0 [1, 2, 3], .slice 0 0 (some 1)] =
      some ([[some 1, some 2, some 3], [some 1, some 2]], [.newArray, .num 3, .newArray]) ∧
    ES.slice [some 1, some 2, some 3] 0 (some 1) = [some 1] ∧
    out [.create, .push 0 [1, 2, 3], .fill 0 9 (some 0) (some 1)] =
      some ([[some 9, some 9, some 3]], [.newArray, .num 3, .this]) ∧
    ES.fill [some 1, some 2, some 3] 9 (some 0) (some 1) = [some 9, some 2, some 3] := by decide +kernel

/-- **C26 refuted**: a `start` below minus the length gives nothing, for every array. -/
theorem C26_far_start_refuted (M : Nat) (h : Heap V) (a : Arr) (st : Int) (e : Option Int)
    (hst : st < -(sizeOf a : Int)) : slice M h a st e = some ⟨h, a, .new, false⟩ := by
  unfold slice sliceStart
  simp only []
  rw [if_neg (by omega), if_pos (show (if st < 0 then _ else _) < (0 : Int) by rw [if_pos (by omega)]; omega)]

/-- JavaScript's slice from there is the whole array. -/
theorem C26_far_start_js (l : List (Option V)) (st : Int) (hst : st < -(l.length : Int)) :
    ES.slice l st none = l := by
  unfold ES.slice ES.rel
  simp only [Option.getD_none]
  rw [if_pos (show st < 0 by omega), if_neg (show ¬ ((l.length : Int) < 0) by omega)]
  have : ((l.length : Int) + st).toNat = 0 := by omega
  rw [this]
  simp

/-- **C26 refuted**: `splice` past the end inserts nothing, and a negative count removes everything from
`start` on. -/
theorem C26_splice_refuted :
    out [.create, .push 0 [1], .splice 0 2 (some 0) [5]] = some ([[some 1], []], [.newArray, .num 1, .newArray]) ∧
    ES.splice [some 1] 2 (some 0) [5] = ([], [some 1, some 5]) ∧
    out [.create, .push 0 [1, 2], .splice 0 0 (some (-1)) []] =
      some ([[], [some 1, some 2]], [.newArray, .num 2, .newArray]) ∧
    ES.splice [some 1, some 2] 0 (some (-1)) [] = ([], [some 1, some 2]) := by decide +kernel

/-- The arrays `a0 = []`, `a1 = a0.concat()`, `a2 = a1.concat()`, ...: empty, but ever larger. -/
theorem concat_empty (M k : Nat) (h : Heap V) (hk : 16 * (k + 8) ≤ M) :
    concat M h ⟨List.replicate (16 * (k + 7)) none, 0⟩ [] =
      some ⟨h, ⟨List.replicate (16 * (k + 7)) none, 0⟩, ⟨List.replicate (16 * (k + 8)) none, 0⟩, false⟩ := by
  have hlen : (List.replicate (16 * (k + 7)) (none : Option Nat)).length = 16 * (k + 7) := by simp
  have hne : List.replicate (16 * (k + 7)) (none : Option Nat) ≠ [] := by
    intro e; have := congrArg List.length e; simp at this
  have hru : roundUp (16 * (k + 7) + 1) = 16 * (k + 8) := by unfold roundUp; simp only []; omega
  unfold concat
  simp only [hlen]
  rw [if_neg (by omega)]
  have hsz : sizer M .new (16 * (k + 7) + 1)
      = some ⟨List.replicate (16 * (k + 8)) none, 16 * (k + 7) + 1⟩ := by
    unfold sizer
    rw [hru, if_neg (by omega)]
    simp [Arr.new]
  rw [hsz]
  have h0 : sizeOf ⟨List.replicate (16 * (k + 7)) none, 0⟩ = 0 := by unfold sizeOf; simp
  simp only [h0, dupLoop, Option.bind_eq_bind, Option.bind_some, concatLoop, setLength]
  rw [if_neg (by simp), if_pos (by simp)]
  rfl

theorem concat_empty_fail (M k : Nat) (h : Heap V) (hk : M < 16 * (k + 8)) :
    concat M h ⟨List.replicate (16 * (k + 7)) none, 0⟩ [] =
      some ⟨h, ⟨List.replicate (16 * (k + 7)) none, 0⟩, .new, true⟩ := by
  have hlen : (List.replicate (16 * (k + 7)) (none : Option Nat)).length = 16 * (k + 7) := by simp
  have hru : roundUp (16 * (k + 7) + 1) = 16 * (k + 8) := by unfold roundUp; simp only []; omega
  unfold concat
  simp only [hlen]
  rw [if_neg (by omega)]
  have hsz : sizer M .new (16 * (k + 7) + 1) = none := by
    unfold sizer
    rw [hru, if_pos (by omega)]
  rw [hsz]

/-- The arrays after `n` of those calls. -/
def chain (n : Nat) : List Arr := .new :: (List.range n).map fun k => ⟨List.replicate (16 * (k + 7)) none, 0⟩

/-- `a0 = []; a1 = a0.concat(); ...; an = a(n-1).concat()`. -/
def chainOps (n : Nat) : List (Op V) := .create :: (List.range n).map fun k => .concat k []

theorem chain_length (n : Nat) : (chain n).length = n + 1 := by simp [chain]

theorem chain_last (n : Nat) : (chain (n + 1))[n + 1]? = some ⟨List.replicate (16 * (n + 7)) none, 0⟩ := by
  simp [chain, List.range_succ]

theorem chain_run (M : Nat) (h : Heap V) (n : Nat) (hn : 16 * (n + 6) ≤ M) (hM : 112 ≤ M) :
    run M ⟨h, []⟩ (chainOps n) = some (⟨h, chain n⟩, List.replicate (n + 1) .newArray) := by
  induction n with
  | zero => rfl
  | succ n ih =>
    have e : (chainOps (n + 1) : List (Op V)) = chainOps n ++ [.concat n []] := by
      simp [chainOps, List.range_succ]
    rw [e, run_append, ih (by omega)]
    simp only [Option.bind_some]
    have hok : Op.ok (⟨h, chain n⟩ : World V).arrs.length (.concat n [] : Op V) = true := by
      simp [Op.ok, chain_length]
    rw [step, if_pos hok]
    have hc : chain (n + 1) = chain n ++ [⟨List.replicate (16 * (n + 7)) none, 0⟩] := by
      simp [chain, List.range_succ]
    cases n with
    | zero =>
      have : concat M h .new [] = some ⟨h, .new, ⟨List.replicate 112 none, 0⟩, false⟩ := by
        unfold concat
        simp only [Arr.new, List.length_nil, if_true]
        have hsz : sizer M ⟨[], 0⟩ 101 = some ⟨List.replicate 112 none, 101⟩ := by
          unfold sizer
          rw [show roundUp 101 = 112 by decide, if_neg (by omega)]
          simp
        rw [hsz]
        simp only [sizeOf, if_true, dupLoop, Option.bind_eq_bind, Option.bind_some, concatLoop, setLength]
        rw [if_neg (by simp), if_pos (by simp)]
        rfl
      simp only [stepOk, chain, List.range_zero, List.map_nil, List.getElem?_cons_zero, Option.bind_some,
        toArgs, this, Option.map_some, World.add]
      rfl
    | succ n =>
      simp only [stepOk, chain_last, Option.bind_some, toArgs, concat_empty M n h (by omega),
        Option.map_some, World.add, Bool.false_eq_true, if_false]
      rw [hc]
      rw [List.replicate_succ' (n := n + 1 + 1)]

/-- **C26 refuted**: `concat` fails on empty arrays. `a = a.concat()` makes the (empty) array larger
inside, 16 places at a time, until the limit is reached; then it fails with "index too large".  This is
so for every limit. -/
theorem C26_concat_chain_refuted (M : Nat) (h : Heap V) (hM : 112 ≤ M) : ∃ n w rs,
    run M ⟨h, []⟩ (chainOps n ++ [.concat n []]) = some (w, rs) ∧ w.view = List.replicate (n + 1) [] ∧
      rs = List.replicate (n + 1) .newArray ++ [.error] := by
  obtain ⟨k, hk1, hk2⟩ : ∃ k, 16 * (k + 1 + 6) ≤ M ∧ M < 16 * (k + 8) := ⟨M / 16 - 7, by omega, by omega⟩
  refine ⟨k + 1, ⟨h, chain (k + 1)⟩, _, ?_, ?_, rfl⟩
  · rw [run_append, chain_run M h (k + 1) hk1 hM]
    simp only [Option.bind_some]
    have hok : Op.ok (⟨h, chain (k + 1)⟩ : World V).arrs.length (.concat (k + 1) [] : Op V) = true := by
      simp [Op.ok, chain_length]
    rw [step, if_pos hok]
    simp only [stepOk, chain_last, Option.bind_some, toArgs, concat_empty_fail M k h (by omega),
        Option.map_some, World.add, if_true]
  · simp only [World.view, chain]
    rw [List.map_cons, List.map_map, List.replicate_succ]
    congr 1
    apply List.ext_getElem
    · simp
    · intro i h1 h2
      simp [elems]

/-- JavaScript defines all of it. -/
theorem C26_concat_chain_js (n : Nat) : ∃ rs, specRun (V := V) 112 [] (chainOps n) = some (List.replicate (n + 1) [], rs) := by
  have app : ∀ (ops : List (Op V)) (op : Op V) (s : List (List (Option V))),
      specRun 112 s (ops ++ [op]) = (specRun 112 s ops).bind fun x =>
        (specStep 112 x.1 op).bind fun y => some (y.1, x.2 ++ [y.2]) := by
    intro ops
    induction ops with
    | nil =>
      intro op s
      simp only [List.nil_append, specRun, Option.bind_eq_bind, Option.bind_some]
    | cons o ops ih =>
      intro op s
      simp only [List.cons_append, specRun, Option.bind_eq_bind, ih]
      cases specStep 112 s o with
      | none => rfl
      | some x =>
        simp only [Option.bind_some]
        cases specRun 112 x.1 ops with
        | none => rfl
        | some y =>
          simp only [Option.bind_some]
          cases specStep 112 y.1 op <;> rfl
  induction n with
  | zero => exact ⟨_, rfl⟩
  | succ n ih =>
    obtain ⟨rs, h⟩ := ih
    have e : (chainOps (n + 1) : List (Op V)) = chainOps n ++ [.concat n []] := by
      simp [chainOps, List.range_succ]
    refine ⟨rs ++ [.newArray], ?_⟩
    rw [e, app, h]
    simp only [Option.bind_some, specStep, Option.bind_eq_bind]
    rw [List.getElem?_replicate_of_lt (by omega)]
    simp only [Option.bind_some, itemsSpec, List.length_nil]
    rw [if_pos (by decide)]
    simp only [Option.bind_some, List.append_nil]
    rw [← List.replicate_succ']

/-- **C26 refuted**: a `splice` that fails ("too long") has already removed the elements, and leaves the
length as it was: the array ends in holes.  (Limit 16, 13 elements.) -/
theorem C26_splice_error_refuted :
    ((run 16 (⟨⟨0, fun _ => 0⟩, []⟩ : World Nat) [.create, .push 0 [1, 2, 3, 4], .splice 0 0 (some 2)
      [1, 2, 3, 4, 5, 6, 7, 8, 9, 1, 2]]).map fun x => (x.1.view, x.2)) =
    some ([[some 3, some 4, none, none]], [.newArray, .num 4, .error]) := by decide +kernel

end Verif.Array
