import Verif.Array.Iter
import Verif.Array.Lemmas

/-!
C54: the array methods with callbacks and the searches agree with ECMAScript for callbacks that leave the
array alone; what they do otherwise.
-/

namespace Verif.Array

variable {V S : Type}

theorem drop_step {m : List (Option Nat)} {n i : Nat} {c : Option Nat} {X : List (Option Nat)}
    (h : (m.take n).drop i = c :: X) : m[i]? = some c ∧ i < n ∧ (m.take n).drop (i + 1) = X := by
  have h1 : (m.take n)[i]? = some c := by
    have := congrArg (fun l => l[0]?) h
    simpa using this
  have hi : i < (m.take n).length := by
    rcases Nat.lt_or_ge i (m.take n).length with h2 | h2
    · exact h2
    · rw [List.drop_eq_nil_of_le h2] at h; cases h
  rw [List.length_take] at hi
  refine ⟨?_, by omega, ?_⟩
  · rw [List.getElem?_take] at h1
    rw [if_pos (by omega)] at h1; exact h1
  · rw [← List.drop_drop, h]; rfl

theorem drop_end {m : List (Option Nat)} {n i : Nat} (hm : n ≤ m.length)
    (h : (m.take n).drop i = []) : n ≤ i := by
  have := congrArg List.length h
  simp at this
  omega

theorem forEachLoop_pure (g : S → V → Nat → S × V) (h : Heap V) (a : Arr) (hm : a.cnt ≤ a.mem.length) :
    ∀ (X : List (Option Nat)) (i k : Nat) (s : S), (a.mem.take a.cnt).drop i = X → X.length < k →
      forEachLoop (pure g) k s h a i = .ok (ES.forEach g s i (X.map (Option.map h.val)), h, a)
  | [], i, k, s, hX, hk => by
    have := drop_end hm hX
    obtain ⟨k, rfl⟩ : ∃ j, k = j + 1 := ⟨k - 1, by simp at hk; omega⟩
    rw [forEachLoop, if_neg (by omega)]; rfl
  | none :: X, i, k, s, hX, hk => by
    obtain ⟨h1, h2, h3⟩ := drop_step hX
    obtain ⟨k, rfl⟩ : ∃ j, k = j + 1 := ⟨k - 1, by simp at hk; omega⟩
    rw [forEachLoop, if_pos h2, h1]
    simp only []
    rw [forEachLoop_pure g h a hm X (i + 1) k s h3 (by simp at hk; omega)]
    rfl
  | some p :: X, i, k, s, hX, hk => by
    obtain ⟨h1, h2, h3⟩ := drop_step hX
    obtain ⟨k, rfl⟩ : ∃ j, k = j + 1 := ⟨k - 1, by simp at hk; omega⟩
    rw [forEachLoop, if_pos h2, h1]
    simp only [pure]
    rw [forEachLoop_pure g h a hm X (i + 1) k _ h3 (by simp at hk; omega)]
    rfl

/-- **C54, forEach**: calls the function on the elements in order, skipping holes, and ends. -/
theorem C54_forEach (g : S → V → Nat → S × V) (s : S) (h : Heap V) (a : Arr)
    (hm : a.cnt ≤ a.mem.length) (fuel : Nat) (hf : a.cnt < fuel) :
    forEach fuel (pure g) s h a = .ok (ES.forEach g s 0 (elems h a), h, a) := by
  unfold forEach
  rw [forEachLoop_pure g h a hm _ 0 fuel s rfl (by simp; omega)]
  rfl

theorem findLoop_pure (t : V → Bool) (op : FindOp) (g : S → V → Nat → S × V) (h : Heap V) (a : Arr)
    (hm : a.cnt ≤ a.mem.length) :
    ∀ (X : List (Option Nat)) (i k : Nat) (s : S) (fv : Bool), (a.mem.take a.cnt).drop i = X → X.length < k →
      ∃ b j, findLoop t op (pure g) k s h a fv i =
        .ok ((ES.first t (decide (op ≠ .every)) g s i (X.map (Option.map h.val))).1, h, a, b, j) ∧
      match (ES.first t (decide (op ≠ .every)) g s i (X.map (Option.map h.val))).2 with
      | some (v, n) => b = decide (op ≠ .every) ∧ j = n ∧ ∃ p, a.mem[n]? = some (some p) ∧ h.val p = v
      | none => b = if X.any Option.isSome then decide (op = .every) else fv
  | [], i, k, s, fv, hX, hk => by
    have := drop_end hm hX
    obtain ⟨k, rfl⟩ : ∃ j, k = j + 1 := ⟨k - 1, by simp at hk; omega⟩
    refine ⟨fv, i, ?_, ?_⟩
    · rw [findLoop, if_neg (by omega)]; rfl
    · simp [ES.first]
  | none :: X, i, k, s, fv, hX, hk => by
    obtain ⟨h1, h2, h3⟩ := drop_step hX
    obtain ⟨k, rfl⟩ : ∃ j, k = j + 1 := ⟨k - 1, by simp at hk; omega⟩
    obtain ⟨b, j, e1, e2⟩ := findLoop_pure t op g h a hm X (i + 1) k s fv h3 (by simp at hk; omega)
    refine ⟨b, j, ?_, ?_⟩
    · rw [findLoop, if_pos h2, h1]
      simp only []
      rw [e1]; rfl
    · simp only [List.map_cons, Option.map_none, ES.first]
      simpa using e2
  | some p :: X, i, k, s, fv, hX, hk => by
    obtain ⟨h1, h2, h3⟩ := drop_step hX
    obtain ⟨k, rfl⟩ : ∃ j, k = j + 1 := ⟨k - 1, by simp at hk; omega⟩
    by_cases hb : t (g s (h.val p) i).2 = decide (op ≠ .every)
    · refine ⟨decide (op ≠ .every), i, ?_, ?_⟩
      · rw [findLoop, if_pos h2, h1]
        simp only [List.map_cons, Option.map_some, ES.first]
        have hs : op.stops (t (pure g s h a p i).2.2.2) = true := by
          unfold FindOp.stops pure
          simp only []
          rw [hb]; by_cases ho : op = .every <;> simp [ho]
        rw [if_pos hb, if_pos hs]
        simp only [pure, hb]
      · simp only [List.map_cons, Option.map_some, ES.first]
        rw [if_pos hb]
        refine ⟨?_, ?_, p, h1, ?_⟩ <;> simp
    · obtain ⟨b, j, e1, e2⟩ := findLoop_pure t op g h a hm X (i + 1) k (g s (h.val p) i).1
        (t (g s (h.val p) i).2) h3 (by simp at hk; omega)
      refine ⟨b, j, ?_, ?_⟩
      · rw [findLoop, if_pos h2, h1]
        simp only [List.map_cons, Option.map_some, ES.first]
        have hs : ¬ op.stops (t (pure g s h a p i).2.2.2) = true := by
          unfold FindOp.stops pure
          by_cases ho : op = .every <;> simp [ho] at hb ⊢ <;> exact hb
        rw [if_neg hb, if_neg hs]
        exact e1
      · simp only [List.map_cons, Option.map_some, ES.first]
        rw [if_neg hb]
        revert e2
        generalize (ES.first t (decide (op ≠ .every)) g (g s (h.val p) i).1 (i + 1)
          (X.map (Option.map h.val))).2 = r
        intro e2
        cases r with
        | some x => exact e2
        | none =>
          simp only at e2 ⊢
          rw [e2]
          simp only [List.any_cons, Option.isSome_some, Bool.true_or, if_true]
          split
          · rfl
          · by_cases ho : op = .every <;> simp [ho] at hb ⊢ <;> exact hb

theorem find_pure (t : V → Bool) (op : FindOp) (g : S → V → Nat → S × V) (s : S) (h : Heap V) (a : Arr)
    (hm : a.cnt ≤ a.mem.length) (fuel : Nat) (hf : a.cnt < fuel) :
    ∃ b j, findLoop t op (pure g) fuel s h a false 0 =
        .ok ((ES.first t (decide (op ≠ .every)) g s 0 (elems h a)).1, h, a, b, j) ∧
      match (ES.first t (decide (op ≠ .every)) g s 0 (elems h a)).2 with
      | some (v, n) => b = decide (op ≠ .every) ∧ j = n ∧ ∃ p, a.mem[n]? = some (some p) ∧ h.val p = v
      | none => b = if (elems h a).any Option.isSome then decide (op = .every) else false := by
  obtain ⟨b, j, e1, e2⟩ := findLoop_pure t op g h a hm _ 0 fuel s false rfl
    (show ((a.mem.take a.cnt).drop 0).length < fuel by simp; omega)
  refine ⟨b, j, e1, ?_⟩
  have : (elems h a).any Option.isSome = ((a.mem.take a.cnt).drop 0).any Option.isSome := by
    simp only [elems, List.drop_zero, List.any_map]
    congr 1
    funext c; cases c <;> rfl
  rw [this]
  exact e2

/-- **C54, find**: the first element for which the function returns true, `undefined` if there is none; the
function is called on the elements up to it. -/
theorem C54_find (t : V → Bool) (g : S → V → Nat → S × V) (s : S) (h : Heap V) (a : Arr)
    (hm : a.cnt ≤ a.mem.length) (fuel : Nat) (hf : a.cnt < fuel) :
    find fuel t .find (pure g) s h a = .ok ((ES.first t true g s 0 (elems h a)).1,
      ((ES.first t true g s 0 (elems h a)).2.map fun x => FRet.value x.1).getD .undef) := by
  obtain ⟨b, j, e1, e2⟩ := find_pure t .find g s h a hm fuel hf
  unfold find
  rw [e1]
  have hd : decide (FindOp.find ≠ .every) = true := rfl
  rw [hd] at e2 ⊢
  revert e2
  generalize (ES.first t true g s 0 (elems h a)).2 = r
  intro e2
  cases r with
  | some x =>
    obtain ⟨rfl, rfl, p, hp, hv⟩ := e2
    simp only [findRet, if_true, hp, hv]; rfl
  | none =>
    simp only at e2
    rw [e2]
    simp [findRet]; rfl

/-- **C54, findIndex**. -/
theorem C54_findIndex (t : V → Bool) (g : S → V → Nat → S × V) (s : S) (h : Heap V) (a : Arr)
    (hm : a.cnt ≤ a.mem.length) (fuel : Nat) (hf : a.cnt < fuel) :
    find fuel t .findIndex (pure g) s h a = .ok ((ES.first t true g s 0 (elems h a)).1,
      .index (((ES.first t true g s 0 (elems h a)).2.map fun x => (x.2 : Int)).getD (-1))) := by
  obtain ⟨b, j, e1, e2⟩ := find_pure t .findIndex g s h a hm fuel hf
  unfold find
  rw [e1]
  have hd : decide (FindOp.findIndex ≠ .every) = true := rfl
  rw [hd] at e2 ⊢
  revert e2
  generalize (ES.first t true g s 0 (elems h a)).2 = r
  intro e2
  cases r with
  | some x =>
    obtain ⟨rfl, rfl, p, hp, hv⟩ := e2
    simp only [findRet, if_true]; rfl
  | none =>
    simp only at e2
    rw [e2]
    simp [findRet]; rfl

/-- **C54, some**. -/
theorem C54_some (t : V → Bool) (g : S → V → Nat → S × V) (s : S) (h : Heap V) (a : Arr)
    (hm : a.cnt ≤ a.mem.length) (fuel : Nat) (hf : a.cnt < fuel) :
    find fuel t .some (pure g) s h a = .ok ((ES.first t true g s 0 (elems h a)).1,
      .bool (ES.first t true g s 0 (elems h a)).2.isSome) := by
  obtain ⟨b, j, e1, e2⟩ := find_pure t .some g s h a hm fuel hf
  unfold find
  rw [e1]
  have hd : decide (FindOp.some ≠ .every) = true := rfl
  rw [hd] at e2 ⊢
  revert e2
  generalize (ES.first t true g s 0 (elems h a)).2 = r
  intro e2
  cases r with
  | some x =>
    obtain ⟨rfl, rfl, p, hp, hv⟩ := e2
    simp only [findRet]; rfl
  | none =>
    simp only at e2
    rw [e2]
    simp [findRet]; rfl

/-- **C54, every**, for an array with at least one element that is not a hole. -/
theorem C54_every_partial (t : V → Bool) (g : S → V → Nat → S × V) (s : S) (h : Heap V) (a : Arr)
    (hm : a.cnt ≤ a.mem.length) (fuel : Nat) (hf : a.cnt < fuel) (hne : ∃ v, some v ∈ elems h a) :
    find fuel t .every (pure g) s h a = .ok ((ES.first t false g s 0 (elems h a)).1,
      .bool (ES.first t false g s 0 (elems h a)).2.isNone) := by
  obtain ⟨b, j, e1, e2⟩ := find_pure t .every g s h a hm fuel hf
  unfold find
  rw [e1]
  have hd : decide (FindOp.every ≠ .every) = false := rfl
  rw [hd] at e2 ⊢
  revert e2
  generalize (ES.first t false g s 0 (elems h a)).2 = r
  intro e2
  cases r with
  | some x =>
    obtain ⟨rfl, rfl, p, hp, hv⟩ := e2
    simp only [findRet]; rfl
  | none =>
    simp only at e2
    have hne : (elems h a).any Option.isSome = true := by
      obtain ⟨v, hv⟩ := hne
      exact List.any_eq_true.2 ⟨_, hv, rfl⟩
    rw [e2, if_pos hne]
    simp [findRet]; rfl

/-- **C54 refuted**: `every` of an array without elements is false (JavaScript: true). -/
theorem C54_every_empty_refuted (t : V → Bool) (g : S → V → Nat → S × V) (s : S) (h : Heap V) (a : Arr)
    (hm : a.cnt ≤ a.mem.length) (fuel : Nat) (hf : a.cnt < fuel) (hne : ¬ ∃ v, some v ∈ elems h a) :
    ∃ s', find fuel t .every (pure g) s h a = .ok (s', .bool false) ∧
      (ES.first t false g s 0 (elems h a)).2 = none := by
  obtain ⟨b, j, e1, e2⟩ := find_pure t .every g s h a hm fuel hf
  unfold find
  rw [e1]
  have hd : decide (FindOp.every ≠ .every) = false := rfl
  rw [hd] at e2 ⊢
  have hn : ∀ (l : List (Option V)) (i : Nat) (s : S), (¬ ∃ v, some v ∈ l) → (ES.first t false g s i l).2 = none := by
    intro l
    induction l with
    | nil => intros; rfl
    | cons c l ih =>
      intro i s hl
      cases c with
      | none => exact ih _ _ (fun ⟨v, hv⟩ => hl ⟨v, List.mem_cons_of_mem _ hv⟩)
      | some v => exact absurd ⟨v, by simp⟩ hl
  have hnn := hn (elems h a) 0 s hne
  rw [hnn] at e2
  simp only at e2
  have hne : ¬ (elems h a).any Option.isSome = true := by
    intro hh
    obtain ⟨c, hc, hs⟩ := List.any_eq_true.1 hh
    cases c with
    | none => cases hs
    | some v => exact hne ⟨v, hc⟩
  rw [e2, if_neg hne]
  exact ⟨_, rfl, hnn⟩

theorem sizeOf_eq (a : Arr) (hm : a.cnt ≤ a.mem.length) : sizeOf a = a.cnt := by
  unfold sizeOf
  split
  · rename_i h; rw [h] at hm; simp at hm; omega
  · rfl

/-- `h'` is `h` with possibly more cells. -/
def Ext (h h' : Heap V) : Prop := h.next ≤ h'.next ∧ ∀ p, p < h.next → h'.val p = h.val p

theorem Ext.refl (h : Heap V) : Ext h h := ⟨Nat.le_refl _, fun _ _ => rfl⟩

theorem Ext.trans {h h' h'' : Heap V} (e : Ext h h') (e' : Ext h' h'') : Ext h h'' :=
  ⟨Nat.le_trans e.1 e'.1, fun p hp => by rw [e'.2 p (Nat.lt_of_lt_of_le hp e.1), e.2 p hp]⟩

theorem Ext.alloc (h : Heap V) (v : V) : Ext h (h.alloc v) :=
  ⟨Nat.le_succ _, fun p hp => by show (if p = h.next then v else h.val p) = _; rw [if_neg (by omega)]⟩

theorem mapLoop_pure (g : S → V → Nat → S × V) (h0 : Heap V) (a : Arr)
    (hp : ∀ p, some p ∈ a.mem.take a.cnt → p < h0.next) :
    ∀ (X : List (Option Nat)) (i r : Nat) (s : S) (h : Heap V) (L : List (Option Nat)), 
      (a.mem.take a.cnt).drop i = X → X.length ≤ r → L.length = i → Ext h0 h →
      ∃ h' L', mapLoop (pure g) X.length s h a i (L ++ List.replicate r none) =
          .ok ((ES.map g s i (X.map (Option.map h0.val))).1, h', a,
            L ++ L' ++ List.replicate (r - X.length) none) ∧ Ext h h' ∧
        L'.map (Option.map h'.val) = (ES.map g s i (X.map (Option.map h0.val))).2 ∧
        L'.length = X.length ∧ ∀ p, some p ∈ L' → h.next ≤ p
  | [], i, r, s, h, L, hX, hr, hL, he => by
    refine ⟨h, [], ?_, Ext.refl h, rfl, rfl, by simp⟩
    rw [List.length_nil, mapLoop]
    simp [ES.map]
  | none :: X, i, r, s, h, L, hX, hr, hL, he => by
    obtain ⟨h1, h2, h3⟩ := drop_step hX
    simp only [List.length_cons] at hr
    obtain ⟨r, rfl⟩ : ∃ j, r = j + 1 := ⟨r - 1, by omega⟩
    obtain ⟨h', L', e1, e2, e3, e4, e5⟩ := mapLoop_pure g h0 a hp X (i + 1) r s h (L ++ [none]) h3 (by omega)
      (by simp [hL]) he
    refine ⟨h', none :: L', ?_, e2, ?_, by simp [e4], ?_⟩
    · rw [List.length_cons, mapLoop, h1]
      simp only []
      rw [List.append_assoc] at e1
      rw [show List.replicate (r + 1) (none : Option Nat) = [none] ++ List.replicate r none from rfl, e1]
      simp [ES.map]
    · simp [ES.map, e3]
    · intro p hp'
      simp at hp'
      exact e5 p hp'
  | some q :: X, i, r, s, h, L, hX, hr, hL, he => by
    obtain ⟨h1, h2, h3⟩ := drop_step hX
    simp only [List.length_cons] at hr
    obtain ⟨r, rfl⟩ : ∃ j, r = j + 1 := ⟨r - 1, by omega⟩
    have hq : q < h0.next := hp q (by
      rw [← List.take_append_drop i (a.mem.take a.cnt), hX]; simp)
    have hv : h.val q = h0.val q := he.2 q hq
    obtain ⟨h', L', e1, e2, e3, e4, e5⟩ := mapLoop_pure g h0 a hp X (i + 1) r (g s (h0.val q) i).1
      (h.alloc (g s (h0.val q) i).2) (L ++ [some h.next]) h3 (by omega) (by simp [hL])
      (he.trans (Ext.alloc _ _))
    refine ⟨h', some h.next :: L', ?_, (Ext.alloc _ _).trans e2, ?_, by simp [e4], ?_⟩
    · rw [List.length_cons, mapLoop, h1]
      simp only [pure, hv]
      have hw : wr (L ++ List.replicate (r + 1) none) i (some h.next) =
          some (L ++ [some h.next] ++ List.replicate r none) := by
        unfold wr
        rw [if_pos (by simp; omega), List.set_append_right _ _ (by omega)]
        simp [hL, List.replicate_succ]
      rw [hw]
      simp only []
      rw [e1]
      simp [ES.map]
    · simp only [List.map_cons, Option.map_some, ES.map, e3]
      congr 2
      have := e2.2 h.next (by show h.next < h.next + 1; omega)
      rw [this]
      show (if h.next = h.next then _ else _) = _
      rw [if_pos rfl]
    · intro p hp'
      rcases List.mem_cons.1 hp' with h4 | h4
      · simp at h4; omega
      · have := e5 p h4
        have h6 : (h.alloc (g s (h0.val q) i).2).next = h.next + 1 := rfl
        omega

/-- **C54, map**: a new array with the results, holes kept, in fresh cells; the array mapped is as before.
`sizer` accepts the size. -/
theorem C54_map (M : Nat) (g : S → V → Nat → S × V) (s : S) (h : Heap V) (a : Arr)
    (hm : a.cnt ≤ a.mem.length) (hp : ∀ p, some p ∈ a.mem.take a.cnt → p < h.next)
    (hf : fits M (if a.cnt = 0 then 1 else a.cnt)) :
    ∃ h' b, map M (pure g) s h a = .ok ((ES.map g s 0 (elems h a)).1, h', a, some b) ∧
      elems h' b = (ES.map g s 0 (elems h a)).2 ∧ elems h' a = elems h a ∧
      ∀ p, some p ∈ b.mem → h.next ≤ p := by
  obtain ⟨j, hj, hl⟩ := sizer_some (a := .new) hf
  have hcl : a.cnt ≤ j := by
    simp [Arr.new] at hl
    split at hl <;> omega
  have hlen : (a.mem.take a.cnt).length = a.cnt := by simp; omega
  obtain ⟨h', L', e1, e2, e3, e4, e5⟩ := mapLoop_pure g h a hp (a.mem.take a.cnt) 0 j s h [] rfl
    (by omega) rfl (Ext.refl h)
  rw [hlen] at e1 e4
  refine ⟨h', ⟨L' ++ List.replicate (j - a.cnt) none, a.cnt⟩, ?_, ?_, ?_, ?_⟩
  · unfold map
    rw [hj]
    simp only [Arr.new, List.nil_append] at e1 ⊢
    rw [sizeOf_eq a hm, e1]
    simp only []
    unfold setLength
    rw [if_pos (by simp; omega)]
    rfl
  · show ((L' ++ List.replicate (j - a.cnt) none).take a.cnt).map (Option.map h'.val) = _
    rw [List.take_append_of_le_length (by omega), List.take_of_length_le (by omega), e3]
    rfl
  · unfold elems
    apply List.map_congr_left
    intro c hc
    cases c with
    | none => rfl
    | some p => simp [e2.2 p (hp p hc)]
  · intro p hpb
    rcases List.mem_append.1 hpb with h1 | h1
    · exact e5 p h1
    · simp at h1

theorem filterLoop_pure (t : V → Bool) (g : S → V → Nat → S × V) (h : Heap V) (a : Arr) :
    ∀ (X : List (Option Nat)) (i r : Nat) (s : S) (L : List (Option Nat)), 
      (a.mem.take a.cnt).drop i = X → X.length ≤ r →
      ∃ L' r', filterLoop t (pure g) X.length s h a i (L ++ List.replicate r none) L.length =
          .ok ((ES.filter t g s i (X.map (Option.map h.val))).1, h, a,
            L ++ L' ++ List.replicate r' none, (L ++ L').length) ∧
        L'.map (Option.map h.val) = (ES.filter t g s i (X.map (Option.map h.val))).2.map some ∧
        L'.Sublist X
  | [], i, r, s, L, hX, hr => by
    refine ⟨[], r, ?_, rfl, by simp⟩
    rw [List.length_nil, filterLoop]
    simp [ES.filter]
  | none :: X, i, r, s, L, hX, hr => by
    obtain ⟨h1, h2, h3⟩ := drop_step hX
    simp only [List.length_cons] at hr
    obtain ⟨L', r', e1, e2, e3⟩ := filterLoop_pure t g h a X (i + 1) r s L h3 (by omega)
    refine ⟨L', r', ?_, ?_, e3.cons _⟩
    · rw [List.length_cons, filterLoop, h1]
      simp only []
      rw [e1]
      simp [ES.filter]
    · simp [ES.filter, e2]
  | some q :: X, i, r, s, L, hX, hr => by
    obtain ⟨h1, h2, h3⟩ := drop_step hX
    simp only [List.length_cons] at hr
    obtain ⟨r, rfl⟩ : ∃ j, r = j + 1 := ⟨r - 1, by omega⟩
    by_cases hb : t (g s (h.val q) i).2 = true
    · obtain ⟨L', r', e1, e2, e3⟩ := filterLoop_pure t g h a X (i + 1) r (g s (h.val q) i).1 (L ++ [some q]) h3
        (by omega)
      refine ⟨some q :: L', r', ?_, ?_, e3.cons_cons _⟩
      · rw [List.length_cons, filterLoop, h1]
        simp only []
        have hc : filterCell (pure g s h a q i).2.1 (pure g s h a q i).2.2.1 i (pure g s h a q i).2.2.2 = (h, q) := by
          unfold filterCell
          show (match (if i < a.cnt then a.mem[i]? else none) with | some (some p) => (h, p) | _ => _) = _
          rw [if_pos h2, h1]
        have hw : wr (L ++ List.replicate (r + 1) none) L.length (some q) =
            some (L ++ [some q] ++ List.replicate r none) := by
          unfold wr
          rw [if_pos (by simp), List.set_append_right _ _ (by omega)]
          simp [List.replicate_succ]
        rw [if_pos (show t (pure g s h a q i).2.2.2 = true from hb), hc]
        simp only []
        rw [hw]
        simp only []
        have hl : (L ++ [some q]).length = L.length + 1 := by simp
        rw [hl] at e1
        show filterLoop t (pure g) X.length (g s (h.val q) i).1 h a (i + 1) _ (L.length + 1) = _
        rw [e1]
        simp [ES.filter]
      · simp [ES.filter, e2, hb]
    · obtain ⟨L', r', e1, e2, e3⟩ := filterLoop_pure t g h a X (i + 1) (r + 1) (g s (h.val q) i).1 L h3
        (by omega)
      refine ⟨L', r', ?_, ?_, e3.cons _⟩
      · rw [List.length_cons, filterLoop, h1]
        simp only []
        rw [if_neg (show ¬ t (pure g s h a q i).2.2.2 = true from hb)]
        show filterLoop t (pure g) X.length (g s (h.val q) i).1 h a (i + 1) _ _ = _
        rw [e1]
        simp [ES.filter]
      · simp [ES.filter, e2, hb]

/-- **C54, filter**: a new array with the elements for which the function returns true, in order, without
holes; heap and array are as before.  (The cells of the new array are those of the old one.) -/
theorem C54_filter (M : Nat) (t : V → Bool) (g : S → V → Nat → S × V) (s : S) (h : Heap V) (a : Arr)
    (hm : a.cnt ≤ a.mem.length) (hf : fits M (if a.cnt = 0 then 1 else a.cnt)) :
    ∃ b, filter M t (pure g) s h a = .ok ((ES.filter t g s 0 (elems h a)).1, h, a, some b) ∧
      elems h b = (ES.filter t g s 0 (elems h a)).2.map some ∧
      (b.mem.take b.cnt).Sublist (a.mem.take a.cnt) := by
  obtain ⟨j, hj, hl⟩ := sizer_some (a := .new) hf
  have hcl : a.cnt ≤ j := by
    simp [Arr.new] at hl
    split at hl <;> omega
  have hlen : (a.mem.take a.cnt).length = a.cnt := by simp; omega
  obtain ⟨L', r', e1, e2, e3⟩ := filterLoop_pure t g h a (a.mem.take a.cnt) 0 j s [] rfl (by omega)
  rw [hlen] at e1
  refine ⟨⟨L' ++ List.replicate r' none, L'.length⟩, ?_, ?_, ?_⟩
  · unfold filter
    rw [hj]
    simp only [Arr.new, List.nil_append, List.length_nil] at e1 ⊢
    rw [sizeOf_eq a hm, e1]
    simp only []
    unfold setLength
    rw [if_pos (by simp)]
    rfl
  · show ((L' ++ List.replicate r' none).take L'.length).map (Option.map h.val) = _
    rw [List.take_append_of_le_length (by omega), List.take_of_length_le (by omega), e2]
    rfl
  · show ((L' ++ List.replicate r' none).take L'.length).Sublist _
    rw [List.take_append_of_le_length (by omega), List.take_of_length_le (by omega)]
    exact e3

/-- The elements at the indexes `is`, without holes. -/
def presAt (h : Heap V) (m : List (Option Nat)) (is : List Nat) : List (V × Nat) :=
  is.filterMap fun i => (m[i]?.join).map fun p => (h.val p, i)

theorem reduceLoop_pure (g : S → Option V → V → Nat → S × V) (h0 : Heap V) (a : Arr) (q : Nat) :
    ∀ (is : List Nat) (first : Bool) (s : S) (h : Heap V) (acc : Option Nat), 
      (∀ i ∈ is, i < a.mem.length) → (∀ i ∈ is, ∀ p, a.mem[i]? = some (some p) → p ≠ q) →
      (∀ p, p ≠ q → h.val p = h0.val p) → (first = false ∨ acc ≠ none) →
      ∃ h' acc', reduceLoop (pure2 g) q is first s h a acc =
          .ok ((ES.foldAcc g s (acc.map h.val) (presAt h0 a.mem is)).1, h', a, acc') ∧
        acc'.map h'.val = (ES.foldAcc g s (acc.map h.val) (presAt h0 a.mem is)).2
  | [], first, s, h, acc, _, _, _, _ => ⟨h, acc, rfl, rfl⟩
  | i :: is, first, s, h, acc, hi, hq, hv, hfa => by
    have h1 := hi i (by simp)
    rw [reduceLoop]
    obtain ⟨c, hc⟩ : ∃ c, a.mem[i]? = some c := ⟨_, List.getElem?_eq_getElem h1⟩
    cases c with
    | none =>
      obtain ⟨h', acc', e1, e2⟩ := reduceLoop_pure g h0 a q is false s h acc
        (fun j hj => hi j (List.mem_cons_of_mem _ hj)) (fun j hj => hq j (List.mem_cons_of_mem _ hj)) hv (Or.inl rfl)
      have hpr : presAt h0 a.mem (i :: is) = presAt h0 a.mem is := by simp [presAt, hc]
      rw [hc, hpr]
      exact ⟨h', acc', e1, e2⟩
    | some p =>
      have hpq := hq i (by simp) p hc
      have hpr : presAt h0 a.mem (i :: is) = (h0.val p, i) :: presAt h0 a.mem is := by simp [presAt, hc]
      obtain ⟨h', acc', e1, e2⟩ := reduceLoop_pure g h0 a q is false (g s (acc.map h.val) (h0.val p) i).1
        (h.copy q (g s (acc.map h.val) (h0.val p) i).2) (some q)
        (fun j hj => hi j (List.mem_cons_of_mem _ hj)) (fun j hj => hq j (List.mem_cons_of_mem _ hj))
        (fun p hp => by show (if p = q then _ else _) = _; rw [if_neg hp, hv p hp]) (Or.inl rfl)
      have hcp : (some q).map (h.copy q (g s (acc.map h.val) (h0.val p) i).2).val =
          some (g s (acc.map h.val) (h0.val p) i).2 := by
        show some (if q = q then _ else _) = _
        rw [if_pos rfl]
      rw [hcp] at e1 e2
      rw [hc, hpr]
      simp only []
      rw [if_neg (by rintro ⟨x, y⟩; rcases hfa with z | z; · rw [z] at x; cases x
                     · exact z y)]
      refine ⟨h', acc', ?_, e2⟩
      have : pure2 g s h a acc p i = ((g s (acc.map h.val) (h0.val p) i).1, h, a, (g s (acc.map h.val) (h0.val p) i).2) := by
        unfold pure2; rw [hv p hpq]
      rw [this]
      exact e1

theorem present_range (l : List (Option V)) : ∀ k, ES.present k l =
    (List.range l.length).filterMap fun i => (l[i]?.join).map fun v => (v, i + k) := by
  induction l with
  | nil => intro k; rfl
  | cons c l ih =>
    intro k
    have hr : (List.range (l.length + 1)).filterMap (fun i => (((c :: l)[i]?).join).map fun v => (v, i + k)) =
        (match c with | none => [] | some v => [(v, k)]) ++ ES.present (k + 1) l := by
      rw [List.range_succ_eq_map, List.filterMap_cons, List.filterMap_map, ih (k + 1)]
      have he : (fun i => (((c :: l)[i]?).join).map fun v => (v, i + k)) ∘ Nat.succ =
          fun i => ((l[i]?).join).map fun v => (v, i + (k + 1)) := by
        funext i
        simp only [Function.comp, List.getElem?_cons_succ, Nat.succ_eq_add_one]
        congr 1
        funext v
        congr 1; omega
      rw [he]
      cases c <;> simp
    rw [List.length_cons, hr]
    cases c <;> rfl

theorem presAt_range (h : Heap V) (a : Arr) (hm : a.cnt ≤ a.mem.length) :
    presAt h a.mem (List.range a.cnt) = ES.present 0 (elems h a) := by
  rw [present_range]
  have hl : (elems h a).length = a.cnt := by simp [elems]; omega
  rw [hl]
  unfold presAt
  have hfm : ∀ {β : Type} (l : List Nat) (f g : Nat → Option β), (∀ i ∈ l, f i = g i) → l.filterMap f = l.filterMap g := by
    intro β l f g
    induction l with
    | nil => intro _; rfl
    | cons x l ih =>
      intro hx
      rw [List.filterMap_cons, List.filterMap_cons, hx x (by simp), ih (fun i hi => hx i (List.mem_cons_of_mem _ hi))]
  apply hfm
  intro i hi
  have hi := List.mem_range.1 hi
  have : (elems h a)[i]? = (a.mem[i]?).map (Option.map h.val) := by
    simp only [elems, List.getElem?_map, List.getElem?_take, if_pos hi]
  rw [this]
  cases a.mem[i]? with
  | none => rfl
  | some c => cases c <;> rfl

/-- The elements in the order `reduce` (`reduceRight`) takes them. -/
def order (rev : Bool) (l : List (V × Nat)) : List (V × Nat) := if rev then l.reverse else l

/-- **C54, reduce and reduceRight**.  Without an initial value the first element taken must not be a hole. -/
theorem C54_reduce_partial (rev : Bool) (g : S → Option V → V → Nat → S × V) (dflt : V) (s : S) (h : Heap V)
    (a : Arr) (ini : Option Nat) (hm : a.cnt ≤ a.mem.length)
    (hp : ∀ p, some p ∈ a.mem.take a.cnt → p < h.next) (hi : ∀ p, ini = some p → p < h.next)
    (hh : ini = none → elems h a = [] ∨ ∃ v, (if rev then (elems h a).getLast? else (elems h a).head?) = some (some v)) :
    reduce rev (pure2 g) dflt s h a ini =
      .ok (ES.reduce g s (ini.map h.val) (order rev (ES.present 0 (elems h a)))) := by
  have hq : ∀ i, i < a.cnt → ∀ p, a.mem[i]? = some (some p) → p ≠ h.next := by
    intro i hic p hpi
    have : some p ∈ a.mem.take a.cnt := by
      apply List.mem_of_getElem? (i := i)
      rw [List.getElem?_take, if_pos hic, hpi]
    have := hp p this
    omega
  have hv : ∀ p, p ≠ h.next → (h.alloc dflt).val p = h.val p := by
    intro p hp; show (if p = h.next then _ else _) = _; rw [if_neg hp]
  have hpr : presAt h a.mem (if rev then (List.range a.cnt).reverse else List.range a.cnt) =
      order rev (ES.present 0 (elems h a)) := by
    rw [← presAt_range h a hm]
    unfold presAt order
    cases rev <;> simp
  unfold reduce
  simp only []
  have hmem : ∀ i ∈ (if rev then (List.range a.cnt).reverse else List.range a.cnt), i < a.cnt := by
    intro i hi
    cases rev <;> simpa using hi
  revert hpr hmem
  generalize hIs : (if rev then (List.range a.cnt).reverse else List.range a.cnt) = is
  intro hpr hmem
  cases ini with
  | some c =>
    obtain ⟨h', acc', e1, e2⟩ := reduceLoop_pure g h a h.next is true s (h.alloc dflt) (some c)
      (fun i hi => by have := hmem i hi; omega) (fun i hi => hq i (hmem i hi)) hv (Or.inr (by simp))
    rw [e1]
    have hcv : (some c).map (h.alloc dflt).val = some (h.val c) := by
      have := hi c rfl
      simp [hv c (by omega)]
    rw [hcv, hpr] at e2
    rw [hcv, hpr]
    show Except.ok (_, acc'.map h'.val) = _
    rw [e2]
    rfl
  | none =>
    cases is with
    | nil =>
      rw [← hpr]
      rfl
    | cons i is =>
      have hic := hmem i (by simp)
      have hx : ∃ p, a.mem[i]? = some (some p) := by
        have hl : (elems h a).length = a.cnt := by simp [elems]; omega
        rcases hh rfl with h1 | ⟨v, h1⟩
        · rw [h1] at hl; simp at hl; omega
        · have h2 : (elems h a)[i]? = some (some v) := by
            cases rev with
            | false =>
              simp only [Bool.false_eq_true, if_false] at h1 hIs
              have : i = 0 := by
                have := congrArg List.head? hIs
                rw [List.head?_range] at this
                split at this <;> simp at this
                exact this.symm
              rw [this, ← List.head?_eq_getElem?, h1]
            | true =>
              simp only [if_true] at h1 hIs
              have : i = a.cnt - 1 := by
                have := congrArg List.head? hIs
                rw [List.head?_reverse, List.getLast?_range] at this
                split at this <;> simp at this
                exact this.symm
              rw [this, ← hl, ← List.getLast?_eq_getElem?, h1]
          have : (elems h a)[i]? = (a.mem[i]?).map (Option.map h.val) := by
            simp only [elems, List.getElem?_map, List.getElem?_take, if_pos hic]
          rw [this] at h2
          cases hc : a.mem[i]? with
          | none => rw [hc] at h2; simp at h2
          | some c =>
            cases c with
            | none => rw [hc] at h2; simp at h2
            | some p => exact ⟨p, rfl⟩
      obtain ⟨p, hx⟩ := hx
      obtain ⟨h', acc', e1, e2⟩ := reduceLoop_pure g h a h.next is false s (h.alloc dflt) (some p)
        (fun i hi => by have := hmem i (List.mem_cons_of_mem _ hi); omega)
        (fun i hi => hq i (hmem i (List.mem_cons_of_mem _ hi))) hv (Or.inl rfl)
      have hcv : (some p).map (h.alloc dflt).val = some (h.val p) := by
        have := hq i hic p hx
        simp [hv p (by omega)]
      have hpr' : presAt h a.mem (i :: is) = (h.val p, i) :: presAt h a.mem is := by simp [presAt, hx]
      rw [hcv] at e1 e2
      rw [reduceLoop, hx]
      simp only [and_self, if_true]
      rw [e1, ← hpr, hpr']
      show Except.ok (_, acc'.map h'.val) = _
      rw [e2]
      rfl

theorem upFrom_eq (eq : V → Bool) (h : Heap V) (a : Arr) :
    ∀ (X : List (Option Nat)) (i : Nat), (a.mem.take a.cnt).drop i = X →
      upFrom eq h a X.length i =
        .ok (((ES.present i (X.map (Option.map h.val))).find? fun x => eq x.1).map Prod.snd)
  | [], i, hX => rfl
  | none :: X, i, hX => by
    obtain ⟨h1, h2, h3⟩ := drop_step hX
    rw [List.length_cons, upFrom, h1]
    simp only []
    rw [upFrom_eq eq h a X (i + 1) h3]
    rfl
  | some p :: X, i, hX => by
    obtain ⟨h1, h2, h3⟩ := drop_step hX
    rw [List.length_cons, upFrom, h1]
    simp only []
    rw [upFrom_eq eq h a X (i + 1) h3]
    simp only [List.map_cons, Option.map_some, ES.present, List.find?_cons]
    by_cases hb : eq (h.val p) = true
    · rw [if_pos hb, hb]; rfl
    · rw [if_neg hb]
      rw [Bool.not_eq_true] at hb
      rw [hb]

theorem present_le (l : List (Option V)) : ∀ k, ∀ x ∈ ES.present k l, k ≤ x.2 := by
  induction l with
  | nil => intro k x hx; cases hx
  | cons c l ih =>
    intro k x hx
    cases c with
    | none => have := ih (k + 1) x hx; omega
    | some v =>
      rcases List.mem_cons.1 hx with h | h
      · rw [h]; exact Nat.le_refl _
      · have := ih (k + 1) x h; omega

theorem find_present_drop (p : V → Bool) : ∀ (i k : Nat) (l : List (Option V)),
    (ES.present k l).find? (fun x => decide (k + i ≤ x.2) && p x.1) =
      (ES.present (k + i) (l.drop i)).find? fun x => p x.1
  | 0, k, l => by
    have : ∀ x ∈ ES.present k l, (decide (k + 0 ≤ x.2) && p x.1) = p x.1 := by
      intro x hx
      have := present_le l k x hx
      simp [this]
    rw [List.drop_zero, Nat.add_zero]
    revert this
    generalize ES.present k l = L
    intro this
    induction L with
    | nil => rfl
    | cons x L ih =>
      rw [List.find?_cons, List.find?_cons]
      have h1 := this x (by simp)
      rw [Nat.add_zero] at h1
      rw [h1, ih (fun y hy => this y (List.mem_cons_of_mem _ hy))]
  | i + 1, k, [] => rfl
  | i + 1, k, c :: l => by
    have ih := find_present_drop p i (k + 1) l
    rw [show k + 1 + i = k + (i + 1) by omega] at ih
    rw [List.drop_succ_cons]
    cases c with
    | none => exact ih
    | some v =>
      rw [ES.present, List.find?_cons]
      have : (decide (k + (i + 1) ≤ (v, k).2) && p (v, k).1) = false := by
        have : ¬ (k + (i + 1) ≤ k) := by omega
        simp [this]
      rw [this]
      exact ih

/-- **C54, indexOf** (and `includes`), for a start not before the first element. -/
theorem C54_indexOf_partial (eq : V → Bool) (h : Heap V) (a : Arr) (hm : a.cnt ≤ a.mem.length)
    (start : Option Int) (hs : ∀ i, start = some i → -(a.cnt : Int) ≤ i) :
    indexSub false eq h a start = .ok (ES.indexFrom eq (ES.rel a.cnt (start.getD 0)) (elems h a)) := by
  have key : ∀ i, upFrom eq h a (a.cnt - i) i = .ok (ES.indexFrom eq i (elems h a)) := by
    intro i
    have h1 := upFrom_eq eq h a _ i rfl
    have hl : ((a.mem.take a.cnt).drop i).length = a.cnt - i := by simp; omega
    rw [hl] at h1
    rw [h1]
    unfold ES.indexFrom
    have h2 := find_present_drop eq i 0 (elems h a)
    rw [Nat.zero_add] at h2
    rw [h2]
    unfold elems
    rw [List.map_drop]
  unfold indexSub
  simp only []
  rw [sizeOf_eq a hm]
  by_cases hn : a.cnt = 0
  · rw [if_pos hn]
    have : elems h a = [] := by simp [elems, hn]
    rw [this]; rfl
  · rw [if_neg hn]
    unfold idxStart
    cases start with
    | none =>
      simp only [Bool.false_eq_true, if_false, Option.getD_none]
      rw [key 0]; rfl
    | some i =>
      have hs := hs i rfl
      simp only [Bool.false_eq_true, if_false, Option.getD_some]
      by_cases hg : i > (a.cnt : Int)
      · rw [if_pos hg]
        have hr : ES.rel a.cnt i = a.cnt := by unfold ES.rel; rw [if_neg (by omega)]; omega
        rw [hr, ← key a.cnt, Nat.sub_self]; rfl
      · rw [if_neg hg]
        by_cases hneg : i < 0
        · rw [if_pos hneg, if_neg (by omega)]
          simp only []
          rw [key]
          congr 2
          unfold ES.rel; rw [if_pos hneg]
        · rw [if_neg hneg, if_neg hneg]
          simp only []
          rw [key]
          congr 2
          unfold ES.rel; rw [if_neg hneg]; omega

/-- **C54 refuted**: from a start before the first element `indexOf` and `includes` find nothing
(JavaScript searches the whole array). -/
theorem C54_indexOf_refuted (eq : V → Bool) (h : Heap V) (a : Arr) (hm : a.cnt ≤ a.mem.length) (i : Int)
    (hi : i < -(a.cnt : Int)) (last : Bool) :
    indexSub last eq h a (some i) = .ok none ∧ ES.rel a.cnt i = 0 := by
  constructor
  · unfold indexSub
    simp only []
    rw [sizeOf_eq a hm]
    by_cases hn : a.cnt = 0
    · rw [if_pos hn]
    · rw [if_neg hn]
      unfold idxStart
      simp only []
      rw [if_neg (by omega), if_pos (by rw [if_pos (by omega)]; omega)]
  · unfold ES.rel
    rw [if_pos (by omega)]; omega

theorem downFrom_eq (eq : V → Bool) (h : Heap V) (a : Arr) : ∀ k, k ≤ a.cnt → a.cnt ≤ a.mem.length → 
    downFrom eq h a k =
      .ok (((presAt h a.mem (List.range k)).reverse.find? fun x => eq x.1).map Prod.snd)
  | 0, _, _ => rfl
  | k + 1, hk, hm => by
    rw [downFrom]
    obtain ⟨c, hc⟩ : ∃ c, a.mem[k]? = some c := ⟨_, List.getElem?_eq_getElem (by omega)⟩
    rw [hc]
    have ih := downFrom_eq eq h a k (by omega) hm
    cases c with
    | none =>
      simp only []
      rw [ih, List.range_succ]
      simp [presAt, hc]
    | some p =>
      simp only []
      have : presAt h a.mem (List.range (k + 1)) = presAt h a.mem (List.range k) ++ [(h.val p, k)] := by
        rw [List.range_succ]; simp [presAt, hc]
      rw [this, ih, List.reverse_append, List.reverse_singleton, List.singleton_append, List.find?_cons]
      by_cases hb : eq (h.val p) = true
      · rw [if_pos hb]; simp [hb]
      · rw [if_neg hb]
        rw [Bool.not_eq_true] at hb
        simp [hb]

/-- **C54, lastIndexOf** without a start, or whatever a start within the array. -/
theorem C54_lastIndexOf_partial (eq : V → Bool) (h : Heap V) (a : Arr) (hm : a.cnt ≤ a.mem.length)
    (start : Option Int) (hs : ∀ i, start = some i → -(a.cnt : Int) ≤ i ∧ i ≤ a.cnt) :
    indexSub true eq h a start = .ok (ES.lastIndex eq (elems h a)) := by
  unfold indexSub
  simp only []
  rw [sizeOf_eq a hm]
  by_cases hn : a.cnt = 0
  · rw [if_pos hn]
    have : elems h a = [] := by simp [elems, hn]
    rw [this]; rfl
  · rw [if_neg hn]
    have hd : downFrom eq h a a.cnt = .ok (ES.lastIndex eq (elems h a)) := by
      rw [downFrom_eq eq h a a.cnt (Nat.le_refl _) hm, presAt_range h a hm]; rfl
    unfold idxStart
    cases start with
    | none => exact hd
    | some i =>
      have hs := hs i rfl
      simp only []
      rw [if_neg (by omega), if_neg (by split <;> omega)]
      exact hd

/-- **C54 refuted**: `lastIndexOf` ignores its second argument: `[1,2,1].lastIndexOf(1, 1)` is 2 (JavaScript:
the last position at or before 1, which is 0). -/
theorem C54_lastIndexOf_start_refuted :
    indexSub true (· == 1) (⟨3, fun p => if p = 1 then 2 else 1⟩ : Heap Nat) ⟨[some 0, some 1, some 2], 3⟩ (some 1) =
      .ok (some 2) := rfl

/-- A function that removes the last element of the array and returns `v`: `function(x,i,a) {a.pop(); return v}`. -/
def popping (v : V) : CB S V := fun s h a _ _ =>
  match pop h a with
  | some o => (s, o.heap, o.arr, v)
  | none => (s, h, a, v)

/-- **C54 refuted**: `find` with a function that returns true after removing the element it is called on reads
through a NULL pointer. -/
theorem C54_find_pop_refuted (t : V → Bool) (v : V) (hv : t v = true) (s : S) (h : Heap V) (p : Nat)
    (m : List (Option Nat)) (fuel : Nat) :
    find (fuel + 1) t .find (popping v) s h ⟨some p :: m, 1⟩ = .error .ub := by
  have : popping v s h ⟨some p :: m, 1⟩ p 0 = (s, h, ⟨none :: m, 0⟩, v) := by
    simp [popping, pop, sizeOf, rd, wr, setLength]
  unfold find findLoop
  rw [if_pos (by show (0 : Nat) < 1; omega)]
  simp only [List.getElem?_cons_zero, this]
  rw [if_pos (by simp [FindOp.stops, hv]), hv]
  rfl

/-- A function that assigns `v` to its first parameter: `function(x) {x = v}`. -/
def assigning (v : V) : CB S V := fun s h a p _ => (s, h.copy p v, a, v)

/-- **C54 refuted**: a function that assigns to its parameter changes the array: after
`a.forEach(function(x) {x = v})` every element is `v`. -/
theorem C54_param_refuted (v : V) (a : Arr) (hm : a.cnt ≤ a.mem.length) (fuel : Nat) (hf : a.cnt < fuel)
    (s : S) (h : Heap V) :
    ∃ h', forEach fuel (assigning v) s h a = .ok (s, h', a) ∧
      elems h' a = (elems h a).map (Option.map fun _ => v) := by
  have key : ∀ (X Y : List (Option Nat)) (i k : Nat) (h : Heap V), (a.mem.take a.cnt).drop i = X →
      (a.mem.take a.cnt) = Y ++ X → X.length < k →
      (∀ p, some p ∈ Y → h.val p = v) →
      ∃ h', forEachLoop (assigning v) k s h a i = .ok (s, h', a) ∧ ∀ p, some p ∈ Y ++ X → h'.val p = v := by
    intro X
    induction X with
    | nil =>
      intro Y i k h hX hY hk hv
      have := drop_end hm hX
      obtain ⟨k, rfl⟩ : ∃ j, k = j + 1 := ⟨k - 1, by simp at hk; omega⟩
      exact ⟨h, by rw [forEachLoop, if_neg (by omega)], by simpa using hv⟩
    | cons c X ih =>
      intro Y i k h hX hY hk hv
      obtain ⟨h1, h2, h3⟩ := drop_step hX
      obtain ⟨k, rfl⟩ : ∃ j, k = j + 1 := ⟨k - 1, by simp at hk; omega⟩
      rw [forEachLoop, if_pos h2, h1]
      cases c with
      | none =>
        simp only []
        obtain ⟨h', e1, e2⟩ := ih (Y ++ [none]) (i + 1) k h h3 (by simp [hY]) (by simp at hk; omega)
          (by intro p hp; simp at hp; exact hv p hp)
        exact ⟨h', e1, by simpa using e2⟩
      | some p =>
        simp only []
        obtain ⟨h', e1, e2⟩ := ih (Y ++ [some p]) (i + 1) k (h.copy p v) h3 (by simp [hY]) (by simp at hk; omega)
          (by
            intro q hq
            show (if q = p then v else h.val q) = v
            by_cases hqp : q = p
            · rw [if_pos hqp]
            · rw [if_neg hqp]
              simp [hqp] at hq
              exact hv q hq)
        exact ⟨h', e1, by simpa using e2⟩
  obtain ⟨h', e1, e2⟩ := key _ [] 0 fuel h rfl rfl (by simp; omega) (by simp)
  refine ⟨h', e1, ?_⟩
  unfold elems
  rw [List.map_map]
  apply List.map_congr_left
  intro c hc
  cases c with
  | none => rfl
  | some p =>
    have := e2 p (by simpa using hc)
    simp [this]

/-- **C54 refuted**: the array `filter` returns shares its elements with the old one: filtering
`[5, 6]` with a function that is always true and then assigning to the first element of the result changes
the first element of the old array. -/
theorem C54_filter_shares_refuted :
    let h : Heap Nat := ⟨2, fun p => p + 5⟩
    let a : Arr := ⟨[some 0, some 1], 2⟩
    ∃ b, filter 100 (· == 1) (pure fun s _ _ => (s, 1)) () h a = .ok ((), h, a, some b) ∧
      elems h b = [some 5, some 6] ∧
      ∃ o, assign 100 h b 0 9 = some o ∧ elems o.heap a = [some 9, some 6] := by
  refine ⟨⟨[some 0, some 1] ++ List.replicate 14 none, 2⟩, ?_, by decide +kernel, ?_⟩
  · rfl
  · exact ⟨_, rfl, by decide +kernel⟩

/-- **C54 refuted**: `[,1].reduce(f)` calls `f` with `undefined` as the accumulator (JavaScript: no call, the
result is 1). -/
theorem C54_reduce_hole_refuted (g : S → Option V → V → Nat → S × V) (dflt : V) (s : S) (v : V) :
    let h : Heap V := ⟨1, fun _ => v⟩
    let a : Arr := ⟨[none, some 0], 2⟩
    reduce false (pure2 g) dflt s h a none = .ok ((g s none v 1).1, some (g s none v 1).2) ∧
      ES.reduce g s none (ES.present 0 (elems h a)) = (s, some v) := by
  refine ⟨?_, rfl⟩
  simp [reduce, reduceLoop, List.range_succ, pure2, Heap.alloc, Heap.copy, Except.map]

/-- A function that appends `v` when called on the first element: `function(x,i,a) {if (i == 0) a.push(v)}`. -/
def pushing (v : V) : CB S V := fun s h a _ i =>
  if i = 0 then
    match push 100 (h.alloc v) a [h.next] with
    | some o => (s, o.heap, o.arr, v)
    | none => (s, h, a, v)
  else (s, h, a, v)

/-- The state counts the calls. -/
def counting (f : CB Unit V) : CB Nat V := fun n h a p i => (n + 1, (f () h a p i).2)

/-- **C54 refuted**: `forEach` visits the elements the function appends (JavaScript: only those there at the
start): one element, two calls. -/
theorem C54_forEach_push_refuted :
    ∃ h a, forEach 10 (counting (pushing 7)) 0 (⟨1, fun _ => 5⟩ : Heap Nat) ⟨[some 0], 1⟩ = .ok (2, h, a) ∧
      elems h a = [some 5, some 7] := ⟨_, _, rfl, by decide +kernel⟩

/-! ### Instances: the array `[5, , 7]` -/

/-- A heap for the examples. -/
def exHeap : Heap Nat := ⟨2, fun p => 5 + 2 * p⟩

/-- `[5, , 7]`. -/
def exArr : Arr := ⟨[some 0, none, some 1, none], 3⟩

example : elems exHeap exArr = [some 5, none, some 7] ∧ exArr.cnt ≤ exArr.mem.length ∧
    fits 100 (if exArr.cnt = 0 then 1 else exArr.cnt) ∧ (∃ v, some v ∈ elems exHeap exArr) :=
  ⟨by decide +kernel, by decide +kernel, by decide +kernel, 5, by decide +kernel⟩

example : ∀ p, some p ∈ exArr.mem.take exArr.cnt → p < exHeap.next := by
  intro p hp
  simp [exArr] at hp
  rcases hp with rfl | rfl <;> decide

example : (ES.map (fun s v i => (s ++ [i], v + 1)) [] 0 (elems exHeap exArr)) = ([0, 2], [some 6, none, some 8]) ∧
    ES.filter (fun v => v == 1) (fun (s : Unit) v _ => (s, if v == 7 then 1 else 0)) () 0 (elems exHeap exArr) = ((), [7]) ∧
    ES.reduce (fun (s : Unit) acc v _ => (s, acc.getD 0 + v)) () none (ES.present 0 (elems exHeap exArr)) = ((), some 12) ∧
    ES.indexFrom (· == 7) 0 (elems exHeap exArr) = some 2 ∧ ES.lastIndex (· == 5) (elems exHeap exArr) = some 0 := by
  decide +kernel

end Verif.Array
