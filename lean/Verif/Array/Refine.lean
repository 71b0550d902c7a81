import Verif.Array.Ops3
import Verif.Array.World

/-!
The refinement: the arrays of the model follow the lists of the specification, step by step.
-/

namespace Verif.Array

variable {V : Type}

/-- The invariant: array `i` holds the cells `Ls[i]`, whose contents are `s[i]`; no cell belongs to
two arrays; every capacity is at most `C`. -/
structure InvL (C : Nat) (w : World V) (Ls : List (List (Option Nat))) (s : List (List (Option V))) :
    Prop where
  len : Ls.length = w.arrs.length
  each : ∀ (i : Nat) a L, w.arrs[i]? = some a → Ls[i]? = some L → Rep a L ∧ Own w.heap L ∧ Cap C a
  view : s = Ls.map (contents w.heap)
  disj : ∀ (i j : Nat) Li Lj, i ≠ j → Ls[i]? = some Li → Ls[j]? = some Lj → ∀ p ∈ ptrs Li, p ∉ ptrs Lj

theorem InvL.get {C : Nat} {w : World V} {Ls s} (I : InvL C w Ls s) {i : Nat} {l : List (Option V)}
    (h : s[i]? = some l) : ∃ a L, w.arrs[i]? = some a ∧ Ls[i]? = some L ∧ l = contents w.heap L ∧
      Rep a L ∧ Own w.heap L ∧ Cap C a := by
  rw [I.view, List.getElem?_map] at h
  obtain ⟨L, hL, e⟩ := Option.map_eq_some_iff.1 h
  have hlt : i < w.arrs.length := by
    rw [← I.len]; exact (List.getElem?_eq_some_iff.1 hL).1
  have ha : w.arrs[i]? = some w.arrs[i] := List.getElem?_eq_getElem hlt
  exact ⟨_, L, ha, hL, e.symm, I.each i _ L ha hL⟩

/-- The other cells are not touched by a local step. -/
theorem other_contents {h h' : Heap V} {L L' Lj : List (Option Nat)} (loc : Local h L h' L')
    (hlt : ∀ p ∈ ptrs Lj, p < h.next) (hd : ∀ p ∈ ptrs L, p ∉ ptrs Lj) :
    contents h' Lj = contents h Lj :=
  contents_congr fun p hp => loc.old p (hlt p hp) fun hL => hd p hL hp

theorem inv_set {C : Nat} {h h' : Heap V} {arrs : List Arr} {Ls s} {i : Nat} {a' : Arr}
    {L L' : List (Option Nat)} {S : List (Option V)} (I : InvL C ⟨h, arrs⟩ Ls s)
    (hL : Ls[i]? = some L) (P : Post C h L h' a' L' S) :
    InvL C ⟨h', arrs.set i a'⟩ (Ls.set i L') (s.set i S) := by
  have hd : ∀ (j : Nat) Lj, j ≠ i → Ls[j]? = some Lj → ∀ p ∈ ptrs L, p ∉ ptrs Lj := fun j Lj hj hLj =>
    I.disj i j L Lj (fun e => hj e.symm) hL hLj
  have hlt : ∀ (j : Nat) Lj, Ls[j]? = some Lj → ∀ p ∈ ptrs Lj, p < h.next := by
    intro j Lj hLj
    have hjl : j < arrs.length := by
      have := I.len; simp only at this; rw [← this]; exact (List.getElem?_eq_some_iff.1 hLj).1
    exact (I.each j _ Lj (List.getElem?_eq_getElem hjl) hLj).2.1.1
  have hil : i < Ls.length := (List.getElem?_eq_some_iff.1 hL).1
  refine ⟨by simp [I.len], ?_, ?_, ?_⟩
  · intro j a M ha hM
    by_cases hj : j = i
    · subst hj
      have hia : j < arrs.length := by have := I.len; simp only at this; omega
      rw [List.getElem?_set_self hia] at ha
      rw [List.getElem?_set_self hil] at hM
      cases ha; cases hM
      exact ⟨P.rep, P.own, P.cap⟩
    · simp only at ha
      rw [List.getElem?_set_ne (fun e => hj e.symm)] at ha hM
      have := I.each j a M ha hM
      refine ⟨this.1, ⟨fun p hp => ?_, this.2.1.2⟩, this.2.2⟩
      have h1 := this.2.1.1 p hp
      have h2 := P.loc.next
      simp only at h1 ⊢; omega
  · rw [I.view, List.map_set, P.view]
    apply List.ext_getElem?
    intro j
    by_cases hj : j = i
    · subst hj
      rw [List.getElem?_set_self (by simpa using hil), List.getElem?_set_self (by simpa using hil)]
    · rw [List.getElem?_set_ne (fun e => hj e.symm), List.getElem?_set_ne (fun e => hj e.symm),
        List.getElem?_map, List.getElem?_map]
      cases hLj : Ls[j]? with
      | none => rfl
      | some Lj =>
        simp only [Option.map_some]
        rw [other_contents P.loc (hlt j Lj hLj) (hd j Lj hj hLj)]
  · intro j k Lj Lk hjk hj hk p hp hq
    by_cases e1 : j = i
    · subst e1
      rw [List.getElem?_set_self hil] at hj
      rw [List.getElem?_set_ne hjk] at hk
      cases hj
      rcases P.loc.from_ p hp with h1 | h1
      · exact hd k Lk (fun e => hjk e.symm) hk p h1 hq
      · have := hlt k Lk hk p hq; omega
    · rw [List.getElem?_set_ne (fun e => e1 e.symm)] at hj
      by_cases e2 : k = i
      · subst e2
        rw [List.getElem?_set_self hil] at hk
        cases hk
        rcases P.loc.from_ p hq with h1 | h1
        · exact hd j Lj hjk hj p h1 hp
        · have := hlt j Lj hj p hp; omega
      · rw [List.getElem?_set_ne (fun e => e2 e.symm)] at hk
        exact I.disj j k Lj Lk hjk hj hk p hp hq

theorem inv_append {C : Nat} {h : Heap V} {arrs : List Arr} {Ls s} {b : Arr}
    {X : List (Option Nat)} (I : InvL C ⟨h, arrs⟩ Ls s) (hR : Rep b X)
    (hO : Own h X) (hC : Cap C b) (hd : ∀ (j : Nat) Lj, Ls[j]? = some Lj → ∀ p ∈ ptrs X, p ∉ ptrs Lj) :
    InvL C ⟨h, arrs ++ [b]⟩ (Ls ++ [X]) (s ++ [contents h X]) := by
  have hlen := I.len
  simp only at hlen
  have key : ∀ {α : Type} (l : List α) (x : α) (j : Nat) (y : α), (l ++ [x])[j]? = some y →
      (j < l.length ∧ l[j]? = some y) ∨ (j = l.length ∧ y = x) := by
    intro α l x j y hy
    rcases Nat.lt_trichotomy j l.length with hj | hj | hj
    · left; rw [List.getElem?_append_left hj] at hy; exact ⟨hj, hy⟩
    · right; subst hj; simp at hy; exact ⟨rfl, hy.symm⟩
    · rw [List.getElem?_eq_none (by simp; omega)] at hy; cases hy
  refine ⟨by simp [hlen], ?_, ?_, ?_⟩
  · intro j a M ha hM
    simp only at ha
    rcases key _ _ _ _ ha with ⟨h1, h2⟩ | ⟨h1, h2⟩ <;> rcases key _ _ _ _ hM with ⟨h3, h4⟩ | ⟨h3, h4⟩
    · exact I.each j a M h2 h4
    · omega
    · omega
    · subst h2; subst h4; exact ⟨hR, hO, hC⟩
  · rw [I.view]; simp
  · intro j k Lj Lk hjk hj hk p hp hq
    rcases key _ _ _ _ hj with ⟨h1, h2⟩ | ⟨h1, h2⟩ <;> rcases key _ _ _ _ hk with ⟨h3, h4⟩ | ⟨h3, h4⟩
    · exact I.disj j k Lj Lk hjk h2 h4 p hp hq
    · subst h4; exact hd j Lj h2 p hq hp
    · subst h2; exact hd k Lk h4 p hp hq
    · omega

theorem inv_lt {C : Nat} {w : World V} {Ls s} (I : InvL C w Ls s) {j : Nat} {Lj}
    (hLj : Ls[j]? = some Lj) : ∀ p ∈ ptrs Lj, p < w.heap.next := by
  have hjl : j < w.arrs.length := by rw [← I.len]; exact (List.getElem?_eq_some_iff.1 hLj).1
  exact (I.each j _ Lj (List.getElem?_eq_getElem hjl) hLj).2.1.1

/-- Growing the heap, and the bound, changes nothing. -/
theorem inv_heap {C C' : Nat} {h h' : Heap V} {arrs : List Arr} {Ls s} (I : InvL C ⟨h, arrs⟩ Ls s)
    (hn : h.next ≤ h'.next) (hv : ∀ q, q < h.next → h'.val q = h.val q) (hC : C ≤ C') :
    InvL C' ⟨h', arrs⟩ Ls s := by
  refine ⟨I.len, ?_, ?_, I.disj⟩
  · intro i a L ha hL
    obtain ⟨h1, h2, h3⟩ := I.each i a L ha hL
    exact ⟨h1, ⟨fun p hp => Nat.lt_of_lt_of_le (h2.1 p hp) hn, h2.2⟩, h3.1, Nat.le_trans h3.2 hC⟩
  · rw [I.view]
    apply List.map_congr_left
    intro L hL
    obtain ⟨j, hj⟩ := List.mem_iff_getElem?.1 hL
    exact (contents_congr fun p hp => hv p (inv_lt I hj p hp)).symm

/-- A new array made of new cells. -/
theorem inv_add {C C' : Nat} {h h' : Heap V} {arrs : List Arr} {Ls s} {b : Arr}
    {X : List (Option Nat)} {S} (I : InvL C ⟨h, arrs⟩ Ls s) (P : Post C' h [] h' b X S)
    (hC : C ≤ C') : InvL C' ⟨h', arrs ++ [b]⟩ (Ls ++ [X]) (s ++ [S]) := by
  have I' := inv_heap I P.loc.next (fun q hq => P.loc.old q hq (by simp [ptrs])) hC
  rw [← P.view]
  refine inv_append I' P.rep P.own P.cap ?_
  intro j Lj hLj p hp hq
  have := inv_lt I hLj p hq
  rcases P.loc.from_ p hp with h1 | h1
  · simp [ptrs] at h1
  · simp only at this; omega

/-! ### Index arguments -/

theorem sliceStart_spec (n : Nat) (st : Int) (h : -(n : Int) ≤ st) :
    (sliceStart n st = some (ES.rel n st)) ∨ (sliceStart n st = none ∧ ES.rel n st = n) := by
  unfold sliceStart ES.rel
  by_cases h1 : st > n
  · right
    rw [if_pos h1, if_neg (by omega)]
    exact ⟨rfl, by omega⟩
  · left
    rw [if_neg h1]
    by_cases h2 : st < 0
    · simp only [if_pos h2]
      rw [if_neg (by omega)]
    · simp only [if_neg h2]
      congr 1; omega

theorem rel_le (n : Nat) (i : Int) : ES.rel n i ≤ n := by
  unfold ES.rel; split <;> omega

theorem sliceEnd_spec (n : Nat) (e : Option Int) (hn : n ≠ 0) :
    (∃ j, sliceEnd n e = some j ∧ ES.rel n ((inclusive e).getD n) = j + 1) ∨
    (sliceEnd n e = none ∧ ES.rel n ((inclusive e).getD n) = 0) := by
  unfold sliceEnd inclusive ES.rel
  cases e with
  | none =>
    left
    refine ⟨n - 1, rfl, ?_⟩
    simp only [Option.getD_none]
    rw [if_neg (by omega)]; omega
  | some e =>
    simp only []
    by_cases h1 : e = -1
    · subst h1
      left
      refine ⟨n - 1, ?_, ?_⟩
      · rw [if_neg (by omega), if_pos (by omega), if_neg (by omega)]
        congr 1; omega
      · simp only [if_true, Option.getD_none]
        rw [if_neg (by omega)]; omega
    · rw [if_neg h1]
      simp only [Option.getD_some]
      by_cases h2 : e ≥ n
      · left
        refine ⟨n - 1, ?_, ?_⟩
        · rw [if_pos h2, if_neg (by omega), if_neg (by omega)]
          congr 1; omega
        · rw [if_neg (by omega)]; omega
      · rw [if_neg h2]
        by_cases h3 : e < 0
        · rw [if_pos h3]
          by_cases h4 : (n : Int) + e < 0
          · right
            rw [if_pos h4, if_pos (by omega)]
            exact ⟨rfl, by omega⟩
          · left
            refine ⟨((n : Int) + e).toNat, ?_, ?_⟩
            · rw [if_neg h4]
            · rw [if_pos (by omega)]; omega
        · rw [if_neg h3]
          left
          refine ⟨e.toNat, ?_, ?_⟩
          · rw [if_neg h3]
          · rw [if_neg (by omega)]; omega

theorem slice_post {M B C : Nat} (h : Heap V) (a : Arr) (L : List (Option Nat)) (st : Int)
    (e : Option Int) (hR : Rep a L) (hO : Own h L) (hBM : B ≤ M) (hBC : B ≤ C)
    (hr : roomFor B L.length) (hst : -(L.length : Int) ≤ st) :
    ∃ h' b X, slice M h a st e = some ⟨h', a, b, false⟩ ∧
      Post C h [] h' b X (ES.slice (contents h L) st (inclusive e)) := by
  have hs := hR.sizeOf
  have hempty : Post C h [] h Arr.new [] ([] : List (Option V)) :=
    ⟨rep_new, ⟨by simp [ptrs], by simp [ptrs]⟩, local_sub h _ _ (by simp), rfl, rfl, by simp [Arr.new]⟩
  have hcl := contents_length h L
  unfold slice ES.slice
  simp only [hs, hcl]
  have hnil : ∀ i j, (j - i = 0 ∨ L.length ≤ i) →
      List.take (j - i) (List.drop i (contents h L)) = [] := by
    intro i j hij
    rcases hij with hij | hij
    · rw [hij]; rfl
    · rw [List.drop_eq_nil_of_le (by rw [hcl]; exact hij)]; simp
  rcases sliceStart_spec L.length st hst with h1 | ⟨h1, h2⟩
  · rw [h1]
    simp only []
    by_cases hn : L.length = 0
    · rw [if_pos hn]
      refine ⟨h, _, [], rfl, ?_⟩
      rw [hnil _ _ (by right; omega)]; exact hempty
    · rw [if_neg hn]
      rcases sliceEnd_spec L.length e hn with ⟨j, h3, h4⟩ | ⟨h3, h4⟩
      · rw [h3]
        simp only []
        have hj : j + 1 ≤ L.length := by rw [← h4]; exact rel_le _ _
        by_cases hc : j + 1 - ES.rel L.length st = 0 ∨ ES.rel L.length st ≥ a.cnt
        · rw [if_pos hc]
          refine ⟨h, _, [], rfl, ?_⟩
          rw [h4, hnil _ _ (by rw [hR.2] at hc; omega)]; exact hempty
        · rw [if_neg hc, h4]
          obtain ⟨b, hb, P⟩ := dup_sub (M := M) (B := B) (C := C) h a L (ES.rel L.length st)
            (j + 1 - ES.rel L.length st) hR hO hBM hBC (by omega) hr
          exact ⟨_, b, _, hb, P⟩
      · rw [h3]
        refine ⟨h, _, [], rfl, ?_⟩
        rw [h4, hnil _ _ (by left; omega)]; exact hempty
  · rw [h1]
    refine ⟨h, _, [], rfl, ?_⟩
    rw [h2, hnil _ _ (by right; omega)]; exact hempty

theorem fill_post {C : Nat} (h : Heap V) (a : Arr) (L : List (Option Nat)) (v : V) (st : Option Int)
    (e : Option Int) (hR : Rep a L) (hO : Own h L) (hC : Cap C a)
    (hst : -(L.length : Int) ≤ st.getD 0) :
    ∃ h' a' L', fill h a v st e = some ⟨h', a', (), false⟩ ∧
      Post C h L h' a' L' (ES.fill (contents h L) v st (inclusive e)) := by
  have hs := hR.sizeOf
  have hcl := contents_length h L
  have hsame : Post C h L h a L (contents h L) :=
    ⟨hR, hO, local_sub h _ _ (fun _ hp => hp), rfl, hC⟩
  have hnoop : ∀ i j, j ≤ i → List.take i (contents h L) ++ List.replicate (j - i) (some v) ++
      List.drop (max i j) (contents h L) = contents h L := by
    intro i j hij
    have e1 : j - i = 0 := by omega
    have e2 : max i j = i := by omega
    rw [e1, e2]; simp
  have hstart : fillStart L.length st
        = some (ES.rel L.length (st.getD 0)) ∨
      (fillStart L.length st = none ∧
        ES.rel L.length (st.getD 0) = L.length) := by
    cases st with
    | none => left; simp [ES.rel, fillStart]
    | some s => exact sliceStart_spec L.length s hst
  unfold fill ES.fill
  simp only [hs, hcl]
  rcases hstart with h1 | ⟨h1, h2⟩
  · rw [h1]
    simp only []
    by_cases hn : L.length = 0
    · rw [if_pos hn]
      refine ⟨h, a, L, rfl, ?_⟩
      rw [hnoop _ _ ?_]
      · exact hsame
      · have := rel_le L.length ((inclusive e).getD L.length); omega
    · rw [if_neg hn]
      rcases sliceEnd_spec L.length e hn with ⟨j, h3, h4⟩ | ⟨h3, h4⟩
      · rw [h3, h4]
        simp only []
        have hj : j + 1 ≤ L.length := by rw [← h4]; exact rel_le _ _
        rcases Nat.lt_or_ge j (ES.rel L.length (st.getD 0)) with hc | hc
        · have e0 : j + 1 - ES.rel L.length (st.getD 0) = 0 := by omega
          rw [e0]
          refine ⟨h, a, L, rfl, ?_⟩
          have := hnoop (ES.rel L.length (st.getD 0)) (j + 1) (by omega)
          rw [e0] at this
          rw [this]; exact hsame
        · obtain ⟨h', m, L', hl, P⟩ := fill_sub v h a L (ES.rel L.length (st.getD 0))
            (j + 1 - ES.rel L.length (st.getD 0)) hR hO hC (by omega)
          rw [hl]
          refine ⟨h', _, L', rfl, ?_⟩
          have e1 : max (ES.rel L.length (st.getD 0)) (j + 1)
              = ES.rel L.length (st.getD 0) + (j + 1 - ES.rel L.length (st.getD 0)) := by omega
          rw [e1]; exact P
      · rw [h3, h4]
        refine ⟨h, a, L, rfl, ?_⟩
        rw [hnoop _ _ (by omega)]; exact hsame
  · rw [h1]
    refine ⟨h, a, L, rfl, ?_⟩
    rw [hnoop _ _ ?_]
    · exact hsame
    · have := rel_le L.length ((inclusive e).getD L.length); omega

theorem spliceStart_spec (n : Nat) (st : Int) (h : st ≤ n) :
    spliceStart n st = some (ES.rel n st) := by
  unfold spliceStart ES.rel
  rw [if_neg (by omega)]
  by_cases h2 : st < 0
  · simp only [if_pos h2]
    split
    · congr 1; omega
    · rfl
  · simp only [if_neg h2]
    congr 1; omega

theorem spliceCount_spec (l : List (Option V)) (st : Int) (how : Option Int) (hh : 0 ≤ how.getD 0) :
    Array.spliceCount l.length (ES.rel l.length st) how = ES.spliceCount l st how := by
  unfold Array.spliceCount ES.spliceCount
  cases how with
  | none => rfl
  | some k =>
    simp only [Option.getD_some] at hh
    simp only []
    by_cases h1 : k ≥ ((l.length - ES.rel l.length st : Nat) : Int)
    · rw [if_pos h1]; omega
    · rw [if_neg h1, if_neg (by omega)]; omega

/-! ### Arguments of concat -/

theorem toArgs_spec {C : Nat} (arrs : List Arr) (Ls : List (List (Option Nat))) :
    ∀ (items : List (Item V)) (h : Heap V) (s : List (List (Option V))) (ls : List (Option V)),
    InvL C ⟨h, arrs⟩ Ls s → itemsSpec s items = some ls →
    ∃ (h' : Heap V) (args : List (CArg × List (Option Nat))), toArgs arrs items h = some (h', args.map Prod.fst) ∧
      (∀ x ∈ args, CArg.Rep x.1 x.2) ∧ h.next ≤ h'.next ∧
      (∀ q, q < h.next → h'.val q = h.val q) ∧
      (∀ p ∈ ptrs (args.flatMap Prod.snd), p < h'.next) ∧
      contents h' (args.flatMap Prod.snd) = ls := by
  intro items
  induction items with
  | nil =>
    intro h s ls _ hs
    cases hs
    exact ⟨h, [], rfl, by simp, Nat.le_refl _, fun _ _ => rfl, by simp [ptrs], rfl⟩
  | cons it items ih =>
    intro h s ls I hs
    rw [itemsSpec] at hs
    cases hx : it.spec s with
    | none => rw [hx] at hs; cases hs
    | some x =>
      cases hy : itemsSpec s items with
      | none => rw [hx, hy] at hs; cases hs
      | some y =>
        rw [hx, hy] at hs
        cases hs
        cases it with
        | arr i =>
          obtain ⟨a, L, ha, hL, e, hR, hO, _⟩ := I.get hx
          obtain ⟨h', args, h1, h2, h3, h4, h5, h6⟩ := ih h s y I hy
          refine ⟨h', (.arr a, L) :: args, ?_, ?_, h3, h4, ?_, ?_⟩
          · rw [toArgs]
            simp only at ha
            rw [ha, h1]; rfl
          · intro x hx
            simp only [List.mem_cons] at hx
            rcases hx with hx | hx
            · rw [hx]; exact hR
            · exact h2 x hx
          · intro p hp
            rw [List.flatMap_cons, ptrs_append] at hp
            simp only [List.mem_append] at hp
            rcases hp with hp | hp
            · exact Nat.lt_of_lt_of_le (hO.1 p hp) h3
            · exact h5 p hp
          · rw [List.flatMap_cons, contents_append, h6, e]
            congr 1
            exact contents_congr fun p hp => h4 p (hO.1 p hp)
        | val v =>
          cases hx
          have hnx : h.next ≤ (h.alloc v).next := by simp [Heap.alloc]
          have hvl : ∀ q, q < h.next → (h.alloc v).val q = h.val q := by
            intro q hq; simp only [Heap.alloc]; rw [if_neg (by omega)]
          have I' : InvL C ⟨h.alloc v, arrs⟩ Ls s := inv_heap I hnx hvl (Nat.le_refl _)
          obtain ⟨h', args, h1, h2, h3, h4, h5, h6⟩ := ih (h.alloc v) s y I' hy
          have hlt : h.next < (h.alloc v).next := by simp [Heap.alloc]
          refine ⟨h', (.val h.next, [some h.next]) :: args, ?_, ?_, Nat.le_trans hnx h3, ?_, ?_, ?_⟩
          · rw [toArgs, h1]; rfl
          · intro x hx
            simp only [List.mem_cons] at hx
            rcases hx with hx | hx
            · rw [hx]; rfl
            · exact h2 x hx
          · intro q hq
            rw [h4 q (by omega), hvl q hq]
          · intro p hp
            rw [List.flatMap_cons, ptrs_append] at hp
            simp only [List.mem_append] at hp
            rcases hp with hp | hp
            · have : p = h.next := by simpa [ptrs] using hp
              omega
            · exact h5 p hp
          · rw [List.flatMap_cons, contents_append, h6]
            have : contents h' [some h.next] = [some v] := by
              have : h'.val h.next = v := by rw [h4 _ hlt]; simp [Heap.alloc]
              simp [contents, this]
            rw [this]

/-! ### One step -/

theorem stepOk_refines {M B C : Nat} {w : World V} {Ls s s'} {op : Op V} {r : Ret V}
    (I : InvL C w Ls s) (h112 : 112 ≤ C) (hBC : B ≤ C)
    (hM : C + 16 * concats [op] ≤ M) (hs : specStep B s op = some (s', r)) :
    ∃ w' Ls', stepOk M w op = some (w', r) ∧ InvL (C + 16 * concats [op]) w' Ls' s' := by
  obtain ⟨h, arrs⟩ := w
  cases op with
  | create =>
    cases hs
    refine ⟨_, Ls ++ [[]], rfl, ?_⟩
    have := inv_append (b := .new) (X := []) I rep_new ⟨by simp [ptrs], by simp [ptrs]⟩
      ⟨rfl, by simp [Arr.new]⟩ (by simp [ptrs])
    exact this
  | push i vs =>
    simp only [specStep, Option.bind_eq_bind] at hs
    obtain ⟨l, hl, hs⟩ := Option.bind_eq_some_iff.1 hs
    split at hs
    · rename_i hr
      cases hs
      obtain ⟨a, L, ha, hL, e, hR, hO, hC⟩ := I.get hl
      rw [e, contents_length] at hr ⊢
      obtain ⟨a', L', h1, P⟩ := push_post (M := M) h a L vs hR hO hC (by simp [concats] at hM; omega) hBC hr
      refine ⟨_, Ls.set i L', ?_, inv_set I hL P⟩
      simp only at ha
      simp only [stepOk, ha, Option.bind_some, h1, Option.map_some]
      rfl
    · cases hs
  | pop i =>
    simp only [specStep, Option.bind_eq_bind] at hs
    obtain ⟨l, hl, hs⟩ := Option.bind_eq_some_iff.1 hs
    cases hs
    obtain ⟨a, L, ha, hL, e, hR, hO, hC⟩ := I.get hl
    obtain ⟨a', h1, P⟩ := pop_post h a L hR hO hC
    simp only at e
    rw [e]
    refine ⟨_, Ls.set i L.dropLast, ?_, inv_set I hL P⟩
    simp only at ha
    simp only [stepOk, ha, Option.bind_some, h1, Option.map_some, World.upd]
    congr 2
    unfold retCell contents
    rw [List.getLast?_map]
    cases L.getLast? with
    | none => rfl
    | some c => cases c <;> rfl
  | shift i =>
    simp only [specStep, Option.bind_eq_bind] at hs
    obtain ⟨l, hl, hs⟩ := Option.bind_eq_some_iff.1 hs
    split at hs
    · cases hs
    · rename_i hne
      cases hs
      obtain ⟨a, L, ha, hL, e, hR, hO, hC⟩ := I.get hl
      simp only at e
      subst e
      have hh : ∀ X, L ≠ none :: X := by
        intro X hX; apply hne; rw [hX]; simp [contents]
      obtain ⟨a', h1, P⟩ := shift_post h a L hR hO hC hh
      refine ⟨_, Ls.set i L.tail, ?_, inv_set I hL P⟩
      simp only at ha
      simp only [stepOk, ha, Option.bind_some, h1, Option.map_some, World.upd]
      congr 2
      unfold retVal
      simp only []
      cases (contents h L).head? with
      | none => rfl
      | some c => cases c <;> rfl
  | unshift i vs =>
    simp only [specStep, Option.bind_eq_bind] at hs
    obtain ⟨l, hl, hs⟩ := Option.bind_eq_some_iff.1 hs
    split at hs
    · rename_i hr
      cases hs
      obtain ⟨a, L, ha, hL, e, hR, hO, hC⟩ := I.get hl
      rw [e, contents_length] at hr ⊢
      obtain ⟨a', L', h1, P⟩ := unshift_post (M := M) h a L vs hR hO hC
        (by simp [concats] at hM; omega) hBC hr.1 hr.2
      refine ⟨_, Ls.set i L', ?_, inv_set I hL P⟩
      simp only at ha
      simp only [stepOk, ha, Option.bind_some, h1, Option.map_some]
      rfl
    · cases hs
  | assign i n v =>
    simp only [specStep, Option.bind_eq_bind] at hs
    obtain ⟨l, hl, hs⟩ := Option.bind_eq_some_iff.1 hs
    split at hs
    · rename_i hr
      cases hs
      obtain ⟨a, L, ha, hL, e, hR, hO, hC⟩ := I.get hl
      rw [e, contents_length] at hr
      rw [e]
      obtain ⟨h', a', L', h1, P⟩ := assign_post (M := M) h a L n v hR hO hC
        (by simp [concats] at hM; omega) hBC hr
      refine ⟨_, Ls.set i L', ?_, inv_set I hL P⟩
      simp only at ha
      simp only [stepOk, ha, Option.bind_some, h1, Option.map_some]
      rfl
    · cases hs
  | reverse i =>
    simp only [specStep, Option.bind_eq_bind] at hs
    obtain ⟨l, hl, hs⟩ := Option.bind_eq_some_iff.1 hs
    cases hs
    obtain ⟨a, L, ha, hL, e, hR, hO, hC⟩ := I.get hl
    obtain ⟨a', h1, P⟩ := reverse_post h a L hR hO hC
    simp only at e
    rw [e]
    refine ⟨_, Ls.set i L.reverse, ?_, inv_set I hL P⟩
    simp only at ha
    simp only [stepOk, ha, Option.bind_some, h1, Option.map_some]
    rfl
  | slice i st en =>
    simp only [specStep, Option.bind_eq_bind] at hs
    obtain ⟨l, hl, hs⟩ := Option.bind_eq_some_iff.1 hs
    split at hs
    · rename_i hr
      cases hs
      obtain ⟨a, L, ha, hL, e, hR, hO, hC⟩ := I.get hl
      rw [e, contents_length] at hr
      rw [e]
      obtain ⟨h', b, X, h1, P⟩ := slice_post (M := M) (C := C) h a L st en hR hO
        (by simp [concats] at hM; omega) hBC hr.2 hr.1
      refine ⟨_, Ls ++ [X], ?_, inv_add I P (Nat.le_refl _)⟩
      simp only at ha
      simp only [stepOk, ha, Option.bind_some, h1, Option.map_some]
      rfl
    · cases hs
  | fill i v st en =>
    simp only [specStep, Option.bind_eq_bind] at hs
    obtain ⟨l, hl, hs⟩ := Option.bind_eq_some_iff.1 hs
    split at hs
    · rename_i hr
      cases hs
      obtain ⟨a, L, ha, hL, e, hR, hO, hC⟩ := I.get hl
      rw [e, contents_length] at hr
      rw [e]
      obtain ⟨h', a', L', h1, P⟩ := fill_post h a L v st en hR hO hC hr
      refine ⟨_, Ls.set i L', ?_, inv_set I hL P⟩
      simp only at ha
      simp only [stepOk, ha, Option.bind_some, h1, Option.map_some]
      rfl
    · cases hs
  | concat i items =>
    simp only [specStep, Option.bind_eq_bind] at hs
    obtain ⟨l, hl, hs⟩ := Option.bind_eq_some_iff.1 hs
    obtain ⟨ls, hls, hs⟩ := Option.bind_eq_some_iff.1 hs
    split at hs
    · rename_i hr
      cases hs
      obtain ⟨a, L, ha, hL, e, hR, hO, hC⟩ := I.get hl
      obtain ⟨h', args, t1, t2, t3, t4, t5, t6⟩ := toArgs_spec arrs Ls items h s ls I hls
      have I' : InvL C ⟨h', arrs⟩ Ls s := inv_heap I t3 t4 (Nat.le_refl _)
      have hO' : Own h' L := ⟨fun p hp => Nat.lt_of_lt_of_le (hO.1 p hp) t3, hO.2⟩
      have hlen : (args.flatMap Prod.snd).length = ls.length := by
        rw [← t6, contents_length]
      rw [e, contents_length] at hr
      have hL' : contents h' L = contents h L := contents_congr fun p hp => t4 p (hO.1 p hp)
      simp only [concats] at hM ⊢
      obtain ⟨b, h1, P⟩ := concat_post (M := M) (B := B) (C := C) h' a L args hR hO' hC t2 t5
        (by omega) hBC h112 (by omega) (by rw [hlen]; exact hr)
      rw [t6, hL'] at P
      simp only at e
      rw [e]
      refine ⟨_, _, ?_, inv_add I' P (by omega)⟩
      simp only at ha
      simp only [stepOk, ha, Option.bind_some, t1, h1, Option.map_some]
      rfl
    · cases hs
  | splice i st how vs =>
    simp only [specStep, Option.bind_eq_bind] at hs
    obtain ⟨l, hl, hs⟩ := Option.bind_eq_some_iff.1 hs
    split at hs
    · rename_i hr
      cases hs
      obtain ⟨a, L, ha, hL, e, hR, hO, hC⟩ := I.get hl
      simp only at e
      have hcl := contents_length h L
      -- the heap with the arguments
      have hn1 : h.next ≤ (callArgs h vs).1.next := by rw [callArgs_next]; omega
      have hv1 := callArgs_old h vs
      have I' : InvL C ⟨(callArgs h vs).1, arrs⟩ Ls s := inv_heap I hn1 hv1 (Nat.le_refl _)
      have hO' : Own (callArgs h vs).1 L := ⟨fun p hp => Nat.lt_of_lt_of_le (hO.1 p hp) hn1, hO.2⟩
      have hL' : contents (callArgs h vs).1 L = contents h L := callArgs_old_contents h vs L hO
      rw [e, hcl] at hr
      have hik : ES.rel L.length st + ES.spliceCount l st how ≤ L.length := by
        have := rel_le L.length st
        unfold ES.spliceCount
        rw [e, hcl]
        cases how <;> simp only [] <;> omega
      obtain ⟨a', b, h1, P, Q, hdj⟩ := splice_sub (M := M) (B := B) (C := C) (callArgs h vs).1 a L
        (ES.rel L.length st) (ES.spliceCount l st how) (callArgs h vs).2 hR hO' hC
        (by
          intro p hp
          rw [callArgs_snd] at hp
          rw [callArgs_next]
          simp only [List.mem_range'_1] at hp
          omega)
        (by simp [concats] at hM; omega) hBC hik (by rw [callArgs_length]; exact hr.2.2.2)
      have hvals : (callArgs h vs).2.map (fun p => some ((callArgs h vs).1.val p)) = vs.map some := by
        have := callArgs_vals h vs
        calc (callArgs h vs).2.map (fun p => some ((callArgs h vs).1.val p))
            = ((callArgs h vs).2.map (callArgs h vs).1.val).map some := by rw [List.map_map]; rfl
          _ = vs.map some := by rw [this]
      rw [hL', hvals] at P
      rw [hL'] at Q
      have I2 := inv_set I' hL P
      have hil : i < Ls.length := (List.getElem?_eq_some_iff.1 hL).1
      have I3 := inv_append I2 Q.rep Q.own Q.cap (by
        intro j Lj hLj p hp hq
        by_cases hj : j = i
        · subst hj
          rw [List.getElem?_set_self hil] at hLj
          cases hLj
          exact hdj p hp hq
        · rw [List.getElem?_set_ne (fun x => hj x.symm)] at hLj
          have hpL : p ∈ ptrs L := by
            rcases Q.loc.from_ p hp with h' | h'
            · exact h'
            · have h2 := inv_lt I' hLj p hq
              simp only at h2; omega
          exact I'.disj i j L Lj (fun x => hj x.symm) hL hLj p hpL hq)
      rw [Q.view] at I3
      have hES : ES.splice l st how vs =
          (List.take (ES.spliceCount l st how) (List.drop (ES.rel L.length st) (contents h L)),
            List.take (ES.rel L.length st) (contents h L) ++ List.map some vs ++
            List.drop (ES.rel L.length st + ES.spliceCount l st how) (contents h L)) := by
        unfold ES.splice
        simp only [e, hcl]
      rw [hES]
      refine ⟨_, _, ?_, I3⟩
      simp only at ha
      simp only [stepOk, ha, Option.bind_some, splice, hR.sizeOf]
      rw [spliceStart_spec _ _ hr.1]
      simp only []
      have hsc := spliceCount_spec l st how hr.2.1
      rw [e, hcl] at hsc
      rw [hsc]
      rw [← e, h1]
      rfl
    · cases hs

theorem itemsSpec_ok (s : List (List (Option V))) : ∀ (items : List (Item V)) (ls : List (Option V)),
    itemsSpec s items = some ls → items.all (Item.ok s.length) = true := by
  intro items
  induction items with
  | nil => intros; rfl
  | cons it items ih =>
    intro ls hs
    rw [itemsSpec] at hs
    cases hx : it.spec s with
    | none => rw [hx] at hs; cases hs
    | some x =>
      cases hy : itemsSpec s items with
      | none => rw [hx, hy] at hs; cases hs
      | some y =>
        rw [List.all_cons, ih y hy, Bool.and_true]
        cases it with
        | arr i => exact decide_eq_true (List.getElem?_eq_some_iff.1 hx).1
        | val v => rfl

theorem spec_ok {B : Nat} {s s' : List (List (Option V))} {op : Op V} {r : Ret V}
    (hs : specStep B s op = some (s', r)) : op.ok s.length = true := by
  have key : ∀ {i : Nat} {f : List (Option V) → Option (List (List (Option V)) × Ret V)},
      (s[i]?).bind f = some (s', r) → decide (i < s.length) = true := by
    intro i f h
    obtain ⟨l, hl, _⟩ := Option.bind_eq_some_iff.1 h
    exact decide_eq_true (List.getElem?_eq_some_iff.1 hl).1
  cases op with
  | create => rfl
  | concat i items =>
    simp only [specStep, Option.bind_eq_bind] at hs
    obtain ⟨l, hl, hs⟩ := Option.bind_eq_some_iff.1 hs
    obtain ⟨ls, hls, hs⟩ := Option.bind_eq_some_iff.1 hs
    rw [Op.ok, itemsSpec_ok s items ls hls, Bool.and_true]
    exact decide_eq_true (List.getElem?_eq_some_iff.1 hl).1
  | _ =>
    simp only [specStep, Option.bind_eq_bind] at hs
    exact key hs

theorem step_refines {M B C : Nat} {w : World V} {Ls s s'} {op : Op V} {r : Ret V}
    (I : InvL C w Ls s) (h112 : 112 ≤ C) (hBC : B ≤ C)
    (hM : C + 16 * concats [op] ≤ M) (hs : specStep B s op = some (s', r)) :
    ∃ w' Ls', step M w op = some (w', r) ∧ InvL (C + 16 * concats [op]) w' Ls' s' := by
  have hok := spec_ok hs
  rw [I.view, List.length_map, I.len] at hok
  obtain ⟨w', Ls', h1, h2⟩ := stepOk_refines I h112 hBC hM hs
  exact ⟨w', Ls', by rw [step, if_pos hok]; exact h1, h2⟩

theorem concats_cons (op : Op V) (ops : List (Op V)) :
    concats (op :: ops) = concats [op] + concats ops := by
  cases op <;> simp [concats, Nat.add_comm]

theorem run_refines {M B : Nat} (ops : List (Op V)) : ∀ {C : Nat} {w : World V} {Ls s s' rs},
    InvL C w Ls s → 112 ≤ C → B ≤ C → C + 16 * concats ops ≤ M →
    specRun B s ops = some (s', rs) →
    ∃ w' Ls' C', run M w ops = some (w', rs) ∧ InvL C' w' Ls' s' := by
  induction ops with
  | nil =>
    intro C w Ls s s' rs I _ _ _ h
    cases h
    exact ⟨w, Ls, C, rfl, I⟩
  | cons op ops ih =>
    intro C w Ls s s' rs I h112 hBC hM h
    rw [concats_cons] at hM
    simp only [specRun, Option.bind_eq_bind] at h
    obtain ⟨⟨s1, r⟩, h1, h2⟩ := Option.bind_eq_some_iff.1 h
    obtain ⟨⟨s2, rs'⟩, h3, h4⟩ := Option.bind_eq_some_iff.1 h2
    cases h4
    obtain ⟨w1, Ls1, e1, I1⟩ := step_refines (M := M) I h112 hBC (by omega) h1
    obtain ⟨w2, Ls2, C2, e2, I2⟩ := ih I1 (by omega) (by omega) (by omega) h3
    refine ⟨w2, Ls2, C2, ?_, I2⟩
    rw [run, e1]
    simp only [Option.bind_some, e2, Option.map_some]

theorem rep_elems {h : Heap V} {a : Arr} {L : List (Option Nat)} (hR : Rep a L) :
    elems h a = contents h L := by
  obtain ⟨⟨k, hm⟩, hc⟩ := hR
  unfold elems contents
  rw [hm, hc, List.take_left']
  rfl

theorem inv_view {C : Nat} {w : World V} {Ls s} (I : InvL C w Ls s) : w.view = s := by
  apply List.ext_getElem?
  intro j
  rw [World.view, I.view, List.getElem?_map, List.getElem?_map]
  cases ha : w.arrs[j]? with
  | none =>
    have : Ls[j]? = none := by
      rw [List.getElem?_eq_none_iff] at ha ⊢; rw [I.len]; exact ha
    rw [this]; rfl
  | some a =>
    have hlt : j < Ls.length := by rw [I.len]; exact (List.getElem?_eq_some_iff.1 ha).1
    have hL : Ls[j]? = some Ls[j] := List.getElem?_eq_getElem hlt
    rw [hL]
    simp only [Option.map_some]
    rw [rep_elems (I.each j a _ ha hL).1]

end Verif.Array
