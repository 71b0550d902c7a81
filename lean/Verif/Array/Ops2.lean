import Verif.Array.Ops
import Mathlib.Data.List.Nodup

/-!
What the remaining array methods do: assignment, `reverse`, `slice`, `fill`, `concat`, `splice`.
-/

namespace Verif.Array

variable {V : Type}

theorem setLength_mem {m : List (Option Nat)} {c len : Nat} {a : Arr}
    (h : setLength ⟨m, c⟩ len = some a) : a.mem = m := by
  unfold setLength at h
  split at h
  · cases h; rfl
  · cases h

theorem cap_len {C : Nat} {m : List (Option Nat)} {c : Nat} {a : Arr}
    (h : Cap C ⟨m, c⟩) (hl : a.mem.length = m.length) : Cap C a := by
  unfold Cap at h ⊢; rw [hl]; exact h

/-! ### assignment -/

theorem copy_contents (h : Heap V) (A B : List (Option Nat)) (p : Nat) (v : V)
    (hd : (ptrs (A ++ some p :: B)).Nodup) :
    contents (h.copy p v) (A ++ some p :: B) = contents h A ++ some v :: contents h B := by
  have e : ptrs (A ++ some p :: B) = ptrs A ++ p :: ptrs B := by simp [ptrs]
  rw [e] at hd
  have h1 := List.nodup_append.1 hd
  have hA : p ∉ ptrs A := fun hp => h1.2.2 p hp p (by simp) rfl
  have hB : p ∉ ptrs B := (List.nodup_cons.1 h1.2.1).1
  have cA : contents (h.copy p v) A = contents h A := contents_congr fun q hq => by
    simp only [Heap.copy]; rw [if_neg]; intro e; exact hA (e ▸ hq)
  have cB : contents (h.copy p v) B = contents h B := contents_congr fun q hq => by
    simp only [Heap.copy]; rw [if_neg]; intro e; exact hB (e ▸ hq)
  have : contents (h.copy p v) (A ++ some p :: B)
      = contents (h.copy p v) A ++ some ((h.copy p v).val p) :: contents (h.copy p v) B := by
    simp [contents]
  rw [this, cA, cB]
  simp [Heap.copy]

theorem alloc_contents (h : Heap V) (L : List (Option Nat)) (v : V) (hL : ∀ p ∈ ptrs L, p < h.next) :
    contents (h.alloc v) L = contents h L := contents_congr fun q hq => by
  have := hL q hq
  simp only [Heap.alloc]; rw [if_neg (by omega)]

/-- A fresh cell put between `A` and `B`. -/
theorem alloc_post {C : Nat} (h : Heap V) (a' : Arr) (L A B : List (Option Nat)) (v : V)
    (hR : Rep a' (A ++ some h.next :: B)) (hC : Cap C a')
    (hsub : ∀ p, p ∈ ptrs A ++ ptrs B → p ∈ ptrs L) (hlt : ∀ p ∈ ptrs L, p < h.next)
    (hd : (ptrs A ++ ptrs B).Nodup) :
    Post C h L (h.alloc v) a' (A ++ some h.next :: B) (contents h A ++ some v :: contents h B) := by
  have e : ptrs (A ++ some h.next :: B) = ptrs A ++ h.next :: ptrs B := by simp [ptrs]
  have hltA : ∀ p ∈ ptrs A, p < h.next := fun p hp => hlt p (hsub p (by simp [hp]))
  have hltB : ∀ p ∈ ptrs B, p < h.next := fun p hp => hlt p (hsub p (by simp [hp]))
  refine ⟨hR, ⟨?_, ?_⟩, ⟨?_, ?_, ?_⟩, ?_, hC⟩
  · intro p hp
    rw [e] at hp
    simp only [List.mem_append, List.mem_cons] at hp
    simp only [Heap.alloc]
    rcases hp with hp | hp | hp
    · have := hltA p hp; omega
    · omega
    · have := hltB p hp; omega
  · rw [e]
    rw [List.nodup_append] at hd ⊢
    refine ⟨hd.1, List.nodup_cons.2 ⟨fun hp => ?_, hd.2.1⟩, ?_⟩
    · have := hltB _ hp; omega
    · intro p hp q hq
      simp only [List.mem_cons] at hq
      rcases hq with hq | hq
      · have := hltA p hp; omega
      · exact hd.2.2 p hp q hq
  · simp [Heap.alloc]
  · intro q hq _
    simp only [Heap.alloc]; rw [if_neg (by omega)]
  · intro p hp
    rw [e] at hp
    simp only [List.mem_append, List.mem_cons] at hp
    rcases hp with hp | hp | hp
    · exact .inl (hsub p (by simp [hp]))
    · right; omega
    · exact .inl (hsub p (by simp [hp]))
  · have : contents (h.alloc v) (A ++ some h.next :: B)
        = contents (h.alloc v) A ++ some ((h.alloc v).val h.next) :: contents (h.alloc v) B := by
      simp [contents]
    rw [this, alloc_contents h A v hltA, alloc_contents h B v hltB]
    simp [Heap.alloc]

theorem ptrs_replicate (k : Nat) : ptrs (List.replicate k none) = [] := by
  induction k with
  | zero => rfl
  | succ k ih => simpa [List.replicate_succ, ptrs] using ih

theorem contents_replicate (h : Heap V) (k : Nat) :
    contents h (List.replicate k none) = List.replicate k none := by simp [contents]

theorem assign_post {M B C : Nat} (h : Heap V) (a : Arr) (L : List (Option Nat)) (n : Nat) (v : V)
    (hR : Rep a L) (hO : Own h L) (hC : Cap C a) (hBM : B ≤ M) (hBC : B ≤ C)
    (hr : roomFor B (max n L.length + 1)) :
    ∃ h' a' L', assign M h a n v = some ⟨h', a', (), false⟩ ∧
      Post C h L h' a' L' (ES.assign (contents h L) n v) := by
  obtain ⟨⟨k, hm⟩, hcnt⟩ := hR
  have hf : fits M n := fits_of hr hBM (by omega)
  obtain ⟨j, hsz, hj⟩ := sizer_some (a := a) hf
  have hcap := sizer_cap hsz hC (Nat.le_trans (roundUp_room (B := B) hr (by omega)) hBC)
  simp only [hm, List.append_assoc, List.replicate_append_replicate, hcnt] at hsz hcap
  rw [hm, List.length_append, List.length_replicate] at hj
  rcases Nat.lt_or_ge n L.length with hn | hn
  · -- inside the array
    obtain ⟨c, hc⟩ : ∃ c, L[n]? = some c := ⟨L[n], by simp [hn]⟩
    have hL : L = L.take n ++ c :: L.drop (n + 1) := by
      have e := (List.take_append_drop n L).symm
      rw [List.drop_eq_getElem_cons hn] at e
      have : L[n] = c := by
        rw [List.getElem?_eq_getElem hn] at hc; exact Option.some.inj hc
      rw [this] at e; exact e
    have hlt : (L.take n).length = n := by simp; omega
    generalize hA : L.take n = A at *
    generalize hB : L.drop (n + 1) = D at *
    have hspec : ES.assign (contents h L) n v = contents h A ++ some v :: contents h D := by
      unfold ES.assign
      rw [if_pos (by simp [contents_length, hn]), hL, contents_append]
      have : contents h (c :: D) = c.map h.val :: contents h D := by simp [contents]
      rw [this, List.set_append_right _ _ (by simp [contents_length, hlt])]
      simp [contents_length, hlt]
    rw [hspec]
    have hmx : max n L.length = L.length := by omega
    rw [hmx] at hsz hcap
    have e1 : L ++ List.replicate (k + j) none = A ++ c :: (D ++ List.replicate (k + j) none) := by
      rw [hL]; simp
    cases c with
    | some p =>
      refine ⟨h.copy p v, ⟨L ++ List.replicate (k + j) none, L.length⟩, L, ?_, ⟨⟨k + j, rfl⟩, rfl⟩,
        hO, ⟨Nat.le_refl _, ?_, fun p hp => .inl hp⟩, ?_, hcap⟩
      · unfold assign
        rw [hsz]
        simp only [Option.bind_eq_bind]
        have : rd (L ++ List.replicate (k + j) none) n = some (some p) := by
          rw [e1, rd_mid _ _ _ _ hlt.symm]
        rw [this]
        rfl
      · intro q hq hq2
        simp only [Heap.copy]; rw [if_neg]
        intro e; apply hq2; rw [hL]; simp [ptrs, e]
      · have hd := hO.2
        rw [hL] at hd ⊢
        exact copy_contents h A D p v hd
    | none =>
      have hrep : Rep ⟨A ++ some h.next :: (D ++ List.replicate (k + j) none), L.length⟩
          (A ++ some h.next :: D) := ⟨⟨k + j, by simp⟩, by rw [hL]; simp⟩
      have hpL : ptrs L = ptrs A ++ ptrs D := by rw [hL]; simp [ptrs]
      refine ⟨h.alloc v, _, _, ?_, alloc_post h _ L A D v hrep ?_ ?_ hO.1 ?_⟩
      · unfold assign
        rw [hsz]
        simp only [Option.bind_eq_bind]
        have : rd (L ++ List.replicate (k + j) none) n = some none := by
          rw [e1, rd_mid _ _ _ _ hlt.symm]
        rw [this]
        simp only [Option.bind_some]
        rw [e1, wr_mid _ _ _ _ _ hlt.symm]
        simp only [Option.bind_some]
        rw [if_neg (by omega)]
        rfl
      · refine cap_len hcap ?_
        rw [e1]; simp
      · rw [hpL]; exact fun p hp => hp
      · rw [← hpL]; exact hO.2
  · -- past the end
    have hmx : max n L.length = n := by omega
    rw [hmx] at hsz hcap
    have hspec : ES.assign (contents h L) n v
        = contents h (L ++ List.replicate (n - L.length) none) ++ some v :: contents h [] := by
      unfold ES.assign
      rw [if_neg (by simp [contents_length]; omega), contents_append, contents_replicate,
        contents_length]
      rfl
    rw [hspec]
    generalize hA : L ++ List.replicate (n - L.length) none = A
    have hAl : A.length = n := by rw [← hA]; simp; omega
    have e1 : L ++ List.replicate (k + j) none
        = A ++ none :: List.replicate (k + j - (n - L.length) - 1) none := by
      rw [← hA]
      have : k + j = (n - L.length) + ((k + j - (n - L.length) - 1) + 1) := by omega
      have e2 : List.replicate (k + j) (none : Option Nat)
          = List.replicate ((n - L.length) + ((k + j - (n - L.length) - 1) + 1)) none := by rw [← this]
      rw [e2, ← List.replicate_append_replicate, List.replicate_succ]
      simp
    obtain ⟨a', ha', hrep⟩ := setLength_rep (A ++ some h.next :: List.replicate (k + j - (n - L.length) - 1) none)
      (A ++ [some h.next]) (k + j - (n - L.length) - 1) n (n + 1) (by simp) (by simp [hAl])
    have hpA : ptrs A = ptrs L := by rw [← hA, ptrs_append, ptrs_replicate, List.append_nil]
    refine ⟨h.alloc v, a', _, ?_, alloc_post h _ L A [] v hrep ?_ ?_ hO.1 ?_⟩
    · unfold assign
      rw [hsz]
      simp only [Option.bind_eq_bind]
      rw [e1, rd_mid _ _ _ _ hAl.symm]
      simp only [Option.bind_some]
      rw [wr_mid _ _ _ _ _ hAl.symm]
      simp only [Option.bind_some]
      rw [if_pos (by omega), ha']
      rfl
    · refine cap_len hcap ?_
      rw [setLength_mem ha', e1]; simp
    · rw [hpA]; intro p hp; simpa [ptrs] using hp
    · rw [hpA]; simpa [ptrs] using hO.2

/-! ### reverse -/

theorem reverse_post {C : Nat} (h : Heap V) (a : Arr) (L : List (Option Nat)) (hR : Rep a L)
    (hO : Own h L) (hC : Cap C a) :
    ∃ a', reverse h a = some ⟨h, a', (), false⟩ ∧
      Post C h L h a' L.reverse (contents h L).reverse := by
  obtain ⟨⟨k, hm⟩, hcnt⟩ := hR
  have hp : ptrs L.reverse = (ptrs L).reverse := by simp [ptrs, List.filterMap_reverse]
  refine ⟨⟨L.reverse ++ List.replicate k none, L.length⟩, ?_, ⟨⟨k, rfl⟩, by simp⟩, ⟨?_, ?_⟩,
    local_sub h _ _ ?_, ?_, ?_⟩
  · unfold reverse
    have := reverseLoop_spec (L.length / 2) [] L (List.replicate k none) 0 (L.length - 1) rfl rfl
      (by simp)
    simp only [List.nil_append] at this
    rw [hm, hcnt, this]
    rfl
  · intro p hpm
    rw [hp] at hpm
    exact hO.1 p (by simpa using hpm)
  · rw [hp, List.nodup_reverse]; exact hO.2
  · intro p hpm; rw [hp] at hpm; simpa using hpm
  · simp [contents]
  · unfold Cap at hC ⊢
    rw [hm] at hC
    simpa using hC

/-! ### slice -/

theorem dup_own (h : Heap V) (X : List (Option Nat)) :
    Own (dupHeap h X) (dupCells h.next X) := by
  rw [Own, dupCells_ptrs, dupHeap_next]
  refine ⟨fun p hp => ?_, List.nodup_range'⟩
  simp only [List.mem_range'_1] at hp
  omega

/-- The array of `k` cells copied from position `i`. -/
theorem dup_sub {M B C : Nat} (h : Heap V) (a : Arr) (L : List (Option Nat)) (i k : Nat)
    (hR : Rep a L) (hO : Own h L) (hBM : B ≤ M) (hBC : B ≤ C)
    (hik : i + k ≤ L.length) (hr : roomFor B L.length) :
    ∃ b, (match sizer M Arr.new k with
          | none => some ⟨h, a, .new, true⟩
          | some b => do
            let (h', m) ← dupLoop a.mem k h i b.mem 0
            let b' ← setLength ⟨m, b.cnt⟩ k
            return (⟨h', a, b', false⟩ : Out V Arr))
        = some ⟨dupHeap h ((L.drop i).take k), a, b, false⟩ ∧
      Post C h [] (dupHeap h ((L.drop i).take k)) b (dupCells h.next ((L.drop i).take k))
        (((contents h L).drop i).take k) := by
  obtain ⟨⟨k0, hm⟩, hcnt⟩ := hR
  have hf : fits M k := fits_of hr hBM (by omega)
  obtain ⟨j, hsz, hj⟩ := sizer_some (a := Arr.new) hf
  have hcap := sizer_cap hsz (C := C) ⟨rfl, by simp [Arr.new]⟩
    (Nat.le_trans (roundUp_room (B := B) hr (by omega)) hBC)
  simp only [Arr.new, List.nil_append, List.length_nil, Nat.zero_add] at hsz hcap hj
  generalize hX : (L.drop i).take k = X
  have hXl : X.length = k := by rw [← hX]; simp; omega
  have hsplit : a.mem = L.take i ++ X ++ (L.drop (i + k) ++ List.replicate k0 none) := by
    rw [hm, ← hX]
    have e2 : L.take i ++ ((L.drop i).take k ++ L.drop (i + k)) = L := by
      rw [← List.drop_drop, List.take_append_drop, List.take_append_drop]
    calc L ++ List.replicate k0 none
        = (L.take i ++ ((L.drop i).take k ++ L.drop (i + k))) ++ List.replicate k0 none := by rw [e2]
      _ = _ := by simp
  have hrepl : List.replicate j (none : Option Nat)
      = [] ++ List.replicate X.length none ++ List.replicate (j - k) none := by
    rw [hXl, List.nil_append, List.replicate_append_replicate]
    congr 1; omega
  have hloop := dupLoop_spec a.mem X h (L.take i) _ [] (List.replicate (j - k) none) i 0 hsplit
    (by simp; omega) rfl
  rw [← hrepl, List.nil_append, hXl] at hloop
  obtain ⟨b, hb, hrep⟩ := setLength_rep (dupCells h.next X ++ List.replicate (j - k) none)
    (dupCells h.next X) (j - k) (max k 0) k rfl (by rw [dupCells_length, hXl])
  refine ⟨b, ?_, hrep, dup_own h X, ⟨?_, ?_, ?_⟩, ?_, ?_⟩
  · have hsz' : sizer M Arr.new k = _ := hsz
    rw [hsz']
    simp only [Option.bind_eq_bind]
    rw [hloop]
    simp only [Option.bind_some]
    rw [hb]
    rfl
  · rw [dupHeap_next]; omega
  · intro q hq _; exact dupHeap_old h X q hq
  · intro p hp; right
    rw [dupCells_ptrs] at hp
    simp only [List.mem_range'_1] at hp
    exact hp.1
  · rw [dup_contents]
    · rw [← hX]; simp [contents]
    · intro p hp
      apply hO.1
      have : (ptrs X).Sublist (ptrs L) := by
        rw [← hX]
        exact ((List.take_sublist _ _).trans (List.drop_sublist _ _)).filterMap _
      exact this.subset hp
  · refine cap_len hcap ?_
    rw [setLength_mem hb]
    simp only [List.length_append, dupCells_length, List.length_replicate, hXl]
    omega

/-! ### fill -/

theorem fill_sub {C : Nat} (v : V) (h : Heap V) (a : Arr) (L : List (Option Nat)) (i k : Nat)
    (hR : Rep a L) (hO : Own h L) (hC : Cap C a) (hik : i + k ≤ L.length) :
    ∃ h' m L', fillLoop v k h i a.mem = some (h', m) ∧
      Post C h L h' ⟨m, a.cnt⟩ L'
        ((contents h L).take i ++ List.replicate k (some v) ++ (contents h L).drop (i + k)) := by
  obtain ⟨⟨k0, hm⟩, hcnt⟩ := hR
  generalize hX : (L.drop i).take k = X
  have hXl : X.length = k := by rw [← hX]; simp; omega
  generalize hA : L.take i = A
  generalize hD : L.drop (i + k) = D
  have hL : L = A ++ X ++ D := by
    rw [← hA, ← hX, ← hD, List.append_assoc, ← List.drop_drop, List.take_append_drop,
      List.take_append_drop]
  have hAl : A.length = i := by rw [← hA]; simp; omega
  have hsplit : a.mem = A ++ X ++ (D ++ List.replicate k0 none) := by rw [hm, hL]; simp
  have hloop := fillLoop_spec v X h A (D ++ List.replicate k0 none) i hAl.symm
  rw [← hsplit, hXl] at hloop
  have hpL : ptrs L = ptrs A ++ ptrs X ++ ptrs D := by rw [hL, ptrs_append, ptrs_append]
  have h1 := hO.1
  have h2 := hO.2
  rw [hpL] at h1 h2
  have hXlt : ∀ p ∈ ptrs X, p < h.next := fun p hp => h1 p (by simp [hp])
  have hAlt : ∀ p ∈ ptrs A, p < h.next := fun p hp => h1 p (by simp [hp])
  have hDlt : ∀ p ∈ ptrs D, p < h.next := fun p hp => h1 p (by simp [hp])
  have h3 := List.nodup_append.1 h2
  have h4 := List.nodup_append.1 h3.1
  have hAX : ∀ p ∈ ptrs A, p ∉ ptrs X := fun p hp hq => h4.2.2 p hp p hq rfl
  have hDX : ∀ p ∈ ptrs D, p ∉ ptrs X := fun p hp hq => h3.2.2 p (by simp [hq]) p hp rfl
  have hn := fillHeap_next v h X
  refine ⟨_, _, A ++ fillCells h.next X ++ D, hloop, ⟨⟨k0, by simp⟩, ?_⟩, ⟨?_, ?_⟩, ⟨hn, ?_, ?_⟩, ?_, ?_⟩
  · rw [hcnt, hL]; simp [fillCells_length]
  · intro p hp
    rw [ptrs_append, ptrs_append] at hp
    simp only [List.mem_append] at hp
    rcases hp with (hp | hp) | hp
    · have := hAlt p hp; omega
    · exact fillCells_lt v h X hXlt p hp
    · have := hDlt p hp; omega
  · rw [ptrs_append, ptrs_append]
    refine List.nodup_append.2 ⟨List.nodup_append.2 ⟨h4.1, fillCells_nodup _ _ hXlt h4.2.1, ?_⟩,
      h3.2.1, ?_⟩
    · intro p hp q hq e
      subst e
      rcases fillCells_mem _ _ _ hq with hq | hq
      · exact hAX p hp hq
      · have := hAlt p hp; omega
    · intro p hp q hq e
      subst e
      simp only [List.mem_append] at hp
      rcases hp with hp | hp
      · exact h3.2.2 p (by simp [hp]) p hq rfl
      · rcases fillCells_mem _ _ _ hp with hp | hp
        · exact hDX p hq hp
        · have := hDlt p hq; omega
  · intro q hq hq2
    refine fillHeap_old v h X q hq ?_
    intro hx; apply hq2; rw [hpL]; simp [hx]
  · intro p hp
    rw [ptrs_append, ptrs_append] at hp
    rw [hpL]
    simp only [List.mem_append] at hp ⊢
    rcases hp with (hp | hp) | hp
    · exact .inl (.inl (.inl hp))
    · rcases fillCells_mem _ _ _ hp with hp | hp
      · exact .inl (.inl (.inr hp))
      · exact .inr hp
    · exact .inl (.inr hp)
  · rw [contents_append, contents_append, fill_contents v h X hXlt, hXl]
    have cA : contents (fillHeap v h X) A = contents h A :=
      contents_congr fun p hp => fillHeap_old v h X p (hAlt p hp) (hAX p hp)
    have cD : contents (fillHeap v h X) D = contents h D :=
      contents_congr fun p hp => fillHeap_old v h X p (hDlt p hp) (hDX p hp)
    rw [cA, cD]
    have e1 : (contents h L).take i = contents h A := by rw [← hA]; simp [contents]
    have e2 : (contents h L).drop (i + k) = contents h D := by rw [← hD]; simp [contents]
    rw [e1, e2]
  · unfold Cap at hC ⊢
    rw [hsplit] at hC
    simpa [fillCells_length] using hC

end Verif.Array
