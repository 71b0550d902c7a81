import Verif.Array.Model

/-!
Auxiliary facts about the model of arrays: what each loop does to a vector written as a
concatenation.
-/

namespace Verif.Array

variable {V : Type}

/-- `a` holds exactly the cells `L`, and everything behind them is NULL. -/
def Rep (a : Arr) (L : List (Option Nat)) : Prop :=
  (∃ k, a.mem = L ++ List.replicate k none) ∧ a.cnt = L.length

/-- The contents of a list of cells. -/
def contents (h : Heap V) (L : List (Option Nat)) : List (Option V) := L.map (Option.map h.val)

/-- The addresses in a list of cells. -/
def ptrs (L : List (Option Nat)) : List Nat := L.filterMap id

/-- The cells are allocated and no two elements share a cell. -/
def Own (h : Heap V) (L : List (Option Nat)) : Prop :=
  (∀ p ∈ ptrs L, p < h.next) ∧ (ptrs L).Nodup

/-- The size `len` is accepted by `Jsi_ObjArraySizer`. -/
def fits (M len : Nat) : Prop := len < M ∧ roundUp len ≤ M

instance (M len : Nat) : Decidable (fits M len) := inferInstanceAs (Decidable (_ ∧ _))

theorem lt_roundUp (n : Nat) : n < roundUp n := by
  show n < n + 1 + (15 - (n + 1 + 15) % 16); omega

theorem roundUp_mono {m n : Nat} (h : m ≤ n) : roundUp m ≤ roundUp n := by
  show m + 1 + (15 - (m + 1 + 15) % 16) ≤ n + 1 + (15 - (n + 1 + 15) % 16); omega

theorem fits_mono {M m n : Nat} (h : m ≤ n) (hf : fits M n) : fits M m := by
  have := roundUp_mono h
  exact ⟨by have := hf.1; omega, by have := hf.2; omega⟩

theorem sizer_none {M : Nat} {a : Arr} {len : Nat} (h : ¬ fits M len) : sizer M a len = none := by
  unfold sizer
  rw [if_pos]
  unfold fits at h
  omega

theorem sizer_some {M : Nat} {a : Arr} {len : Nat} (h : fits M len) :
    ∃ j, sizer M a len = some ⟨a.mem ++ List.replicate j none, max len a.cnt⟩ ∧
      len < a.mem.length + j := by
  unfold sizer
  have h1 := h.1
  have h2 := h.2
  have hr := lt_roundUp len
  rw [if_neg (by omega)]
  by_cases hc : len ≥ a.mem.length
  · refine ⟨roundUp len - a.mem.length, ?_, by omega⟩
    simp only [if_pos hc]
    by_cases h3 : len > a.cnt
    · simp only [if_pos h3]; congr 2; omega
    · simp only [if_neg h3]; congr 2; omega
  · refine ⟨0, ?_, by omega⟩
    simp only [if_neg hc, List.replicate_zero, List.append_nil]
    by_cases h3 : len > a.cnt
    · simp only [if_pos h3]; congr 2; omega
    · simp only [if_neg h3]; congr 2; omega

theorem rd_mid (A : List (Option Nat)) (c : Option Nat) (B : List (Option Nat)) (i : Nat)
    (h : i = A.length) : rd (A ++ c :: B) i = some c := by
  subst h; simp [rd]

theorem wr_mid (A : List (Option Nat)) (c d : Option Nat) (B : List (Option Nat)) (i : Nat)
    (h : i = A.length) : wr (A ++ c :: B) i d = some (A ++ d :: B) := by
  subst h; simp [wr]

theorem rep_new : Rep Arr.new [] := ⟨⟨0, rfl⟩, rfl⟩

theorem Rep.sizeOf {a : Arr} {L : List (Option Nat)} (h : Rep a L) : sizeOf a = L.length := by
  obtain ⟨⟨k, hm⟩, hc⟩ := h
  unfold Array.sizeOf
  split
  · rename_i h0
    rw [hm] at h0
    have := List.append_eq_nil_iff.1 h0
    simp [this.1]
  · exact hc

theorem setLength_rep (m L : List (Option Nat)) (k c len : Nat)
    (hm : m = L ++ List.replicate k none) (hl : len = L.length) :
    ∃ a, setLength ⟨m, c⟩ len = some a ∧ Rep a L := by
  refine ⟨⟨m, len⟩, ?_, ⟨k, hm⟩, hl⟩
  unfold setLength
  rw [if_pos (by simp [hm, hl])]

/-! ### push -/

theorem insertArray_fits {M : Nat} {a : Arr} {L : List (Option Nat)} (h : Rep a L) (p : Nat)
    (hf : fits M (L.length + 1)) :
    ∃ a', insertArray M a L.length p = some a' ∧ Rep a' (L ++ [some p]) := by
  obtain ⟨⟨k, hm⟩, hc⟩ := h
  obtain ⟨j, hs, hj⟩ := sizer_some (a := a) hf
  have hmem : a.mem ++ List.replicate j none = L ++ none :: List.replicate (k + j - 1) none := by
    rw [hm, List.append_assoc, List.replicate_append_replicate]
    rw [hm, List.length_append, List.length_replicate] at hj
    have : k + j = (k + j - 1) + 1 := by omega
    rw [this, List.replicate_succ]; rfl
  refine ⟨⟨L ++ some p :: List.replicate (k + j - 1) none, max (L.length + 1) a.cnt⟩, ?_, ?_, ?_⟩
  · unfold insertArray
    rw [if_pos (by have := hf.1; omega)]
    unfold objArraySet
    rw [hs]
    simp only [hmem]
    rw [rd_mid _ _ _ _ rfl]
    simp only [Option.bind_eq_bind, Option.bind_some]
    rw [wr_mid _ _ _ _ _ rfl]
    have h3 : ¬ (L.length + 1 > max (L.length + 1) a.cnt) := by omega
    simp [h3]
  · exact ⟨k + j - 1, by simp⟩
  · simp [hc]

theorem insertArray_nofit {M : Nat} {a : Arr} {n p : Nat} (hf : ¬ fits M (n + 1)) :
    insertArray M a n p = some a := by
  unfold insertArray
  split
  · unfold objArraySet; rw [sizer_none hf]
  · rfl

theorem pushLoop_nofit {M n : Nat} {a : Arr} (ps : List Nat) (i : Nat)
    (hf : ¬ fits M (n + i + 1)) : pushLoop M n a i ps = some a := by
  induction ps generalizing i with
  | nil => rfl
  | cons p ps ih =>
    unfold pushLoop
    rw [insertArray_nofit hf]
    simp only [Option.bind_eq_bind, Option.bind_some]
    exact ih (i + 1) fun h => hf (fits_mono (by omega) h)

theorem pushLoop_spec {M : Nat} (ps : List Nat) : ∀ (a : Arr) (L : List (Option Nat)) (n i : Nat),
    Rep a L → n + i = L.length →
    ∃ a' j, pushLoop M n a i ps = some a' ∧ j ≤ ps.length ∧
      Rep a' (L ++ (ps.take j).map some) ∧
      (j < ps.length → ¬ fits M (L.length + j + 1)) := by
  induction ps with
  | nil => intro a L n i h hi; exact ⟨a, 0, rfl, by simp, by simpa using h, by simp⟩
  | cons p ps ih =>
    intro a L n i h hi
    by_cases hf : fits M (L.length + 1)
    · obtain ⟨a1, h1, hr⟩ := insertArray_fits h p hf
      obtain ⟨a', j, h2, hj, hr', hn⟩ := ih a1 (L ++ [some p]) n (i + 1) hr (by simp; omega)
      refine ⟨a', j + 1, ?_, by simp; omega, ?_, ?_⟩
      · unfold pushLoop
        rw [hi, h1]
        exact h2
      · simpa using hr'
      · intro hlt
        have := hn (by simpa using hlt)
        simp only [List.length_append, List.length_cons, List.length_nil] at this
        intro hh; apply this
        have e : L.length + (0 + 1) + j + 1 = L.length + (j + 1) + 1 := by omega
        rw [e]; exact hh
    · refine ⟨a, 0, ?_, by simp, by simpa using h, fun _ => by simpa using hf⟩
      exact pushLoop_nofit _ _ (by rw [hi]; exact hf)

/-! ### unshift -/

theorem storeLoop_spec (ps : List Nat) : ∀ (A X B : List (Option Nat)) (i : Nat),
    X.length = ps.length → i = A.length →
    storeLoop (A ++ X ++ B) i ps = some (A ++ ps.map some ++ B) := by
  induction ps with
  | nil => intro A X B i hx hi; have := List.length_eq_zero_iff.1 hx; subst this; rfl
  | cons p ps ih =>
    intro A X B i hx hi
    cases X with
    | nil => simp at hx
    | cons x X =>
      unfold storeLoop
      have e : A ++ x :: X ++ B = A ++ x :: (X ++ B) := by simp
      rw [e, wr_mid _ _ _ _ _ hi]
      simp only [Option.bind_eq_bind, Option.bind_some]
      rw [wr_mid _ _ _ _ _ hi]
      simp only [Option.bind_some]
      have e2 : A ++ some p :: (X ++ B) = (A ++ [some p]) ++ X ++ B := by simp
      rw [e2, ih (A ++ [some p]) X B (i + 1) (by simpa using hx) (by simp [hi])]
      simp

/-! ### reverse -/

theorem reverseLoop_spec : ∀ (k : Nat) (A X B : List (Option Nat)) (i n : Nat),
    X.length / 2 = k → i = A.length → n = A.length + X.length - 1 →
    reverseLoop k (A ++ X ++ B) i n = some (A ++ X.reverse ++ B) := by
  intro k
  induction k with
  | zero =>
    intro A X B i n hk _ _
    have : X.length < 2 := by omega
    match X, this with
    | [], _ => rfl
    | [x], _ => rfl
  | succ k ih =>
    intro A X B i n hk hi hn
    cases X with
    | nil => simp at hk
    | cons x X =>
      rcases List.eq_nil_or_concat X with rfl | ⟨Y, y, rfl⟩
      · simp at hk
      · simp only [List.length_cons, List.concat_eq_append, List.length_append, List.length_nil] at hk hn
        unfold reverseLoop
        have e1 : A ++ x :: (Y.concat y) ++ B = A ++ x :: (Y ++ y :: B) := by simp
        have e2 : A ++ x :: (Y ++ y :: B) = (A ++ x :: Y) ++ y :: B := by simp
        rw [e1, rd_mid _ _ _ _ hi]
        simp only [Option.bind_eq_bind, Option.bind_some]
        rw [e2, rd_mid (A ++ x :: Y) y B n (by simp; omega)]
        simp only [Option.bind_some]
        rw [← e2, wr_mid _ _ _ _ _ hi]
        simp only [Option.bind_some]
        have e3 : A ++ y :: (Y ++ y :: B) = (A ++ y :: Y) ++ y :: B := by simp
        rw [e3, wr_mid (A ++ y :: Y) y x B n (by simp; omega)]
        simp only [Option.bind_some]
        have e4 : (A ++ y :: Y) ++ x :: B = (A ++ [y]) ++ Y ++ (x :: B) := by simp
        rw [e4, ih (A ++ [y]) Y (x :: B) (i + 1) (n - 1) (by omega) (by simp [hi])
          (by simp; omega)]
        simp

/-! ### copying cells -/

/-- The cells made by copying `X`, the first new address being `n`. -/
def dupCells : Nat → List (Option Nat) → List (Option Nat)
  | _, [] => []
  | n, none :: X => none :: dupCells n X
  | n, some _ :: X => some n :: dupCells (n + 1) X

/-- The heap after copying `X`. -/
def dupHeap : Heap V → List (Option Nat) → Heap V
  | h, [] => h
  | h, none :: X => dupHeap h X
  | h, some p :: X => dupHeap (h.alloc (h.val p)) X

theorem dupCells_length (n : Nat) (X : List (Option Nat)) : (dupCells n X).length = X.length := by
  induction X generalizing n with
  | nil => rfl
  | cons c X ih => cases c <;> simp [dupCells, ih]

theorem dupHeap_next (h : Heap V) (X : List (Option Nat)) :
    (dupHeap h X).next = h.next + (ptrs X).length := by
  induction X generalizing h with
  | nil => rfl
  | cons c X ih =>
    cases c with
    | none => simp [dupHeap, ih, ptrs]
    | some p => simp [dupHeap, ih, ptrs, Heap.alloc]; omega

theorem dupHeap_old (h : Heap V) (X : List (Option Nat)) (q : Nat) (hq : q < h.next) :
    (dupHeap h X).val q = h.val q := by
  induction X generalizing h with
  | nil => rfl
  | cons c X ih =>
    cases c with
    | none => exact ih h hq
    | some p =>
      have := ih (h.alloc (h.val p)) (by simp [Heap.alloc]; omega)
      rw [dupHeap, this]; simp only [Heap.alloc]
      rw [if_neg (by omega)]

theorem dupCells_ptrs (n : Nat) (X : List (Option Nat)) :
    ptrs (dupCells n X) = List.range' n (ptrs X).length := by
  induction X generalizing n with
  | nil => rfl
  | cons c X ih =>
    cases c with
    | none => simpa [dupCells, ptrs] using ih n
    | some p =>
      have := ih (n + 1)
      simp only [ptrs] at this
      simp [dupCells, ptrs, this, List.range'_succ]

theorem contents_congr {h h' : Heap V} {L : List (Option Nat)}
    (hv : ∀ p ∈ ptrs L, h'.val p = h.val p) : contents h' L = contents h L := by
  unfold contents
  apply List.map_congr_left
  intro c hc
  cases c with
  | none => rfl
  | some p =>
    have : p ∈ ptrs L := by simpa [ptrs] using hc
    simp [hv p this]

theorem dup_contents (h : Heap V) (X : List (Option Nat)) (hX : ∀ p ∈ ptrs X, p < h.next) :
    contents (dupHeap h X) (dupCells h.next X) = contents h X := by
  induction X generalizing h with
  | nil => rfl
  | cons c X ih =>
    cases c with
    | none =>
      have := ih h (by simpa [ptrs] using hX)
      simpa [dupCells, dupHeap, contents] using this
    | some p =>
      have hp : p < h.next := hX p (by simp [ptrs])
      have hX' : ∀ q ∈ ptrs X, q < h.next := fun q hq => hX q (by simp [ptrs]; right; simpa [ptrs] using hq)
      have h1 := ih (h.alloc (h.val p)) (fun q hq => by have := hX' q hq; simp [Heap.alloc]; omega)
      have h2 : contents (h.alloc (h.val p)) X = contents h X := by
        apply contents_congr
        intro q hq
        have := hX' q hq
        simp only [Heap.alloc]; rw [if_neg (by omega)]
      have h3 : (dupHeap (h.alloc (h.val p)) X).val h.next = h.val p := by
        rw [dupHeap_old _ _ _ (by simp [Heap.alloc])]; simp [Heap.alloc]
      have h1' : contents (dupHeap (h.alloc (h.val p)) X) (dupCells (h.next + 1) X) = contents h X := by
        rw [← h2, ← h1]; rfl
      simp only [dupCells, dupHeap, contents, List.map_cons, Option.map_some, h3]
      congr 1

theorem dupLoop_spec (src : List (Option Nat)) (X : List (Option Nat)) :
    ∀ (h : Heap V) (S0 S1 A B : List (Option Nat)) (i j : Nat),
    src = S0 ++ X ++ S1 → i = S0.length → j = A.length →
    dupLoop src X.length h i (A ++ List.replicate X.length none ++ B) j
      = some (dupHeap h X, A ++ dupCells h.next X ++ B) := by
  induction X with
  | nil => intro h S0 S1 A B i j _ _ _; simp [dupLoop, dupHeap, dupCells]
  | cons c X ih =>
    intro h S0 S1 A B i j hs hi hj
    have hs' : src = S0 ++ c :: (X ++ S1) := by rw [hs]; simp
    have hs2 : src = (S0 ++ [c]) ++ X ++ S1 := by rw [hs]; simp
    simp only [List.length_cons]
    rw [dupLoop]
    have e : A ++ List.replicate (X.length + 1) none ++ B
        = A ++ none :: (List.replicate X.length none ++ B) := by
      simp [List.replicate_succ]
    have hr : rd src i = some c := by rw [hs', rd_mid _ _ _ _ hi]
    rw [hr]
    simp only [Option.bind_eq_bind, Option.bind_some]
    cases c with
    | none =>
      simp only []
      have e2 : A ++ none :: (List.replicate X.length none ++ B)
          = (A ++ [none]) ++ List.replicate X.length none ++ B := by simp
      rw [e, e2, ih h (S0 ++ [none]) S1 (A ++ [none]) B _ _ hs2 (by simp [hi]) (by simp [hj])]
      simp [dupHeap, dupCells]
    | some p =>
      simp only []
      rw [e, wr_mid _ _ _ _ _ hj]
      simp only [Option.bind_some]
      have e2 : A ++ some h.next :: (List.replicate X.length none ++ B)
          = (A ++ [some h.next]) ++ List.replicate X.length none ++ B := by simp
      rw [e2, ih _ (S0 ++ [some p]) S1 (A ++ [some h.next]) B _ _ hs2 (by simp [hi]) (by simp [hj])]
      simp [dupHeap, dupCells, Heap.alloc]

/-! ### fill -/

/-- The cells after filling `X`. -/
def fillCells : Nat → List (Option Nat) → List (Option Nat)
  | _, [] => []
  | n, none :: X => some n :: fillCells (n + 1) X
  | n, some p :: X => some p :: fillCells n X

/-- The heap after filling `X`. -/
def fillHeap (v : V) : Heap V → List (Option Nat) → Heap V
  | h, [] => h
  | h, none :: X => fillHeap v (h.alloc v) X
  | h, some p :: X => fillHeap v (h.copy p v) X

theorem fillLoop_spec (v : V) (X : List (Option Nat)) :
    ∀ (h : Heap V) (A B : List (Option Nat)) (i : Nat), i = A.length →
    fillLoop v X.length h i (A ++ X ++ B) = some (fillHeap v h X, A ++ fillCells h.next X ++ B) := by
  induction X with
  | nil => intro h A B i _; simp [fillLoop, fillHeap, fillCells]
  | cons c X ih =>
    intro h A B i hi
    simp only [List.length_cons]
    rw [fillLoop]
    have e : A ++ c :: X ++ B = A ++ c :: (X ++ B) := by simp
    rw [e, rd_mid _ _ _ _ hi]
    simp only [Option.bind_eq_bind, Option.bind_some]
    cases c with
    | none =>
      simp only []
      rw [wr_mid _ _ _ _ _ hi]
      simp only [Option.bind_some]
      have e2 : A ++ some h.next :: (X ++ B) = (A ++ [some h.next]) ++ X ++ B := by simp
      rw [e2, ih _ _ _ _ (by simp [hi])]
      simp [fillHeap, fillCells, Heap.alloc]
    | some p =>
      simp only []
      have e2 : A ++ some p :: (X ++ B) = (A ++ [some p]) ++ X ++ B := by simp
      rw [e2, ih _ _ _ _ (by simp [hi])]
      simp [fillHeap, fillCells, Heap.copy]

theorem fillCells_length (n : Nat) (X : List (Option Nat)) : (fillCells n X).length = X.length := by
  induction X generalizing n with
  | nil => rfl
  | cons c X ih => cases c <;> simp [fillCells, ih]

theorem fillHeap_next (v : V) (h : Heap V) (X : List (Option Nat)) : h.next ≤ (fillHeap v h X).next := by
  induction X generalizing h with
  | nil => exact Nat.le_refl _
  | cons c X ih =>
    cases c with
    | none => have := ih (h.alloc v); simp [fillHeap, Heap.alloc] at *; omega
    | some p => have := ih (h.copy p v); simpa [fillHeap, Heap.copy] using this

/-- A cell that is not in `X` and was already allocated keeps its contents. -/
theorem fillHeap_old (v : V) (h : Heap V) (X : List (Option Nat)) (q : Nat) (hq : q < h.next)
    (hn : q ∉ ptrs X) : (fillHeap v h X).val q = h.val q := by
  induction X generalizing h with
  | nil => rfl
  | cons c X ih =>
    cases c with
    | none =>
      have := ih (h.alloc v) (by simp [Heap.alloc]; omega) (by simpa [ptrs] using hn)
      rw [fillHeap, this]; simp only [Heap.alloc]
      rw [if_neg (by omega)]
    | some p =>
      have hn' : q ≠ p ∧ q ∉ ptrs X := by simpa [ptrs] using hn
      have := ih (h.copy p v) hq hn'.2
      rw [fillHeap, this]; simp only [Heap.copy]
      rw [if_neg hn'.1]

/-- A cell that already holds `v` still does. -/
theorem fillHeap_keep (v : V) (h : Heap V) (X : List (Option Nat)) (q : Nat) (hq : q < h.next)
    (hv : h.val q = v) : (fillHeap v h X).val q = v := by
  induction X generalizing h with
  | nil => exact hv
  | cons c X ih =>
    cases c with
    | none =>
      apply ih (h.alloc v) (by simp [Heap.alloc]; omega)
      simp only [Heap.alloc]; rw [if_neg (by omega)]; exact hv
    | some p =>
      apply ih (h.copy p v) hq
      simp only [Heap.copy]; split
      · rfl
      · exact hv

theorem fill_contents (v : V) (h : Heap V) (X : List (Option Nat)) (hX : ∀ p ∈ ptrs X, p < h.next) :
    contents (fillHeap v h X) (fillCells h.next X) = List.replicate X.length (some v) := by
  induction X generalizing h with
  | nil => rfl
  | cons c X ih =>
    cases c with
    | none =>
      have hX' : ∀ q ∈ ptrs X, q < h.next := by simpa [ptrs] using hX
      have h1 := ih (h.alloc v) (fun q hq => by have := hX' q hq; simp [Heap.alloc]; omega)
      have h2 := fillHeap_keep v (h.alloc v) X h.next (by simp [Heap.alloc]) (by simp [Heap.alloc])
      simp only [fillCells, fillHeap, contents, List.map_cons, Option.map_some, h2,
        List.length_cons, List.replicate_succ]
      rw [← h1]; rfl
    | some p =>
      have hp : p < h.next := hX p (by simp [ptrs])
      have hX' : ∀ q ∈ ptrs X, q < h.next := fun q hq => hX q (by simp [ptrs]; right; simpa [ptrs] using hq)
      have h1 := ih (h.copy p v) hX'
      have h2 := fillHeap_keep v (h.copy p v) X p hp (by simp [Heap.copy])
      simp only [fillCells, fillHeap, contents, List.map_cons, Option.map_some, h2,
        List.length_cons, List.replicate_succ]
      rw [← h1]; rfl

/-- The addresses after `fill`: the old ones and new ones. -/
theorem fillCells_mem (n : Nat) (X : List (Option Nat)) (p : Nat)
    (h : p ∈ ptrs (fillCells n X)) : p ∈ ptrs X ∨ n ≤ p := by
  induction X generalizing n with
  | nil => left; exact h
  | cons c X ih =>
    cases c with
    | none =>
      have h' : p = n ∨ p ∈ ptrs (fillCells (n + 1) X) := by simpa [fillCells, ptrs] using h
      rcases h' with h' | h'
      · right; omega
      · rcases ih (n + 1) h' with h' | h'
        · left; simpa [ptrs] using h'
        · right; omega
    | some q =>
      have h' : p = q ∨ p ∈ ptrs (fillCells n X) := by simpa [fillCells, ptrs] using h
      rcases h' with h' | h'
      · left; simp [ptrs, h']
      · rcases ih n h' with h' | h'
        · left; have : p = q ∨ p ∈ ptrs X := Or.inr h'
          simpa [ptrs] using this
        · right; exact h'

theorem fillCells_lt (v : V) (h : Heap V) (X : List (Option Nat)) (hX : ∀ p ∈ ptrs X, p < h.next) :
    ∀ p ∈ ptrs (fillCells h.next X), p < (fillHeap v h X).next := by
  induction X generalizing h with
  | nil => simp [fillCells, ptrs]
  | cons c X ih =>
    cases c with
    | none =>
      have hX' : ∀ q ∈ ptrs X, q < h.next := by simpa [ptrs] using hX
      have h1 := ih (h.alloc v) (fun q hq => by have := hX' q hq; simp [Heap.alloc]; omega)
      have h2 := fillHeap_next v (h.alloc v) X
      intro p hp
      have hp' : p = h.next ∨ p ∈ ptrs (fillCells (h.next + 1) X) := by
        simpa [fillCells, ptrs] using hp
      rcases hp' with rfl | hp'
      · simp only [Heap.alloc] at h2; simp only [fillHeap, Heap.alloc]; omega
      · exact h1 p hp'
    | some q =>
      have hX' : ∀ r ∈ ptrs X, r < h.next := fun r hr => hX r (by simp [ptrs]; right; simpa [ptrs] using hr)
      have h1 := ih (h.copy q v) hX'
      have h2 := fillHeap_next v (h.copy q v) X
      intro p hp
      have hp' : p = q ∨ p ∈ ptrs (fillCells h.next X) := by simpa [fillCells, ptrs] using hp
      rcases hp' with rfl | hp'
      · have := hX p (by simp [ptrs])
        simp only [Heap.copy] at h2; simp only [fillHeap, Heap.copy]; omega
      · exact h1 p hp'

theorem fillCells_nodup (n : Nat) (X : List (Option Nat)) (hX : ∀ p ∈ ptrs X, p < n)
    (hd : (ptrs X).Nodup) : (ptrs (fillCells n X)).Nodup := by
  induction X generalizing n with
  | nil => simp [fillCells, ptrs]
  | cons c X ih =>
    cases c with
    | none =>
      have hX' : ∀ q ∈ ptrs X, q < n := by simpa [ptrs] using hX
      have h1 := ih (n + 1) (fun q hq => by have := hX' q hq; omega) (by simpa [ptrs] using hd)
      have : (n :: ptrs (fillCells (n + 1) X)).Nodup := by
        refine List.nodup_cons.2 ⟨?_, h1⟩
        intro hm
        rcases fillCells_mem _ _ _ hm with h' | h'
        · have := hX' n h'; omega
        · omega
      simpa [fillCells, ptrs] using this
    | some q =>
      have hd' : q ∉ ptrs X ∧ (ptrs X).Nodup := by simpa [ptrs] using hd
      have hX' : ∀ r ∈ ptrs X, r < n := fun r hr => hX r (by simp [ptrs]; right; simpa [ptrs] using hr)
      have hq : q < n := hX q (by simp [ptrs])
      have : (q :: ptrs (fillCells n X)).Nodup := by
        refine List.nodup_cons.2 ⟨?_, ih n hX' hd'.2⟩
        intro hm
        rcases fillCells_mem _ _ _ hm with h' | h'
        · exact hd'.1 h'
        · omega
      simpa [fillCells, ptrs] using this

/-! ### splice -/

theorem moveLoop_spec (X : List (Option Nat)) : ∀ (A B R S : List (Option Nat)) (i j : Nat),
    i = A.length → j = R.length →
    moveLoop X.length (A ++ X ++ B) i (R ++ List.replicate X.length none ++ S) j
      = some (A ++ List.replicate X.length none ++ B, R ++ X ++ S) := by
  induction X with
  | nil => intro A B R S i j _ _; simp [moveLoop]
  | cons c X ih =>
    intro A B R S i j hi hj
    simp only [List.length_cons]
    rw [moveLoop]
    have e : A ++ c :: X ++ B = A ++ c :: (X ++ B) := by simp
    have e2 : R ++ List.replicate (X.length + 1) none ++ S
        = R ++ none :: (List.replicate X.length none ++ S) := by simp [List.replicate_succ]
    rw [e, e2, rd_mid _ _ _ _ hi]
    simp only [Option.bind_eq_bind, Option.bind_some]
    cases c with
    | none =>
      have e3 : A ++ none :: (X ++ B) = (A ++ [none]) ++ X ++ B := by simp
      have e4 : R ++ none :: (List.replicate X.length none ++ S)
          = (R ++ [none]) ++ List.replicate X.length none ++ S := by simp
      simp only [Option.isNone_none, if_true]
      rw [e3, e4, ih _ _ _ _ _ _ (by simp [hi]) (by simp [hj])]
      simp [List.replicate_succ]
    | some p =>
      simp only [Option.isNone_some, Bool.false_eq_true, if_false]
      rw [wr_mid _ _ _ _ _ hj]
      simp only [Option.bind_some]
      rw [wr_mid _ _ _ _ _ hi]
      simp only [Option.bind_some]
      have e3 : A ++ none :: (X ++ B) = (A ++ [none]) ++ X ++ B := by simp
      have e4 : R ++ some p :: (List.replicate X.length none ++ S)
          = (R ++ [some p]) ++ List.replicate X.length none ++ S := by simp
      rw [e3, e4, ih _ _ _ _ _ _ (by simp [hi]) (by simp [hj])]
      simp [List.replicate_succ]

theorem replicate_succ_end (n : Nat) (B : List (Option Nat)) :
    List.replicate (n + 1) (none : Option Nat) ++ B = List.replicate n none ++ none :: B := by
  rw [List.replicate_succ']; simp

theorem downLoop_spec (how : Nat) (X : List (Option Nat)) : ∀ (A B : List (Option Nat)) (i : Nat),
    i = A.length + (how + 1) →
    downLoop (how + 1) X.length (A ++ List.replicate (how + 1) none ++ X ++ B) i
      = some (A ++ X ++ List.replicate (how + 1) none ++ B) := by
  induction X with
  | nil => intro A B i _; simp [downLoop]
  | cons c X ih =>
    intro A B i hi
    simp only [List.length_cons]
    rw [downLoop]
    have e1 : A ++ List.replicate (how + 1) none ++ c :: X ++ B
        = (A ++ List.replicate (how + 1) none) ++ c :: (X ++ B) := by simp
    have e2 : (A ++ List.replicate (how + 1) none) ++ c :: (X ++ B)
        = A ++ none :: (List.replicate how none ++ c :: (X ++ B)) := by
      simp [List.replicate_succ]
    have e3 : A ++ c :: (List.replicate how none ++ c :: (X ++ B))
        = (A ++ c :: List.replicate how none) ++ c :: (X ++ B) := by simp
    have e4 : (A ++ c :: List.replicate how none) ++ none :: (X ++ B)
        = (A ++ [c]) ++ List.replicate (how + 1) none ++ X ++ B := by
      rw [List.replicate_succ']; simp
    rw [e1, rd_mid _ _ _ _ (by simp [hi])]
    simp only [Option.bind_eq_bind, Option.bind_some]
    rw [e2, wr_mid _ _ _ _ _ (by omega)]
    simp only [Option.bind_some]
    rw [e3, wr_mid _ _ _ _ _ (by simp [hi])]
    simp only [Option.bind_some]
    rw [e4, ih _ _ _ (by simp; omega)]
    simp

theorem upLoop_spec (ilen : Nat) : ∀ (k : Nat) (A X B : List (Option Nat)) (start : Nat),
    X.length = k → start = A.length →
    upLoop (ilen + 1) start k (A ++ X ++ List.replicate (ilen + 1) none ++ B)
      = some (A ++ List.replicate (ilen + 1) none ++ X ++ B) := by
  intro k
  induction k with
  | zero =>
    intro A X B start hk _
    have := List.length_eq_zero_iff.1 hk; subst this; simp [upLoop]
  | succ k ih =>
    intro A X B start hk hs
    rcases List.eq_nil_or_concat X with rfl | ⟨Y, c, rfl⟩
    · simp at hk
    · have hY : Y.length = k := by simpa using hk
      rw [upLoop]
      have e1 : A ++ Y.concat c ++ List.replicate (ilen + 1) none ++ B
          = (A ++ Y) ++ c :: (List.replicate ilen none ++ none :: B) := by
        rw [List.replicate_succ']; simp
      have e2 : (A ++ Y) ++ c :: (List.replicate ilen none ++ none :: B)
          = ((A ++ Y) ++ c :: List.replicate ilen none) ++ none :: B := by simp
      have e3 : ((A ++ Y) ++ c :: List.replicate ilen none) ++ c :: B
          = (A ++ Y) ++ c :: (List.replicate ilen none ++ c :: B) := by simp
      have e4 : (A ++ Y) ++ none :: (List.replicate ilen none ++ c :: B)
          = A ++ Y ++ List.replicate (ilen + 1) none ++ (c :: B) := by
        simp [List.replicate_succ]
      rw [e1, rd_mid _ _ _ _ (by simp [hs, hY])]
      simp only [Option.bind_eq_bind, Option.bind_some]
      rw [e2, wr_mid _ _ _ _ _ (by simp [hs, hY]; omega)]
      simp only [Option.bind_some]
      rw [e3, wr_mid _ _ _ _ _ (by simp [hs, hY])]
      simp only [Option.bind_some]
      rw [e4, ih A Y (c :: B) start hY hs]
      simp

theorem insLoop_spec (ps : List Nat) : ∀ (h : Heap V) (A B : List (Option Nat)) (i : Nat),
    i = A.length →
    insLoop ps h (A ++ List.replicate ps.length none ++ B) i
      = some (dupHeap h (ps.map some), A ++ dupCells h.next (ps.map some) ++ B) := by
  induction ps with
  | nil => intro h A B i _; simp [insLoop, dupHeap, dupCells]
  | cons p ps ih =>
    intro h A B i hi
    rw [insLoop]
    have e : A ++ List.replicate (p :: ps).length none ++ B
        = A ++ none :: (List.replicate ps.length none ++ B) := by
      simp [List.replicate_succ]
    rw [e, wr_mid _ _ _ _ _ hi]
    simp only [Option.bind_eq_bind, Option.bind_some]
    have e2 : A ++ some h.next :: (List.replicate ps.length none ++ B)
        = (A ++ [some h.next]) ++ List.replicate ps.length none ++ B := by simp
    rw [e2, ih _ _ _ _ (by simp [hi])]
    simp [dupHeap, dupCells, Heap.alloc]

end Verif.Array
