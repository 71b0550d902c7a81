import Verif.Array.Ops2

/-!
What `concat` and `splice` do.
-/

namespace Verif.Array

variable {V : Type}

/-! ### concat -/

theorem dupHeap_append (h : Heap V) (X Y : List (Option Nat)) :
    dupHeap h (X ++ Y) = dupHeap (dupHeap h X) Y := by
  induction X generalizing h with
  | nil => rfl
  | cons c X ih => cases c <;> simp [dupHeap, ih]

theorem dupCells_append (n : Nat) (X Y : List (Option Nat)) :
    dupCells n (X ++ Y) = dupCells n X ++ dupCells (n + (ptrs X).length) Y := by
  induction X generalizing n with
  | nil => rfl
  | cons c X ih =>
    cases c with
    | none => simp [dupCells, ih, ptrs]
    | some p =>
      simp only [List.cons_append, dupCells, ih]
      have : (ptrs (some p :: X)).length = (ptrs X).length + 1 := by simp [ptrs]
      rw [this]
      have e : n + 1 + (ptrs X).length = n + ((ptrs X).length + 1) := by omega
      rw [e]

/-- The cells an argument of `concat` stands for. -/
def CArg.Rep : CArg → List (Option Nat) → Prop
  | .arr a, L => Array.Rep a L
  | .val p, L => L = [some p]

theorem concatLoop_spec {M C : Nat} (args : List (CArg × List (Option Nat))) :
    ∀ (h : Heap V) (Bc : List (Option Nat)) (r c : Nat),
    (∀ x ∈ args, x.1.Rep x.2) →
    fits M (Bc.length + (args.flatMap Prod.snd).length) →
    Cap C ⟨Bc ++ List.replicate r none, c⟩ →
    roundUp (Bc.length + (args.flatMap Prod.snd).length) ≤ C →
    ∃ r' c', concatLoop M (args.map Prod.fst) h ⟨Bc ++ List.replicate r none, c⟩ Bc.length Bc.length
        = some (dupHeap h (args.flatMap Prod.snd),
            ⟨Bc ++ dupCells h.next (args.flatMap Prod.snd) ++ List.replicate r' none, c'⟩,
            Bc.length + (args.flatMap Prod.snd).length, false) ∧
      Cap C ⟨Bc ++ dupCells h.next (args.flatMap Prod.snd) ++ List.replicate r' none, c'⟩ := by
  induction args with
  | nil =>
    intro h Bc r c _ _ hC _
    refine ⟨r, c, ?_, ?_⟩
    · simp [concatLoop, dupHeap, dupCells]
    · simpa [dupCells] using hC
  | cons x args ih =>
    intro h Bc r c hx hf hC hu
    obtain ⟨x, X⟩ := x
    have hX := hx (x, X) (by simp)
    have hrest : ∀ y ∈ args, y.1.Rep y.2 := fun y hy => hx y (by simp [hy])
    simp only [List.flatMap_cons, List.length_append] at hf hu
    have hfX : fits M (Bc.length + X.length) := fits_mono (by omega) hf
    obtain ⟨j, hsz, hj⟩ := sizer_some (a := ⟨Bc ++ List.replicate r none, c⟩) hfX
    have hcap := sizer_cap hsz hC (Nat.le_trans (roundUp_mono (by omega)) hu)
    simp only [List.append_assoc, List.replicate_append_replicate] at hsz hcap
    simp only [List.length_append, List.length_replicate] at hj
    -- the state after this argument
    have hrepl : Bc ++ List.replicate (r + j) (none : Option Nat)
        = Bc ++ List.replicate X.length none ++ List.replicate (r + j - X.length) none := by
      rw [List.append_assoc, List.replicate_append_replicate]
      congr 2; omega
    have hcap' : Cap C ⟨Bc ++ dupCells h.next X ++ List.replicate (r + j - X.length) none,
        max (Bc.length + X.length) c⟩ := by
      refine cap_len hcap ?_
      rw [hrepl]; simp [dupCells_length]
    have hlen : (Bc ++ dupCells h.next X).length = Bc.length + X.length := by
      simp [dupCells_length]
    obtain ⟨r', c', h1, h2⟩ := ih (dupHeap h X) (Bc ++ dupCells h.next X) (r + j - X.length)
      (max (Bc.length + X.length) c) hrest (by rw [hlen]; exact (Nat.add_assoc _ _ _) ▸ hf) hcap'
      (by rw [hlen]; exact (Nat.add_assoc _ _ _) ▸ hu)
    rw [hlen, dupHeap_next] at h1
    rw [dupHeap_next] at h2
    refine ⟨r', c', ?_, ?_⟩
    · simp only [List.flatMap_cons, dupHeap_append, dupCells_append, List.length_append,
        List.map_cons]
      rw [← List.append_assoc, ← Nat.add_assoc]
      rw [← h1]
      cases x with
      | arr a =>
        obtain ⟨⟨k, hm⟩, hcnt⟩ := hX
        rw [concatLoop]
        simp only [hcnt, hsz, Option.bind_eq_bind]
        have := dupLoop_spec a.mem X h [] (List.replicate k none) Bc
          (List.replicate (r + j - X.length) none) 0 Bc.length (by simp [hm]) rfl rfl
        rw [← hrepl] at this
        rw [this]
        rfl
      | val p =>
        cases hX
        rw [concatLoop]
        simp only [List.length_cons, List.length_nil, Nat.zero_add] at hsz hrepl ⊢
        rw [hsz]
        simp only [Option.bind_eq_bind]
        have e : Bc ++ List.replicate (r + j) none = Bc ++ none :: List.replicate (r + j - 1) none := by
          rw [hrepl]; simp
        rw [e, wr_mid _ _ _ _ _ rfl]
        simp [dupCells, dupHeap]
    · simp only [List.flatMap_cons, dupCells_append]
      rw [← List.append_assoc]; exact h2

theorem concat_post {M B C : Nat} (h : Heap V) (a : Arr) (L : List (Option Nat))
    (args : List (CArg × List (Option Nat)))
    (hR : Rep a L) (hO : Own h L) (hC : Cap C a) (hx : ∀ x ∈ args, x.1.Rep x.2)
    (hlt : ∀ p ∈ ptrs (args.flatMap Prod.snd), p < h.next)
    (hBM : B ≤ M) (hBC : B ≤ C) (h112 : 112 ≤ C) (hCM : C + 16 ≤ M)
    (hr : roomFor B (L.length + (args.flatMap Prod.snd).length)) :
    ∃ b, concat M h a (args.map Prod.fst)
        = some ⟨dupHeap h (L ++ args.flatMap Prod.snd), a, b, false⟩ ∧
      Post (C + 16) h [] (dupHeap h (L ++ args.flatMap Prod.snd)) b
        (dupCells h.next (L ++ args.flatMap Prod.snd))
        (contents h L ++ contents h (args.flatMap Prod.snd)) := by
  have hs := hR.sizeOf
  obtain ⟨⟨k, hm⟩, hcnt⟩ := hR
  have hml : a.mem.length = L.length + k := by rw [hm]; simp
  generalize hN : (if a.mem.length = 0 then 100 else a.mem.length) = N
  have hC1 := hC.1
  have hC2 := hC.2
  have hNr : roundUp (N + 1) ≤ C + 16 ∧ N + 1 < M ∧ a.mem.length ≤ N := by
    show N + 1 + 1 + (15 - (N + 1 + 1 + 15) % 16) ≤ C + 16 ∧ N + 1 < M ∧ a.mem.length ≤ N
    rw [← hN]
    split <;> omega
  have hf : fits M (N + 1) := ⟨hNr.2.1, by omega⟩
  obtain ⟨j, hsz, hj⟩ := sizer_some (a := Arr.new) hf
  have hcap := sizer_cap hsz (C := C + 16) ⟨rfl, by simp [Arr.new]⟩ hNr.1
  simp only [Arr.new, List.nil_append, List.length_nil, Nat.zero_add] at hsz hcap hj
  have hrepl : List.replicate j (none : Option Nat)
      = [] ++ List.replicate L.length none ++ List.replicate (j - L.length) none := by
    rw [List.nil_append, List.replicate_append_replicate]
    congr 1; omega
  have hloop := dupLoop_spec a.mem L h [] (List.replicate k none) [] (List.replicate (j - L.length) none)
    0 0 (by simp [hm]) rfl rfl
  rw [← hrepl, List.nil_append] at hloop
  have hcap1 : Cap (C + 16) ⟨dupCells h.next L ++ List.replicate (j - L.length) none, max (N + 1) 0⟩ := by
    refine cap_len hcap ?_
    rw [hrepl]; simp [dupCells_length]
  have hdl : (dupCells h.next L).length = L.length := dupCells_length _ _
  obtain ⟨r', c', h1, h2⟩ := concatLoop_spec (M := M) (C := C + 16) args (dupHeap h L) (dupCells h.next L)
    (j - L.length) (max (N + 1) 0) hx
    (by rw [hdl]; exact fits_of hr hBM (by omega)) hcap1
    (by rw [hdl]; have := roundUp_room (B := B) hr (k := L.length + (args.flatMap Prod.snd).length) (by omega); omega)
  rw [hdl, dupHeap_next] at h1
  rw [dupHeap_next] at h2
  generalize hY : args.flatMap Prod.snd = Y at *
  obtain ⟨b, hb, hrep⟩ := setLength_rep
    (dupCells h.next L ++ dupCells (h.next + (ptrs L).length) Y ++ List.replicate r' none)
    (dupCells h.next L ++ dupCells (h.next + (ptrs L).length) Y) r' c' (L.length + Y.length)
    rfl (by simp [dupCells_length])
  refine ⟨b, ?_, ?_, ?_, ⟨?_, ?_, ?_⟩, ?_, ?_⟩
  · unfold concat
    have hsz' : sizer M Arr.new (N + 1) = _ := hsz
    simp only [hN, hs]
    rw [hsz']
    simp only [Option.bind_eq_bind]
    rw [hloop]
    simp only [Option.bind_some]
    rw [h1]
    simp only [Option.bind_some, Bool.false_eq_true, if_false]
    rw [hb]
    simp [dupHeap_append]
  · rw [dupCells_append]; exact hrep
  · exact dup_own h _
  · rw [dupHeap_next]; omega
  · intro q hq _; exact dupHeap_old h _ q hq
  · intro p hp; right
    rw [dupCells_ptrs] at hp
    simp only [List.mem_range'_1] at hp
    exact hp.1
  · rw [dup_contents, contents_append]
    intro p hp
    rw [ptrs_append] at hp
    simp only [List.mem_append] at hp
    rcases hp with hp | hp
    · exact hO.1 p hp
    · exact hlt p hp
  · refine cap_len h2 ?_
    rw [setLength_mem hb]

/-! ### splice -/

theorem splice_sub {M B C : Nat} (h : Heap V) (a : Arr) (L : List (Option Nat)) (i k : Nat)
    (ps : List Nat) (hR : Rep a L) (hO : Own h L) (hC : Cap C a) (hps : ∀ p ∈ ps, p < h.next)
    (hBM : B ≤ M) (hBC : B ≤ C) (hik : i + k ≤ L.length) (hr : roomFor B (L.length + ps.length)) :
    ∃ a' r, spliceBody M h a L.length i k ps
        = some ⟨dupHeap h (ps.map some), a', some r, false⟩ ∧
      Post C h L (dupHeap h (ps.map some)) a'
        (L.take i ++ dupCells h.next (ps.map some) ++ L.drop (i + k))
        ((contents h L).take i ++ ps.map (fun p => some (h.val p)) ++ (contents h L).drop (i + k)) ∧
      Post C h L (dupHeap h (ps.map some)) r ((L.drop i).take k) (((contents h L).drop i).take k) ∧
      (∀ p ∈ ptrs ((L.drop i).take k),
        p ∉ ptrs (L.take i ++ dupCells h.next (ps.map some) ++ L.drop (i + k))) := by
  obtain ⟨⟨k0, hm⟩, hcnt⟩ := hR
  have hf : fits M k := fits_of hr hBM (by omega)
  obtain ⟨j, hsz, hj⟩ := sizer_some (a := Arr.new) hf
  have hcap := sizer_cap hsz (C := C) ⟨rfl, by simp [Arr.new]⟩
    (Nat.le_trans (roundUp_room (B := B) hr (by omega)) hBC)
  simp only [Arr.new, List.nil_append, List.length_nil, Nat.zero_add] at hsz hcap hj
  have eA : (contents h L).take i = contents h (L.take i) := by simp [contents]
  have eX : ((contents h L).drop i).take k = contents h ((L.drop i).take k) := by simp [contents]
  have eD : (contents h L).drop (i + k) = contents h (L.drop (i + k)) := by simp [contents]
  rw [eA, eX, eD]
  have hAl : (L.take i).length = i := by simp; omega
  have hXl : ((L.drop i).take k).length = k := by simp; omega
  have hDl : (L.drop (i + k)).length = L.length - (i + k) := by simp
  have hL : L = L.take i ++ (L.drop i).take k ++ L.drop (i + k) := by
    rw [List.append_assoc, ← List.drop_drop, List.take_append_drop, List.take_append_drop]
  generalize L.take i = A at *
  generalize (L.drop i).take k = X at *
  generalize L.drop (i + k) = D at *
  have hLl : L.length = A.length + X.length + D.length := by rw [hL]; simp [Nat.add_assoc]
  -- moving out
  have hsplit : a.mem = A ++ X ++ (D ++ List.replicate k0 none) := by rw [hm, hL]; simp
  have hrepl : List.replicate j (none : Option Nat)
      = [] ++ List.replicate X.length none ++ List.replicate (j - k) none := by
    rw [hXl, List.nil_append, List.replicate_append_replicate]
    congr 1; omega
  have hmove := moveLoop_spec X A (D ++ List.replicate k0 none) [] (List.replicate (j - k) none) i 0
    hAl.symm rfl
  rw [← hsplit, ← hrepl, List.nil_append, hXl] at hmove
  obtain ⟨r, hrl, hrep⟩ := setLength_rep (X ++ List.replicate (j - k) none) X (j - k)
    (max k 0) k rfl hXl.symm
  -- shifting down
  have hdown : spliceDown k L.length i (A ++ List.replicate k none ++ (D ++ List.replicate k0 none))
      = some (A ++ D ++ List.replicate (k + k0) none) := by
    unfold spliceDown
    rw [← List.replicate_append_replicate]
    cases k with
    | zero => simp
    | succ k =>
      rw [if_neg (by omega)]
      have := downLoop_spec k D A (List.replicate k0 none) (i + (k + 1)) (by rw [hAl])
      rw [hDl] at this
      simp only [List.append_assoc] at this ⊢
      exact this
  -- growing
  have hnew : L.length - k + ps.length + 3 ≤ L.length + ps.length + 3 := by omega
  have hf2 : fits M (L.length - k + ps.length + 3) := fits_of hr hBM hnew
  obtain ⟨j2, hsz2, hj2⟩ := sizer_some (a := ⟨A ++ D ++ List.replicate (k + k0) none, a.cnt⟩) hf2
  have hCa : Cap C ⟨A ++ D ++ List.replicate (k + k0) none, a.cnt⟩ := by
    unfold Cap at hC ⊢
    rw [hsplit] at hC
    have : (A ++ D ++ List.replicate (k + k0) (none : Option Nat)).length
        = (A ++ X ++ (D ++ List.replicate k0 none)).length := by
      simp [hXl]; omega
    simp only [this]; exact hC
  have hcap2 := sizer_cap hsz2 hCa (Nat.le_trans (roundUp_room (B := B) hr hnew) hBC)
  have eg : (A ++ D ++ List.replicate (k + k0) (none : Option Nat)) ++ List.replicate j2 none
      = A ++ D ++ List.replicate (k + k0 + j2) none := by
    rw [List.append_assoc, List.replicate_append_replicate]
  simp only [eg] at hsz2 hcap2
  simp only [List.length_append, List.length_replicate] at hj2
  obtain ⟨q, hq⟩ : ∃ q, k + k0 + j2 = ps.length + q := ⟨k + k0 + j2 - ps.length, by omega⟩
  rw [hq] at hsz2 hcap2
  -- inserting
  have hins : spliceIns ps h i (L.length - k) (A ++ D ++ List.replicate (ps.length + q) none)
      = some (dupHeap h (ps.map some),
          A ++ dupCells h.next (ps.map some) ++ D ++ List.replicate q none) := by
    unfold spliceIns
    by_cases he : ps = []
    · subst he; simp [dupHeap, dupCells]
    · rw [if_neg he]
      obtain ⟨n, hn⟩ : ∃ n, ps.length = n + 1 := by
        cases ps with
        | nil => exact absurd rfl he
        | cons p ps => exact ⟨ps.length, rfl⟩
      have hup := upLoop_spec n (L.length - k - i) A D (List.replicate q none) i (by omega) hAl.symm
      rw [← hn] at hup
      have e : A ++ D ++ List.replicate (ps.length + q) none
          = A ++ D ++ List.replicate ps.length none ++ List.replicate q none := by
        rw [← List.replicate_append_replicate]; simp
      rw [e, hup]
      simp only [Option.bind_some]
      have := insLoop_spec ps h A (D ++ List.replicate q none) i hAl.symm
      rw [← List.append_assoc] at this
      rw [this]; simp
  obtain ⟨a', ha', hrep'⟩ := setLength_rep
    (A ++ dupCells h.next (ps.map some) ++ D ++ List.replicate q none)
    (A ++ dupCells h.next (ps.map some) ++ D) q
    (max (L.length - k + ps.length + 3) a.cnt) (L.length - k + ps.length) rfl
    (by simp [dupCells_length]; omega)
  -- pointers
  have hpL : ptrs L = ptrs A ++ ptrs X ++ ptrs D := by rw [hL, ptrs_append, ptrs_append]
  have h1 := hO.1
  have h2 := hO.2
  rw [hpL] at h1 h2
  have hAlt : ∀ p ∈ ptrs A, p < h.next := fun p hp => h1 p (by simp [hp])
  have hXlt : ∀ p ∈ ptrs X, p < h.next := fun p hp => h1 p (by simp [hp])
  have hDlt : ∀ p ∈ ptrs D, p < h.next := fun p hp => h1 p (by simp [hp])
  have h3 := List.nodup_append.1 h2
  have h4 := List.nodup_append.1 h3.1
  have hnew_ptrs : ptrs (dupCells h.next (ps.map some)) = List.range' h.next ps.length := by
    rw [dupCells_ptrs, ptrs_map_some]
  have hnext : (dupHeap h (ps.map some)).next = h.next + ps.length := by
    rw [dupHeap_next, ptrs_map_some]
  have hold : ∀ q, q < h.next → (dupHeap h (ps.map some)).val q = h.val q :=
    fun q hq => dupHeap_old h _ q hq
  refine ⟨a', r, ?_, ⟨hrep', ⟨?_, ?_⟩, ⟨?_, ?_, ?_⟩, ?_, ?_⟩,
    ⟨hrep, ⟨?_, h4.2.1⟩, ⟨?_, ?_, ?_⟩, ?_, ?_⟩, ?_⟩
  · have hsz' : sizer M Arr.new k = _ := hsz
    unfold spliceBody
    rw [hsz']
    simp only [Option.bind_eq_bind]
    rw [hmove]
    simp only [Option.bind_some]
    rw [hrl]
    simp only [Option.bind_some]
    rw [hdown]
    simp only [Option.bind_some]
    rw [hsz2]
    simp only []
    rw [hins]
    simp only [Option.bind_some]
    rw [ha']
    rfl
  · intro p hp
    rw [ptrs_append, ptrs_append, hnew_ptrs] at hp
    simp only [List.mem_append, List.mem_range'_1] at hp
    rw [hnext]
    rcases hp with (hp | hp) | hp
    · have := hAlt p hp; omega
    · omega
    · have := hDlt p hp; omega
  · rw [ptrs_append, ptrs_append, hnew_ptrs]
    refine List.nodup_append.2 ⟨List.nodup_append.2 ⟨h4.1, List.nodup_range', ?_⟩, h3.2.1, ?_⟩
    · intro p hp q hq
      have := hAlt p hp
      simp only [List.mem_range'_1] at hq
      omega
    · intro p hp q hq
      simp only [List.mem_append, List.mem_range'_1] at hp
      have := hDlt q hq
      rcases hp with hp | hp
      · exact h3.2.2 p (by simp [hp]) q hq
      · omega
  · rw [hnext]; omega
  · intro q hq _; exact hold q hq
  · intro p hp
    rw [ptrs_append, ptrs_append, hnew_ptrs] at hp
    rw [hpL]
    simp only [List.mem_append, List.mem_range'_1] at hp ⊢
    rcases hp with (hp | hp) | hp
    · exact .inl (.inl (.inl hp))
    · right; omega
    · exact .inl (.inr hp)
  · rw [contents_append, contents_append, dup_contents]
    · rw [contents_congr (h := h) fun p hp => hold p (hAlt p hp),
        contents_congr (h := h) (L := D) fun p hp => hold p (hDlt p hp)]
      congr 2
      simp [contents]
    · rw [ptrs_map_some]; exact hps
  · refine cap_len hcap2 ?_
    rw [setLength_mem ha']
    simp [dupCells_length]; omega
  · intro p hp; have := hXlt p hp; rw [hnext]; omega
  · rw [hnext]; omega
  · intro q hq _; exact hold q hq
  · intro p hp; left; rw [hpL]; simp [hp]
  · exact contents_congr fun p hp => hold p (hXlt p hp)
  · refine cap_len hcap ?_
    rw [setLength_mem hrl]
    simp [hXl]; omega
  · intro p hp hq
    rw [ptrs_append, ptrs_append, hnew_ptrs] at hq
    simp only [List.mem_append, List.mem_range'_1] at hq
    have := hXlt p hp
    rcases hq with (hq | hq) | hq
    · exact h4.2.2 p hq p hp rfl
    · omega
    · exact h3.2.2 p (by simp [hp]) p hq rfl

end Verif.Array
