import Verif.Array.Lemmas
import Verif.Array.Spec

/-!
What each array method does, when the array is well formed: helper theorems for `Verif.Array.Props`.
-/

namespace Verif.Array

variable {V : Type}

/-- The capacity is a multiple of 16, at most `C`. -/
def Cap (C : Nat) (a : Arr) : Prop := a.mem.length % 16 = 0 ∧ a.mem.length ≤ C

/-- From heap `h` to `h'`, only the cells of `L` were written, and the cells of `L'` come from `L`
or are new. -/
structure Local (h : Heap V) (L : List (Option Nat)) (h' : Heap V) (L' : List (Option Nat)) :
    Prop where
  next : h.next ≤ h'.next
  old : ∀ q, q < h.next → q ∉ ptrs L → h'.val q = h.val q
  from_ : ∀ p ∈ ptrs L', p ∈ ptrs L ∨ h.next ≤ p

/-- `a'` is well formed on `h'`, has the elements `S`, and came about by a step local to `L`. -/
structure Post (C : Nat) (h : Heap V) (L : List (Option Nat)) (h' : Heap V) (a' : Arr)
    (L' : List (Option Nat)) (S : List (Option V)) : Prop where
  rep : Rep a' L'
  own : Own h' L'
  loc : Local h L h' L'
  view : contents h' L' = S
  cap : Cap C a'

theorem sizer_cap {M : Nat} {a a' : Arr} {len C : Nat} (h : sizer M a len = some a')
    (hc : Cap C a) (hl : roundUp len ≤ C) : Cap C a' := by
  unfold sizer at h
  split at h
  · cases h
  · cases h
    simp only [Cap]
    split
    · rename_i hge
      have h1 := lt_roundUp len
      have : roundUp len % 16 = 0 := by
        show (len + 1 + (15 - (len + 1 + 15) % 16)) % 16 = 0; omega
      simp only [List.length_append, List.length_replicate]
      constructor
      · have : a.mem.length + (roundUp len - a.mem.length) = roundUp len := by omega
        omega
      · omega
    · exact hc

theorem roundUp_le (n : Nat) : roundUp n ≤ n + 16 := by
  show n + 1 + (15 - (n + 1 + 15) % 16) ≤ n + 16; omega

theorem fits_of {M B n k : Nat} (hr : roomFor B n) (hB : B ≤ M) (hk : k ≤ n + 3) : fits M k := by
  unfold roomFor at hr
  have := roundUp_le k
  exact ⟨by omega, by omega⟩

theorem roundUp_room {B n k : Nat} (hr : roomFor B n) (hk : k ≤ n + 3) : roundUp k ≤ B := by
  unfold roomFor at hr
  have := roundUp_le k
  omega

theorem ptrs_append (A B : List (Option Nat)) : ptrs (A ++ B) = ptrs A ++ ptrs B := by
  simp [ptrs]

theorem ptrs_map_some (ps : List Nat) : ptrs (ps.map some) = ps := by
  simp [ptrs, List.filterMap_map]

theorem contents_append (h : Heap V) (A B : List (Option Nat)) :
    contents h (A ++ B) = contents h A ++ contents h B := by simp [contents]

theorem contents_length (h : Heap V) (A : List (Option Nat)) : (contents h A).length = A.length := by
  simp [contents]

/-! ### Arguments -/

theorem callArgs_snd (h : Heap V) (vs : List V) :
    (callArgs h vs).2 = List.range' h.next vs.length := by
  induction vs generalizing h with
  | nil => rfl
  | cons v vs ih => simp [callArgs, ih, Heap.alloc, List.range'_succ]

theorem callArgs_next (h : Heap V) (vs : List V) :
    (callArgs h vs).1.next = h.next + vs.length := by
  induction vs generalizing h with
  | nil => rfl
  | cons v vs ih => simp [callArgs, ih, Heap.alloc]; omega

theorem callArgs_old (h : Heap V) (vs : List V) (q : Nat) (hq : q < h.next) :
    (callArgs h vs).1.val q = h.val q := by
  induction vs generalizing h with
  | nil => rfl
  | cons v vs ih =>
    have := ih (h.alloc v) (by simp [Heap.alloc]; omega)
    simp only [callArgs]
    rw [this]
    simp only [Heap.alloc]; rw [if_neg (by omega)]

theorem callArgs_vals (h : Heap V) (vs : List V) :
    (callArgs h vs).2.map (callArgs h vs).1.val = vs := by
  induction vs generalizing h with
  | nil => rfl
  | cons v vs ih =>
    have := ih (h.alloc v)
    simp only [callArgs, List.map_cons, this]
    rw [callArgs_old _ _ _ (by simp [Heap.alloc])]
    simp [Heap.alloc]

theorem callArgs_length (h : Heap V) (vs : List V) : (callArgs h vs).2.length = vs.length := by
  simp [callArgs_snd]

theorem callArgs_contents (h : Heap V) (vs : List V) :
    contents (callArgs h vs).1 ((callArgs h vs).2.map some) = vs.map some := by
  have := callArgs_vals h vs
  unfold contents
  rw [List.map_map]
  have e : (Option.map (callArgs h vs).1.val ∘ some) = some ∘ (callArgs h vs).1.val := by
    funext x; rfl
  rw [e, ← List.map_map, this]

/-- Old cells keep their contents when the arguments are made. -/
theorem callArgs_old_contents (h : Heap V) (vs : List V) (L : List (Option Nat)) (hO : Own h L) :
    contents (callArgs h vs).1 L = contents h L :=
  contents_congr fun p hp => callArgs_old h vs p (hO.1 p hp)

theorem own_args (h : Heap V) (vs : List V) (L A B : List (Option Nat)) (hL : L = A ++ B)
    (hO : Own h L) : Own (callArgs h vs).1 (A ++ ((callArgs h vs).2).map some ++ B) := by
  subst hL
  rw [Own, ptrs_append, ptrs_append, ptrs_map_some, callArgs_snd, callArgs_next]
  have h1 := hO.1
  have h2 := hO.2
  rw [ptrs_append] at h1 h2
  refine ⟨?_, ?_⟩
  · intro p hp
    simp only [List.mem_append, List.mem_range'_1] at hp
    rcases hp with (hp | hp) | hp
    · have := h1 p (by simp [hp]); omega
    · omega
    · have := h1 p (by simp [hp]); omega
  · rw [List.nodup_append] at h2
    refine List.nodup_append.2 ⟨List.nodup_append.2 ⟨h2.1, List.nodup_range', ?_⟩, h2.2.1, ?_⟩
    · intro p hp q hq
      have := h1 p (by simp [hp])
      simp only [List.mem_range'_1] at hq
      omega
    · intro p hp q hq
      simp only [List.mem_append, List.mem_range'_1] at hp
      have := h1 q (by simp [hq])
      rcases hp with hp | hp
      · exact h2.2.2 p hp q hq
      · omega

theorem local_args (h : Heap V) (vs : List V) (L A B : List (Option Nat)) (hL : L = A ++ B) :
    Local h L (callArgs h vs).1 (A ++ ((callArgs h vs).2).map some ++ B) where
  next := by rw [callArgs_next]; omega
  old q hq _ := callArgs_old h vs q hq
  from_ p hp := by
    subst hL
    rw [ptrs_append, ptrs_append, ptrs_map_some, callArgs_snd] at hp
    rw [ptrs_append]
    simp only [List.mem_append, List.mem_range'_1] at hp ⊢
    rcases hp with (hp | hp) | hp
    · exact .inl (.inl hp)
    · right; omega
    · exact .inl (.inr hp)

theorem local_sub (h : Heap V) (L L' : List (Option Nat)) (hs : ∀ p ∈ ptrs L', p ∈ ptrs L) :
    Local h L h L' := ⟨Nat.le_refl _, fun _ _ _ => rfl, fun p hp => .inl (hs p hp)⟩

/-! ### push, pop, shift, unshift -/

theorem pushLoop_cap {M C : Nat} {n : Nat} (ps : List Nat) : ∀ (a a' : Arr) (i : Nat),
    pushLoop M n a i ps = some a' → Cap C a → roundUp (n + i + ps.length) ≤ C → Cap C a' := by
  induction ps with
  | nil => intro a a' i h hc _; cases h; exact hc
  | cons p ps ih =>
    intro a a' i h hc hl
    simp only [pushLoop, Option.bind_eq_bind] at h
    obtain ⟨a1, h1, h2⟩ := Option.bind_eq_some_iff.1 h
    simp only [List.length_cons] at hl
    apply ih a1 a' (i + 1) h2 ?_ (by have e : n + (i + 1) + ps.length = n + i + (ps.length + 1) := by omega
                                     rw [e]; exact hl)
    unfold insertArray at h1
    split at h1
    · unfold objArraySet at h1
      split at h1
      · cases h1; exact hc
      · rename_i b hb
        have hcb : Cap C b := sizer_cap hb hc
          (Nat.le_trans (roundUp_mono (by omega)) hl)
        simp only [Option.bind_eq_bind] at h1
        obtain ⟨c, hc1, h3⟩ := Option.bind_eq_some_iff.1 h1
        split at h3
        · cases h3; exact hcb
        · obtain ⟨m, hm, h4⟩ := Option.bind_eq_some_iff.1 h3
          have hlen : m.length = b.mem.length := by
            unfold wr at hm
            split at hm
            · cases hm; simp
            · cases hm
          have : a1.mem = m := by
            split at h4
            · unfold setLength at h4
              split at h4
              · cases h4; rfl
              · cases h4
            · cases h4; rfl
          unfold Cap
          rw [this, hlen]; exact hcb
    · cases h1; exact hc

theorem push_post {M B C : Nat} (h : Heap V) (a : Arr) (L : List (Option Nat)) (vs : List V)
    (hR : Rep a L) (hO : Own h L) (hC : Cap C a) (hBM : B ≤ M) (hBC : B ≤ C)
    (hr : roomFor B (L.length + vs.length)) :
    ∃ a' L', push M (callArgs h vs).1 a (callArgs h vs).2
        = some ⟨(callArgs h vs).1, a', L.length + vs.length, false⟩ ∧
      Post C h L (callArgs h vs).1 a' L' (contents h L ++ vs.map some) := by
  obtain ⟨a', j, h1, hj, hrep, hn⟩ :=
    pushLoop_spec (M := M) (callArgs h vs).2 a L (sizeOf a) 0 hR (by rw [hR.sizeOf]; rfl)
  rw [callArgs_length] at hj hn
  have hje : j = vs.length := by
    rcases Nat.lt_or_ge j vs.length with h' | h'
    · exact absurd (fits_of (k := L.length + j + 1) hr hBM (by omega)) (hn h')
    · omega
  subst hje
  rw [List.take_of_length_le (by rw [callArgs_length]; exact Nat.le_refl _)] at hrep
  refine ⟨a', _, ?_, hrep, ?_, ?_, ?_, ?_⟩
  · unfold push
    rw [h1]
    simp only [Option.bind_eq_bind, Option.bind_some]
    rw [hrep.sizeOf]
    simp [callArgs_length]
  · have := own_args h vs L L [] (by simp) hO
    simpa using this
  · have := local_args h vs L L [] (by simp)
    simpa using this
  · rw [contents_append, callArgs_contents, callArgs_old_contents h vs L hO]
  · refine pushLoop_cap _ _ _ _ h1 hC ?_
    rw [hR.sizeOf, callArgs_length]
    exact Nat.le_trans (roundUp_room (B := B) hr (by omega)) hBC

theorem pop_post {C : Nat} (h : Heap V) (a : Arr) (L : List (Option Nat)) (hR : Rep a L)
    (hO : Own h L) (hC : Cap C a) :
    ∃ a', pop h a = some ⟨h, a', L.getLast?.join, false⟩ ∧
      Post C h L h a' L.dropLast (contents h L).dropLast := by
  have hd : ∀ p ∈ ptrs L.dropLast, p ∈ ptrs L := by
    intro p hp
    simp only [ptrs, List.mem_filterMap, id] at hp ⊢
    obtain ⟨x, hx, e⟩ := hp
    exact ⟨x, List.dropLast_subset L hx, e⟩
  have hown : Own h L.dropLast := by
    refine ⟨fun p hp => hO.1 p (hd p hp), ?_⟩
    have : (ptrs L.dropLast).Sublist (ptrs L) := (List.dropLast_sublist L).filterMap _
    exact this.nodup hO.2
  have hview : contents h L.dropLast = (contents h L).dropLast := by
    simp [contents]
  rcases List.eq_nil_or_concat L with rfl | ⟨X, c, rfl⟩
  · refine ⟨a, ?_, hR, hown, local_sub h _ _ hd, hview, hC⟩
    unfold pop
    rw [if_pos (by rw [hR.sizeOf]; rfl)]
    rfl
  · have hs := hR.sizeOf
    obtain ⟨⟨k, hm⟩, hcnt⟩ := hR
    have hm' : a.mem = X ++ c :: List.replicate k none := by rw [hm]; simp
    have hi : sizeOf a - 1 = X.length := by rw [hs]; simp
    refine ⟨⟨X ++ none :: List.replicate k none, X.length⟩, ?_, ⟨⟨k + 1, ?_⟩, ?_⟩, hown,
      local_sub h _ _ hd, hview, ?_⟩
    · unfold pop
      rw [if_neg (by rw [hs]; simp)]
      simp only [hi, hm', Option.bind_eq_bind]
      rw [rd_mid _ _ _ _ rfl]
      simp only [Option.bind_some]
      cases c with
      | none =>
        simp only [Option.isSome_none, Bool.false_eq_true, if_false, Option.bind_some]
        unfold setLength
        rw [if_pos (by rw [hm']; simp)]
        simp [hm']
      | some p =>
        simp only [Option.isSome_some, if_true]
        rw [wr_mid _ _ _ _ _ rfl]
        simp only [Option.map_some, Option.bind_some]
        unfold setLength
        rw [if_pos (by simp)]
        simp
    · simp [List.replicate_succ]
    · simp
    · unfold Cap at hC ⊢
      rw [hm'] at hC
      simpa using hC

/-- `shift` when the first element is not a hole. -/
theorem shift_post {C : Nat} (h : Heap V) (a : Arr) (L : List (Option Nat)) (hR : Rep a L)
    (hO : Own h L) (hC : Cap C a) (hh : ∀ X, L ≠ none :: X) :
    ∃ a', shift h a = some ⟨h, a', (contents h L).head?.join, false⟩ ∧
      Post C h L h a' L.tail (contents h L).tail := by
  have hd : ∀ p ∈ ptrs L.tail, p ∈ ptrs L := by
    intro p hp
    simp only [ptrs, List.mem_filterMap, id] at hp ⊢
    obtain ⟨x, hx, e⟩ := hp
    exact ⟨x, List.mem_of_mem_tail hx, e⟩
  have hown : Own h L.tail := by
    refine ⟨fun p hp => hO.1 p (hd p hp), ?_⟩
    have : (ptrs L.tail).Sublist (ptrs L) := (List.tail_sublist L).filterMap _
    exact this.nodup hO.2
  have hview : contents h L.tail = (contents h L).tail := by simp [contents]
  have hs := hR.sizeOf
  cases L with
  | nil =>
    refine ⟨a, ?_, hR, hown, local_sub h _ _ hd, hview, hC⟩
    unfold shift
    rw [if_pos (by rw [hs]; rfl)]
    rfl
  | cons c X =>
    obtain ⟨⟨k, hm⟩, hcnt⟩ := hR
    cases c with
    | none => exact absurd rfl (hh X)
    | some p =>
      refine ⟨⟨X ++ none :: List.replicate k none, X.length⟩, ?_, ⟨⟨k + 1, ?_⟩, rfl⟩, hown,
        local_sub h _ _ hd, hview, ?_⟩
      · unfold shift
        rw [if_neg (by rw [hs]; simp)]
        have hn : sizeOf a - 1 = X.length := by rw [hs]; simp
        simp only [hn, hm, Option.bind_eq_bind]
        have e0 : some p :: X ++ List.replicate k none = [] ++ some p :: (X ++ List.replicate k none) := rfl
        rw [e0, rd_mid [] _ _ 0 rfl]
        simp only [Option.bind_some]
        have hmv : memmove ([] ++ some p :: (X ++ List.replicate k none)) 0 1 X.length
            = some (X ++ (some p :: (X ++ List.replicate k none)).drop X.length) := by
          unfold memmove
          rw [if_pos (by constructor <;> simp <;> omega)]
          simp
        rw [hmv]
        simp only [Option.bind_some]
        have hlast : ∃ d, (some p :: (X ++ List.replicate k none)).drop X.length
            = d :: List.replicate k none := by
          rcases List.eq_nil_or_concat X with rfl | ⟨Y, d, rfl⟩
          · exact ⟨some p, by simp⟩
          · refine ⟨d, ?_⟩
            simp
        obtain ⟨d, hd'⟩ := hlast
        rw [hd', wr_mid _ _ _ _ _ rfl]
        simp only [Option.bind_some]
        unfold setLength
        rw [if_pos (by simp)]
        simp [contents]
      · simp [List.replicate_succ]
      · unfold Cap at hC ⊢
        rw [hm] at hC
        have : (X ++ none :: List.replicate k none).length = (some p :: X ++ List.replicate k none).length := by
          simp; omega
        simp only [this]; exact hC

/-- `shift` when the first element is a hole: the length stays. -/
theorem shift_hole (h : Heap V) (a : Arr) (X : List (Option Nat)) (hR : Rep a (none :: X)) :
    ∃ a', shift h a = some ⟨h, a', none, false⟩ ∧ Rep a' (X ++ [none]) := by
  have hs := hR.sizeOf
  obtain ⟨⟨k, hm⟩, hcnt⟩ := hR
  refine ⟨⟨X ++ none :: List.replicate k none, X.length + 1⟩, ?_, ⟨k, by simp⟩, by simp⟩
  unfold shift
  rw [if_neg (by rw [hs]; simp)]
  have hn : sizeOf a - 1 = X.length := by rw [hs]; simp
  simp only [hn, hm, Option.bind_eq_bind]
  have e0 : none :: X ++ List.replicate k none = [] ++ none :: (X ++ List.replicate k none) := rfl
  rw [e0, rd_mid [] _ _ 0 rfl]
  simp only [Option.bind_some]
  have hmv : memmove ([] ++ none :: (X ++ List.replicate k none)) 0 1 X.length
      = some (X ++ (none :: (X ++ List.replicate k none)).drop X.length) := by
    unfold memmove
    rw [if_pos (by constructor <;> simp <;> omega)]
    simp
  rw [hmv]
  simp only [Option.bind_some]
  have hlast : ∃ d, (none :: (X ++ List.replicate k none)).drop X.length
      = d :: List.replicate k none := by
    rcases List.eq_nil_or_concat X with rfl | ⟨Y, d, rfl⟩
    · exact ⟨none, by simp⟩
    · exact ⟨d, by simp⟩
  obtain ⟨d, hd'⟩ := hlast
  rw [hd', wr_mid _ _ _ _ _ rfl]
  simp [hcnt]

theorem unshift_post {M B C : Nat} (h : Heap V) (a : Arr) (L : List (Option Nat)) (vs : List V)
    (hR : Rep a L) (hO : Own h L) (hC : Cap C a) (hBM : B ≤ M) (hBC : B ≤ C) (hv : vs ≠ [])
    (hr : roomFor B (L.length + vs.length)) :
    ∃ a' L', unshift M (callArgs h vs).1 a (callArgs h vs).2
        = some ⟨(callArgs h vs).1, a', L.length + vs.length, false⟩ ∧
      Post C h L (callArgs h vs).1 a' L' (vs.map some ++ contents h L) := by
  have hs := hR.sizeOf
  obtain ⟨⟨k, hm⟩, hcnt⟩ := hR
  have hlen := callArgs_length h vs
  have hf : fits M (L.length + vs.length) := fits_of hr hBM (by omega)
  obtain ⟨j, hsz, hj⟩ := sizer_some (a := a) hf
  have hcap := sizer_cap hsz hC (Nat.le_trans (roundUp_room (B := B) hr (by omega)) hBC)
  simp only [hm, List.append_assoc, List.replicate_append_replicate] at hsz hcap
  rw [hm, List.length_append, List.length_replicate] at hj
  have hps : (callArgs h vs).2 ≠ [] := by
    intro e; apply hv; rw [e] at hlen; exact List.length_eq_zero_iff.1 hlen.symm
  -- the vector is `L`, then `vs.length` NULLs, then `r` NULLs
  obtain ⟨r, hkr⟩ : ∃ r, k + j = vs.length + r := ⟨k + j - vs.length, by omega⟩
  rw [hkr] at hsz hcap
  have hmv : ∃ X, X.length = vs.length ∧
      memmove (L ++ List.replicate (vs.length + r) none) vs.length 0 L.length
        = some ([] ++ X ++ (L ++ List.replicate r none)) := by
    refine ⟨(L ++ List.replicate (vs.length + r) none).take vs.length, ?_, ?_⟩
    · simp; omega
    · unfold memmove
      rw [if_pos (by constructor <;> simp <;> omega)]
      congr 1
      simp only [List.drop_zero, List.take_left']
      have e1 : List.drop (vs.length + L.length) (L ++ List.replicate (vs.length + r) none)
          = List.replicate r none := by
        rw [List.drop_append, List.drop_eq_nil_of_le (by omega), List.nil_append, List.drop_replicate]
        congr 1; omega
      rw [e1]; simp
  obtain ⟨X, hX, hmv⟩ := hmv
  have hst := storeLoop_spec (callArgs h vs).2 [] X (L ++ List.replicate r none) 0
    (by rw [hX, hlen]) rfl
  obtain ⟨a', ha', hrep⟩ := setLength_rep ((callArgs h vs).2.map some ++ (L ++ List.replicate r none))
    ((callArgs h vs).2.map some ++ L) r
    (max (L.length + vs.length) a.cnt + vs.length) (L.length + vs.length)
    (by simp) (by simp [hlen]; omega)
  refine ⟨a', _, ?_, hrep, ?_, ?_, ?_, ?_⟩
  · unfold unshift
    rw [if_neg hps, hs, hlen, hsz]
    simp only [Option.bind_eq_bind]
    rw [hmv]
    simp only [Option.bind_some]
    rw [hst]
    simp only [Option.bind_some, hlen, List.nil_append]
    rw [ha']
    simp only [Option.bind_some]
    rw [hrep.sizeOf]
    simp [hlen]; omega
  · have := own_args h vs L [] L (by simp) hO
    simpa using this
  · have := local_args h vs L [] L (by simp)
    simpa using this
  · rw [contents_append, callArgs_contents, callArgs_old_contents h vs L hO]
  · have hmem : a'.mem = (callArgs h vs).2.map some ++ (L ++ List.replicate r none) := by
      unfold setLength at ha'
      split at ha'
      · cases ha'; rfl
      · cases ha'
    unfold Cap at hcap ⊢
    rw [hmem]
    have : ((callArgs h vs).2.map some ++ (L ++ List.replicate r none)).length
        = (L ++ List.replicate (vs.length + r) none).length := by
      simp [hlen]; omega
    rw [this]; exact hcap

end Verif.Array
