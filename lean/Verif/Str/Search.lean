import Verif.Str.Props

/-!
C58: `indexOf`, `lastIndexOf` and `search`.  The specification of an occurrence is `Occ`, stated with Lean's
prefix relation; positions in a text of characters are positions in the list of its characters.
-/

namespace Verif.Str

open Verif.Utf8

/-- `sub` occurs in `s` at position `i`. -/
def Occ {α : Type} (s sub : List α) (i : Nat) : Prop := i ≤ s.length ∧ sub <+: s.drop i

/-- `r` is the position of the first occurrence at `start` or later, -1 if there is none. -/
def First {α : Type} (s sub : List α) (start : Nat) (r : Int) : Prop :=
  (r = -1 ∧ ∀ j, start ≤ j → ¬ Occ s sub j) ∨
  ∃ i : Nat, r = i ∧ start ≤ i ∧ Occ s sub i ∧ ∀ j, start ≤ j → Occ s sub j → i ≤ j

/-- `r` is the position of the last occurrence, -1 if there is none. -/
def Last {α : Type} (s sub : List α) (r : Int) : Prop :=
  (r = -1 ∧ ∀ j, ¬ Occ s sub j) ∨
  ∃ i : Nat, r = i ∧ Occ s sub i ∧ ∀ j, Occ s sub j → j ≤ i

theorem first_unique {α : Type} {s sub : List α} {st : Nat} {a b : Int} (ha : First s sub st a) (hb : First s sub st b) :
    a = b := by
  rcases ha with ⟨rfl, h1⟩ | ⟨i, rfl, h1, h2, h3⟩ <;> rcases hb with ⟨rfl, g1⟩ | ⟨j, rfl, g1, g2, g3⟩
  · rfl
  · exact absurd g2 (h1 j g1)
  · exact absurd h2 (g1 i h1)
  · have := h3 j g1 g2
    have := g3 i h1 h2
    omega

theorem occ_infix {s sub : Bytes} {i : Nat} (h : Occ s sub i) : sub <:+: s :=
  h.2.isInfix.trans (List.drop_suffix _ _).isInfix

theorem strpos_first (s sub : Bytes) (start : Nat) (h : start ≤ s.length ∨ sub ≠ []) :
    First s sub start (strpos s start sub) := by
  unfold strpos
  by_cases hl : s.length < start
  · rw [if_pos hl]
    refine Or.inl ⟨rfl, fun j hj ho => ?_⟩
    have := ho.1; omega
  · rw [if_neg hl]
    cases hr : strstr sub (s.drop start) with
    | none =>
      refine Or.inl ⟨rfl, fun j hj ho => strstr_none hr ?_⟩
      obtain ⟨k, rfl⟩ := Nat.exists_eq_add_of_le hj
      have := ho.2
      rw [← List.drop_drop] at this
      exact this.isInfix.trans (List.drop_suffix _ _).isInfix
    | some n =>
      obtain ⟨t, -, h2⟩ := strstr_some hr
      have hf := strstr_first hr
      refine Or.inr ⟨start + n, rfl, by omega, ⟨?_, ?_⟩, ?_⟩
      · rw [List.length_drop] at h2; omega
      · have hd := strstr_drop hr
        rw [← List.drop_drop]
        conv => rhs; rw [hd]
        rw [List.append_assoc, List.drop_left' (by simp only [List.length_take]; omega)]
        exact List.prefix_append _ _
      · intro j hj ho
        by_contra hlt
        obtain ⟨k, rfl⟩ := Nat.exists_eq_add_of_le hj
        have := ho.2
        rw [← List.drop_drop] at this
        exact hf k (by omega) this

/-- **C58**: `indexOf(sub, start)` is the offset in bytes of the first occurrence at `start` or later, -1 if
there is none, a negative start being 0; for all strings and substrings without NUL and all starts, unless
the substring is empty and the start beyond the end. -/
theorem C58_indexOf_partial (s sub : Bytes) (start : Option Int) (h1 : noNul s) (h2 : noNul sub)
    (h : (start.getD 0).toNat ≤ s.length ∨ sub ≠ []) :
    First s sub (start.getD 0).toNat (indexOf s sub start) := by
  unfold indexOf
  rw [cstr_eq h1, cstr_eq h2]
  exact strpos_first s sub _ h

/-- **C58**: `search(sub)` with a string is the first occurrence too. -/
theorem C58_search_partial (s sub : Bytes) (h1 : noNul s) (h2 : noNul sub) :
    First s sub 0 (search s sub) := by
  have := C58_indexOf_partial s sub none h1 h2 (Or.inl (by simp))
  unfold search
  unfold indexOf strpos at this
  rw [if_neg (by simp)] at this
  simpa [cstr_eq h1, cstr_eq h2] using this

/-- **C58 refuted**: the empty string beyond the end is not found (JavaScript gives the length), for all
strings. -/
theorem C58_indexOf_empty_refuted (s : Bytes) (h1 : noNul s) (k : Nat) : indexOf s [] (some (s.length + 1 + k : Nat)) = -1 := by
  unfold indexOf strpos
  rw [cstr_eq h1, if_pos (by simp only [Option.getD_some]; omega)]

/-! ### characters -/

theorem isCont_head (c : Char) (h : c.toNat ≠ 0) : ∃ b t, String.utf8EncodeChar c = b :: t ∧ isCont b = false ∧ ∀ x ∈ t, isCont x = true := by
  obtain ⟨b, t, he, -, hc, ht, -, -⟩ := enc1_shape c h
  exact ⟨b, t, he, hc, ht⟩

/-- The code of a character starts with a byte that gives its length. -/
theorem enc1_prefix_inj {c d : Char} {x y : Bytes} (hc : c.toNat ≠ 0) (hd : d.toNat ≠ 0)
    (h : String.utf8EncodeChar c ++ x = String.utf8EncodeChar d ++ y) : c = d ∧ x = y := by
  have h1 := utfToUniChar_enc c x
  have h2 := utfToUniChar_enc d y
  rw [h, h2] at h1
  simp only [Option.some.injEq, Prod.mk.injEq] at h1
  have hcd : c = d := by
    have := h1.1
    apply Char.ext
    first
      | exact this.symm
      | exact (UInt32.toNat_inj.1 (by simpa using this.symm))
      | (have h3 := this.symm; simp at h3; exact h3)
  subst hcd
  exact ⟨rfl, List.append_cancel_left h⟩

theorem enc_prefix (sub cs : List Char) (h1 : NoNul sub) (h2 : NoNul cs) : enc sub <+: enc cs ↔ sub <+: cs := by
  constructor
  · intro h
    induction sub generalizing cs with
    | nil => exact List.nil_prefix
    | cons c sub ih =>
      obtain ⟨t, ht⟩ := h
      cases cs with
      | nil =>
        exfalso
        rw [enc_cons] at ht
        have := congrArg List.length ht
        have hne := List.length_pos_iff.2 (encChar_ne_nil c)
        have h0 : enc ([] : List Char) = [] := rfl
        rw [h0, List.length_append, List.length_append, List.length_nil] at this
        omega
      | cons d cs =>
        rw [enc_cons, enc_cons, List.append_assoc] at ht
        obtain ⟨hcd, ht2⟩ := enc1_prefix_inj (h1 c (by simp)) (h2 d (by simp)) ht
        subst hcd
        rw [List.cons_prefix_cons]
        exact ⟨rfl, ih cs (fun x hx => h1 x (List.mem_cons_of_mem _ hx)) (fun x hx => h2 x (List.mem_cons_of_mem _ hx)) ⟨t, ht2⟩⟩
  · rintro ⟨t, rfl⟩
    simp [enc]

/-- Within a text every offset is the beginning of a character, or a continuation byte is there. -/
theorem enc_offset : ∀ (cs : List Char) (i : Nat), NoNul cs → i ≤ (enc cs).length →
    (∃ k, k ≤ cs.length ∧ i = (enc (cs.take k)).length ∧ (enc cs).drop i = enc (cs.drop k)) ∨
    ∃ b t, (enc cs).drop i = b :: t ∧ isCont b = true
  | [], i, _, hi => by
    have : i = 0 := by simpa [enc] using hi
    subst this
    exact Or.inl ⟨0, by simp, by simp [enc], by simp [enc]⟩
  | c :: cs, i, hn, hi => by
    obtain ⟨b, t, he, -, ht⟩ := isCont_head c (hn c (by simp))
    by_cases h : i < (String.utf8EncodeChar c).length
    · cases i with
      | zero => exact Or.inl ⟨0, by simp, by simp [enc], by simp⟩
      | succ j =>
        right
        rw [enc_cons, he] at *
        simp only [List.length_cons] at h
        have hj : j < t.length := by omega
        refine ⟨t[j], t.drop (j + 1) ++ enc cs, ?_, ht _ (List.getElem_mem hj)⟩
        rw [List.cons_append, List.drop_succ_cons, List.drop_append_of_le_length (by omega), List.drop_eq_getElem_cons hj]
        rfl
    · obtain ⟨j, rfl⟩ := Nat.exists_eq_add_of_le (Nat.le_of_not_lt h)
      rw [enc_cons, List.length_append] at hi
      have hd : (enc (c :: cs)).drop ((String.utf8EncodeChar c).length + j) = (enc cs).drop j := by
        rw [enc_cons, ← List.drop_drop, List.drop_left' rfl]
      rw [hd]
      rcases enc_offset cs j (fun x hx => hn x (List.mem_cons_of_mem _ hx)) (by omega) with ⟨k, h1, h2, h3⟩ | h1
      · refine Or.inl ⟨k + 1, by simpa using h1, ?_, by simpa using h3⟩
        rw [List.take_succ_cons, enc_cons, List.length_append, ← h2]
      · exact Or.inr h1

theorem enc_split (cs : List Char) (k : Nat) : enc cs = enc (cs.take k) ++ enc (cs.drop k) := by
  have : enc (cs.take k ++ cs.drop k) = enc (cs.take k) ++ enc (cs.drop k) := List.flatMap_append
  rwa [List.take_append_drop] at this

theorem enc_occ {cs sub : List Char} (h1 : NoNul cs) (h2 : NoNul sub) {i : Nat} :
    (Occ (enc cs) (enc sub) i ∧ sub ≠ []) ↔
      ∃ k, i = (enc (cs.take k)).length ∧ Occ cs sub k ∧ sub ≠ [] := by
  constructor
  · rintro ⟨⟨hi, hp⟩, hs⟩
    rcases enc_offset cs i h1 hi with ⟨k, hk, e1, e2⟩ | ⟨b, t, e1, e2⟩
    · refine ⟨k, e1, ⟨hk, ?_⟩, hs⟩
      rw [e2] at hp
      exact (enc_prefix _ _ h2 (fun x hx => h1 x (List.mem_of_mem_drop hx))).1 hp
    · exfalso
      cases sub with
      | nil => exact hs rfl
      | cons c sub =>
        obtain ⟨b', t', he, hb', -⟩ := isCont_head c (h2 c (by simp))
        rw [e1, enc_cons, he, List.cons_append, List.cons_prefix_cons] at hp
        rw [← hp.1, hb'] at e2
        cases e2
  · rintro ⟨k, rfl, ⟨hk, hp⟩, hs⟩
    refine ⟨⟨?_, ?_⟩, hs⟩
    · rw [enc_split cs k]; simp
    · have : (enc cs).drop (enc (cs.take k)).length = enc (cs.drop k) := by
        conv => lhs; arg 2; rw [enc_split cs k]
        rw [List.drop_left' rfl]
      rw [this]
      exact (enc_prefix _ _ h2 (fun x hx => h1 x (List.mem_of_mem_drop hx))).2 hp

theorem enc_len_mono (cs : List Char) {a b : Nat} (h : a < b) (hb : b ≤ cs.length) :
    (enc (cs.take a)).length < (enc (cs.take b)).length := by
  have : cs.take b = cs.take a ++ (cs.drop a).take (b - a) := by
    rw [← List.take_add]; congr 1; omega
  rw [this]
  have h2 : enc (cs.take a ++ (cs.drop a).take (b - a)) = enc (cs.take a) ++ enc ((cs.drop a).take (b - a)) := by simp [enc]
  rw [h2, List.length_append]
  have h3 : (cs.drop a).take (b - a) ≠ [] := by
    intro h0
    have := congrArg List.length h0
    simp at this; omega
  cases h4 : (cs.drop a).take (b - a) with
  | nil => exact absurd h4 h3
  | cons c l =>
    rw [enc_cons, List.length_append]
    have := List.length_pos_iff.2 (encChar_ne_nil c)
    omega

/-- The first occurrence of a text in a text, in characters. -/
def charFirst (cs sub : List Char) (k : Nat) : Prop := First cs sub 0 (k : Int)

/-- **C58, texts**: in a UTF-8 text `indexOf` finds a text exactly when it occurs there as characters, at the
character where it first occurs; the number it gives is that of the bytes before that character. -/
theorem C58_indexOf_text_partial (cs sub : List Char) (h1 : NoNul cs) (h2 : NoNul sub) :
    (indexOf (enc cs) (enc sub) none = -1 ∧ ¬ sub <:+: cs) ∨
    ∃ k, charFirst cs sub k ∧ indexOf (enc cs) (enc sub) none = (enc (cs.take k)).length := by
  have n1 : noNul (enc cs) := enc_ne_zero cs h1
  have n2 : noNul (enc sub) := enc_ne_zero sub h2
  have hf := C58_indexOf_partial (enc cs) (enc sub) none n1 n2 (Or.inl (by simp))
  simp only [Option.getD_none, Int.toNat_zero] at hf
  by_cases hs : sub = []
  · right
    subst hs
    refine ⟨0, Or.inr ⟨0, rfl, by omega, ⟨by omega, by simp⟩, fun j _ _ => by omega⟩, ?_⟩
    rcases hf with ⟨-, h⟩ | ⟨i, he, -, -, h⟩
    · exact absurd ⟨by omega, by simp [enc]⟩ (h 0 (by omega))
    · have := h 0 (by omega) ⟨by omega, by simp [enc]⟩
      rw [he]; simp [enc]; omega
  · rcases hf with ⟨he, h⟩ | ⟨i, he, -, ho, h⟩
    · left
      refine ⟨he, ?_⟩
      rintro ⟨a, b, hab⟩
      have hocc : Occ cs sub a.length := by
        rw [← hab]
        refine ⟨by simp, ?_⟩
        rw [List.append_assoc, List.drop_left' rfl]
        exact List.prefix_append _ _
      exact h _ (by omega) ((enc_occ h1 h2).2 ⟨a.length, rfl, hocc, hs⟩).1
    · right
      obtain ⟨k, rfl, hk, -⟩ := (enc_occ h1 h2).1 ⟨ho, hs⟩
      refine ⟨k, Or.inr ⟨k, rfl, by omega, hk, ?_⟩, he⟩
      intro j _ hj
      by_contra hlt
      have hj2 := ((enc_occ h1 h2).2 ⟨j, rfl, hj, hs⟩).1
      have := h _ (by omega) hj2
      have := enc_len_mono cs (a := j) (b := k) (by omega) hk.1
      omega

/-- **C58 refuted**: beyond ASCII the result counts bytes where `charAt` and `substr` count characters. -/
theorem C58_offset_refuted : indexOf (enc ['é', 'a']) (enc ['a']) none = 2 ∧ First ['é', 'a'] ['a'] 0 1 := by
  refine ⟨by decide +kernel, Or.inr ⟨1, rfl, by omega, ⟨by decide, by decide⟩, ?_⟩⟩
  intro j _ ⟨h1, h2⟩
  by_contra hlt
  have : j = 0 := by omega
  subst this
  revert h2; decide

/-! ### `lastIndexOf` -/

theorem rposLoop_spec (sub : Bytes) (hs : sub ≠ []) : ∀ (s : Bytes) (i : Nat) (os : Option Nat),
    (¬ sub <:+: s ∧ rposLoop sub s i os = os) ∨
    ∃ n, rposLoop sub s i os = some (i + n) ∧ Occ s sub n ∧ ∀ j, Occ s sub j → j ≤ n
  | [], i, os => by
    left
    refine ⟨?_, rfl⟩
    rintro ⟨a, b, h⟩
    simp at h; exact hs h.2.1
  | c :: s, i, os => by
    rw [rposLoop]
    cases hr : strstr sub (c :: s) with
    | none => exact Or.inl ⟨strstr_none hr, rfl⟩
    | some n =>
      right
      simp only []
      have hf : First (c :: s) sub 0 (strpos (c :: s) 0 sub) := strpos_first _ _ _ (Or.inl (by simp))
      unfold strpos at hf
      rw [if_neg (by simp), List.drop_zero, hr] at hf
      simp only [Nat.zero_add] at hf
      rcases hf with ⟨h, -⟩ | ⟨n', h, -, ho, hmin⟩
      · omega
      · have : n' = n := by omega
        subst this
        rcases rposLoop_spec sub hs s (i + 1) (some (i + n')) with ⟨h3, h4⟩ | ⟨m, h4, h5, h6⟩
        · refine ⟨n', h4, ho, ?_⟩
          intro j hj
          cases j with
          | zero => omega
          | succ j =>
            exfalso
            apply h3
            have := hj.2
            rw [List.drop_succ_cons] at this
            exact this.isInfix.trans (List.drop_suffix _ _).isInfix
        · refine ⟨m + 1, by rw [h4]; congr 1; omega, ⟨by have := h5.1; simp only [List.length_cons]; omega, by simpa using h5.2⟩, ?_⟩
          intro j hj
          cases j with
          | zero => omega
          | succ j =>
            have := h6 j ⟨by have := hj.1; simp only [List.length_cons] at this; omega, by simpa using hj.2⟩
            omega

theorem occ_of_infix {s sub : Bytes} (h : sub <:+: s) : ∃ i, Occ s sub i := by
  obtain ⟨a, b, rfl⟩ := h
  refine ⟨a.length, by simp, ?_⟩
  rw [List.append_assoc, List.drop_left' rfl]
  exact List.prefix_append _ _

/-- **C58**: without a start `lastIndexOf` gives the last occurrence (overlaps count), -1 if there is none, for
all strings and non-empty substrings without NUL. -/
theorem C58_lastIndexOf_partial (s sub : Bytes) (h1 : noNul s) (h2 : noNul sub) (hs : sub ≠ []) :
    Last s sub (lastIndexOf s sub none) := by
  unfold lastIndexOf strrpos
  rw [cstr_eq h1, cstr_eq h2, if_neg (by simp)]
  simp only [Option.getD_none, Int.toNat_zero, List.drop_zero]
  rcases rposLoop_spec sub hs s 0 none with ⟨h, hr⟩ | ⟨n, hr, ho, hmax⟩
  · rw [hr]
    exact Or.inl ⟨rfl, fun j hj => h (occ_infix hj)⟩
  · rw [hr]
    exact Or.inr ⟨n, by simp, ho, hmax⟩

/-- **C58 refuted**: with a start, `lastIndexOf` gives the last occurrence at the start or *after* it
(JavaScript: at the start or before it), for all strings and starts. -/
theorem C58_lastIndexOf_start_refuted (s sub : Bytes) (start : Nat) (h1 : noNul s) (h2 : noNul sub) (hs : sub ≠ [])
    (hst : start ≤ s.length) : ∃ r, Last (s.drop start) sub r ∧
      lastIndexOf s sub (some start) = (if r = -1 then -1 else start + r) := by
  unfold lastIndexOf strrpos
  rw [cstr_eq h1, cstr_eq h2, if_neg (by simp; omega)]
  simp only [Option.getD_some, Int.toNat_natCast]
  rcases rposLoop_spec sub hs (s.drop start) start none with ⟨h, hr⟩ | ⟨n, hr, ho, hmax⟩
  · refine ⟨-1, Or.inl ⟨rfl, fun j hj => h (occ_infix hj)⟩, ?_⟩
    rw [hr]; simp
  · refine ⟨n, Or.inr ⟨n, rfl, ho, hmax⟩, ?_⟩
    rw [hr, if_neg (by omega)]; simp

theorem rpos_empty : ∀ (s : Bytes) (i : Nat) (os : Option Nat),
    rposLoop [] s i os = if s = [] then os else some (i + s.length - 1)
  | [], i, os => rfl
  | c :: s, i, os => by
    have : strstr [] (c :: s) = some 0 := by rw [strstr, if_pos (by simp)]
    rw [rposLoop, this]
    simp only []
    rw [rpos_empty s]
    cases s with
    | nil => simp
    | cons d s => simp; omega

/-- **C58 refuted**: the last occurrence of the empty string is at the end of a string; `lastIndexOf` gives
one less, for all strings. -/
theorem C58_lastIndexOf_empty_refuted (s : Bytes) (h1 : noNul s) :
    lastIndexOf s [] none = s.length - 1 ∧ Last s [] s.length := by
  constructor
  · unfold lastIndexOf strrpos
    have h0 : cstr ([] : Bytes) = [] := rfl
    rw [cstr_eq h1, h0, if_neg (by simp)]
    simp only [Option.getD_none, Int.toNat_zero, List.drop_zero]
    rw [rpos_empty]
    cases s with
    | nil => simp
    | cons c s => simp
  · exact Or.inr ⟨s.length, rfl, ⟨by omega, by simp⟩, fun j hj => hj.1⟩

example : indexOf (asc "banana") (asc "an") none = 1 ∧ indexOf (asc "banana") (asc "an") (some 2) = 3 ∧
    indexOf (asc "banana") (asc "x") none = -1 ∧ indexOf (asc "banana") (asc "an") (some (-5)) = 1 ∧
    lastIndexOf (asc "banana") (asc "ana") none = 3 ∧ lastIndexOf (asc "banana") (asc "an") (some 0) = 3 ∧
    lastIndexOf (asc "banana") (asc "an") (some 4) = -1 ∧ search (asc "banana") (asc "na") = 2 ∧
    indexOf (asc "abc") [] (some 9) = -1 ∧ lastIndexOf (asc "abc") [] none = 2 := by decide +kernel

end Verif.Str
