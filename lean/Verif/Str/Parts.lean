import Verif.Str.Search

/-!
C59: `substring` and `slice`; C60: `replace`, `repeat`, `concat`, `map`.  The specifications of the first two
are ECMAScript's, on the list of the characters of a text.
-/

namespace Verif.Str

open Verif.Utf8

/-! ### C59 -/

/-- A text of ASCII characters other than NUL. -/
def Ascii (cs : List Char) : Prop := ∀ c ∈ cs, c.toNat ≠ 0 ∧ c.toNat < 128

theorem Ascii.noNul {cs : List Char} (h : Ascii cs) : NoNul cs := fun c hc => (h c hc).1

theorem Ascii.one {cs : List Char} (h : Ascii cs) : ∀ c ∈ cs, (String.utf8EncodeChar c).length = 1 := by
  intro c hc
  rw [encChar_ascii c (h c hc).2]; rfl

theorem Ascii.len {cs : List Char} (h : Ascii cs) : (enc cs).length = cs.length := by
  induction cs with
  | nil => rfl
  | cons c cs ih =>
    rw [enc_cons, List.length_append, h.one c (by simp), ih (fun x hx => h x (List.mem_cons_of_mem _ hx)), List.length_cons]
    omega

theorem Ascii.firstLen {cs : List Char} (h : Ascii cs) (n : Nat) : Utf8.firstLen (cs.drop n) = 1 := by
  cases hd : cs.drop n with
  | nil => rfl
  | cons c l =>
    have : c ∈ cs := List.mem_of_mem_drop (i := n) (by rw [hd]; simp)
    exact h.one c this

/-- A position given by a script: 0 if negative, the length if beyond the end. -/
def clamp (len : Nat) (i : Int) : Nat := min i.toNat len

/-- ECMAScript: `substring(start, end)`. -/
def esSubstring (cs : List Char) (start : Int) (e : Option Int) : List Char :=
  let a := clamp cs.length start
  let b := match e with | none => cs.length | some e => clamp cs.length e
  (cs.drop (min a b)).take (max a b - min a b)

/-- ECMAScript: a position of `slice`, counted from the end if negative. -/
def esFrom (len : Nat) (i : Int) : Nat := if i < 0 then (len + i).toNat else min i.toNat len

/-- ECMAScript: `slice(start, end)`. -/
def esSlice (cs : List Char) (start : Int) (e : Option Int) : List Char :=
  let a := esFrom cs.length start
  let b := match e with | none => cs.length | some e => esFrom cs.length e
  (cs.drop a).take (b - a)

/-- **C59**: `substring(start)` on a text, for every start that is not negative. -/
theorem C59_substring_to_end_partial (cs : List Char) (h : NoNul cs) (n : Nat) :
    substring (enc cs) n none = some (enc (esSubstring cs n none)) := by
  have h1 := C07_substr_to_end cs h n
  have h2 : esSubstring cs n none = cs.drop n := by
    unfold esSubstring clamp
    simp only [Int.toNat_natCast]
    by_cases hn : n ≤ cs.length
    · have e1 : min (min n cs.length) cs.length = n := by omega
      have e2 : max (min n cs.length) cs.length = cs.length := by omega
      rw [e1, e2, List.take_of_length_le (by simp)]
    · rw [List.drop_eq_nil_of_le (by omega), List.drop_eq_nil_of_le (by omega)]; simp
  rw [h2]
  exact h1

theorem esSubstring_mid (cs : List Char) (a b : Nat) (h : a ≤ b) :
    esSubstring cs a (some (b : Int)) = (cs.drop a).take (b - a) := by
  unfold esSubstring clamp
  simp only [Int.toNat_natCast]
  by_cases ha : a ≤ cs.length
  · have e1 : min (min a cs.length) (min b cs.length) = a := by omega
    have e2 : max (min a cs.length) (min b cs.length) = min b cs.length := by omega
    rw [e1, e2, List.take_eq_take_iff]
    simp only [List.length_drop]; omega
  · rw [List.drop_eq_nil_of_le (by omega), List.drop_eq_nil_of_le (by omega)]; simp

/-- What `substring(a, b)` does on an ASCII text: the character at `b` is included. -/
theorem substring_ascii (cs : List Char) (h : Ascii cs) (a b : Nat) (hab : a ≤ b) :
    substring (enc cs) a (some b) = some (enc ((cs.drop a).take (b + 1 - a))) := by
  unfold substring
  simp only []
  rw [numUtfChars_enc cs h.noNul]
  by_cases hb : (b : Int) > cs.length
  · rw [if_pos hb]
    by_cases ha : ((cs.length : Int) < a)
    · rw [if_pos ha, List.drop_eq_nil_of_le (by omega)]; simp [enc]
    · rw [if_neg ha, if_pos h.len.symm]
      have e : (cs.length : Int) - a + 1 = ((cs.length - a + 1 : Nat) : Int) := by omega
      rw [e, substrDup_ascii cs h.one a _ (by omega)]
      congr 2
      rw [List.take_eq_take_iff]; simp only [List.length_drop]; omega
  · rw [if_neg hb, if_neg (by omega), if_pos h.len.symm]
    have e : (b : Int) - a + 1 = ((b + 1 - a : Nat) : Int) := by omega
    rw [e, substrDup_ascii cs h.one a _ (by omega)]

/-- **C59**: `substring(start, end)` on an ASCII text when the end is at or beyond the end of the text. -/
theorem C59_substring_partial (cs : List Char) (h : Ascii cs) (a b : Nat) (hab : a ≤ b) (hb : cs.length ≤ b) :
    substring (enc cs) a (some b) = some (enc (esSubstring cs a (some (b : Int)))) := by
  rw [substring_ascii cs h a b hab, esSubstring_mid cs a b hab]
  congr 2
  rw [List.take_eq_take_iff]; simp only [List.length_drop]; omega

/-- **C59 refuted**: for every ASCII text and every end within it, `substring(a, b)` is ECMAScript's
`substring(a, b + 1)`: one character more than asked for. -/
theorem C59_substring_end_refuted (cs : List Char) (h : Ascii cs) (a b : Nat) (hab : a ≤ b) (hb : b < cs.length) :
    substring (enc cs) a (some b) = some (enc (esSubstring cs a (some ((b + 1 : Nat) : Int)))) ∧
    (esSubstring cs a (some ((b + 1 : Nat) : Int))).length = (esSubstring cs a (some (b : Int))).length + 1 := by
  rw [substring_ascii cs h a b hab, esSubstring_mid cs a b hab, esSubstring_mid cs a (b + 1) (by omega)]
  refine ⟨rfl, ?_⟩
  simp only [List.length_take, List.length_drop]; omega

/-- **C59 refuted**: with the end before the start the result is empty (ECMAScript exchanges them), for every
string. -/
theorem C59_substring_swap_refuted (s : Bytes) (a b : Nat) (h : b < a) : substring s a (some b) = some [] := by
  unfold substring
  simp only []
  rw [if_pos]
  split <;> omega

theorem substring_ex : substring (asc "abc") 0 (some 1) = some (asc "ab") ∧ esSubstring ['a', 'b', 'c'] 0 (some 1) = ['a'] ∧
    substring (asc "abc") (-1) none = some (asc "c") ∧ esSubstring ['a', 'b', 'c'] (-1) none = ['a', 'b', 'c'] ∧
    esSubstring ['a', 'b', 'c'] 2 (some 0) = ['a', 'b'] := by decide +kernel

/-- **C59 refuted**: a negative start counts from the end (ECMAScript: it is 0). -/
theorem C59_substring_negative_refuted : substring (asc "abc") (-1) none = some (asc "c") ∧
    esSubstring ['a', 'b', 'c'] (-1) none = ['a', 'b', 'c'] := ⟨substring_ex.2.2.1, substring_ex.2.2.2.1⟩

theorem strlen_enc' {cs : List Char} (h : NoNul cs) : strlen (enc cs) = (enc cs).length :=
  strlen_enc _ (enc_ne_zero cs h)

theorem enc_len_ge {cs : List Char} (h : NoNul cs) : cs.length ≤ (enc cs).length := by
  induction cs with
  | nil => simp
  | cons c cs ih =>
    obtain ⟨b, t, he, -⟩ := enc1_shape c (h c (by simp))
    have := ih h.tail
    simp [enc_cons, he]; omega

/-- **C59**: `slice(start)` on any text, for a start within it. -/
theorem C59_slice_to_end_partial (cs : List Char) (h : NoNul cs) (n : Nat) (hn : n < cs.length) :
    slice (enc cs) n none = some (enc (esSlice cs n none)) := by
  have hge := enc_len_ge h
  unfold slice
  simp only []
  rw [strlen_enc' h]
  have e1 : sliceStart (enc cs).length n = ((n : Nat) : Int) := by
    unfold sliceStart
    simp only []
    rw [if_neg (show ¬ ((n : Int) < 0) by omega), if_neg (show ¬ ((n : Int) < 0) by omega), if_neg (by omega)]
  rw [e1]
  have e2 : sliceEnd (enc cs).length n none = ((enc cs).length : Int) := rfl
  rw [e2, utfSubstr_exact cs h]
  have e3 : cs.drop (n + (enc cs).length) = [] := List.drop_eq_nil_of_le (by omega)
  rw [e3, List.take_of_length_le (by rw [List.length_drop]; omega)]
  have e4 : esSlice cs n none = cs.drop n := by
    unfold esSlice esFrom
    simp only []
    rw [if_neg (by omega), Int.toNat_natCast, Nat.min_eq_left (by omega), List.take_of_length_le (by simp)]
  rw [e4]
  simp [enc]

theorem slice_ascii (cs : List Char) (h : Ascii cs) (start : Int) (e : Option Int) (hne : cs ≠ []) :
    slice (enc cs) start e = some (enc ((cs.drop (sliceStart cs.length start).toNat).take
      (sliceEnd cs.length (sliceStart cs.length start) e).toNat)) := by
  have hpos : 0 < cs.length := List.length_pos_iff.2 hne
  unfold slice
  simp only []
  rw [strlen_enc' h.noNul, h.len]
  have h0 : 0 ≤ sliceStart cs.length start := by
    unfold sliceStart
    simp only []
    split <;> split <;> (try split) <;> omega
  have h1 : 0 ≤ sliceEnd cs.length (sliceStart cs.length start) e := by
    unfold sliceEnd
    cases e with
    | none => simp
    | some e => simp only []; split <;> (try split) <;> (try split) <;> omega
  generalize hs : sliceStart cs.length start = i at *
  generalize hl : sliceEnd cs.length i e = l at *
  obtain ⟨n, rfl⟩ := Int.eq_ofNat_of_zero_le h0
  obtain ⟨m, rfl⟩ := Int.eq_ofNat_of_zero_le h1
  rw [utfSubstr_exact cs h.noNul, h.firstLen]
  simp

/-- **C59**: on an ASCII text `slice(start, end)` is right when the start denotes a position within the text
and either that position is 0 or the end is at or beyond the end of the text. -/
theorem C59_slice_partial (cs : List Char) (h : Ascii cs) (start : Int) (e : Option Int)
    (hs : esFrom cs.length start < cs.length)
    (he : esFrom cs.length start = 0 ∨ e = none ∨ ∃ k : Int, e = some k ∧ (cs.length : Int) ≤ k) :
    slice (enc cs) start e = some (enc (esSlice cs start e)) := by
  have hne : cs ≠ [] := by intro h0; rw [h0] at hs; simp at hs
  rw [slice_ascii cs h start e hne]
  have e1 : (sliceStart cs.length start) = (esFrom cs.length start : Nat) := by
    unfold sliceStart
    unfold esFrom at hs ⊢
    simp only []
    split at hs <;> split <;> (try split) <;> (try split) <;> omega
  rw [e1, Int.toNat_natCast]
  congr 2
  unfold esSlice
  simp only []
  rcases e with _ | k
  · have e2 : sliceEnd cs.length (esFrom cs.length start : Nat) none = (cs.length : Int) := rfl
    rw [e2, List.take_eq_take_iff]
    simp only [List.length_drop]; omega
  · rw [List.take_eq_take_iff]
    simp only [List.length_drop]
    have e2 : (sliceEnd cs.length (esFrom cs.length start : Nat) (some k)).toNat = max (esFrom cs.length start) (esFrom cs.length k) := by
      unfold sliceEnd
      simp only []
      by_cases hk : k < 0
      · have ek : esFrom cs.length k = (cs.length + k).toNat := by unfold esFrom; rw [if_pos hk]
        rw [if_pos hk, ek]
        split <;> (try split) <;> omega
      · have ek : esFrom cs.length k = min k.toNat cs.length := by unfold esFrom; rw [if_neg hk]
        rw [if_neg hk, ek]
        split <;> (try split) <;> omega
    rw [e2]
    rcases he with he | he | ⟨k', he, hk'⟩
    · omega
    · cases he
    · cases he
      have ek : esFrom cs.length k = min k.toNat cs.length := by unfold esFrom; rw [if_neg (by omega)]
      omega

/-- **C59 refuted**: on every ASCII text, for a start `a` within it and an end `b` from there to the end,
`slice(a, b)` is ECMAScript's `slice(a, a + b)`: the end is taken as a length. -/
theorem C59_slice_end_refuted (cs : List Char) (h : Ascii cs) (a b : Nat) (ha : a < cs.length) (hab : a ≤ b)
    (hb : b ≤ cs.length) :
    slice (enc cs) a (some b) = some (enc (esSlice cs a (some ((a + b : Nat) : Int)))) := by
  have hne : cs ≠ [] := by intro h0; rw [h0] at ha; simp at ha
  rw [slice_ascii cs h a (some b) hne]
  have e1 : sliceStart cs.length a = (a : Nat) := by
    unfold sliceStart
    simp only []
    rw [if_neg (show ¬ ((a : Int) < 0) by omega), if_neg (show ¬ ((a : Int) < 0) by omega), if_neg (by omega)]
  rw [e1]
  have e2 : sliceEnd cs.length a (some b) = (b : Nat) := by
    unfold sliceEnd
    simp only []
    rw [if_neg (show ¬ ((b : Int) < 0) by omega)]
    split <;> split <;> omega
  rw [e2, Int.toNat_natCast, Int.toNat_natCast]
  congr 2
  unfold esSlice esFrom
  simp only []
  rw [if_neg (by omega), if_neg (by omega), Int.toNat_natCast, Int.toNat_natCast,
    show min a cs.length = a by omega, List.take_eq_take_iff]
  simp only [List.length_drop]; omega

/-- **C59 refuted**: with a start at or beyond the end `slice` gives the last character (ECMAScript: nothing),
for every ASCII text. -/
theorem C59_slice_beyond_refuted (cs : List Char) (c : Char) (h : Ascii (cs ++ [c])) (a : Nat) (ha : (cs ++ [c]).length ≤ a) :
    slice (enc (cs ++ [c])) a none = some (enc [c]) ∧ esSlice (cs ++ [c]) a none = [] := by
  constructor
  · rw [slice_ascii _ h _ _ (by simp)]
    simp only [List.length_append, List.length_singleton] at *
    have e1 : sliceStart (cs.length + 1) a = (cs.length : Nat) := by
      unfold sliceStart
      simp only []
      rw [if_neg (show ¬ ((a : Int) < 0) by omega), if_neg (show ¬ ((a : Int) < 0) by omega), if_pos (by omega)]
      omega
    rw [e1]
    have e2 : sliceEnd (cs.length + 1) (cs.length : Nat) none = ((cs.length + 1 : Nat) : Int) := rfl
    rw [e2, Int.toNat_natCast, Int.toNat_natCast, List.drop_left' rfl]
    simp
  · unfold esSlice esFrom
    simp only []
    rw [if_neg (by omega), Int.toNat_natCast, Nat.min_eq_right ha, Nat.sub_self, List.take_zero]

example : slice (asc "abcd") 1 (some 2) = some (asc "bc") ∧ esSlice ['a', 'b', 'c', 'd'] 1 (some 2) = ['b'] ∧
    slice (asc "abcd") (-2) none = some (asc "cd") ∧ slice (asc "abcd") 0 (some (-1)) = some (asc "abc") ∧
    slice (asc "abcd") 7 none = some (asc "d") ∧ slice (asc "") 0 none = some [] := by decide +kernel

/-! ### C60 -/

/-- **C60, replace**: the first occurrence of the string is replaced by the other, nothing else changes; for
all strings (`s` and `sub` without NUL). -/
theorem C60_replace_partial (s sub r : Bytes) (h1 : noNul s) (h2 : noNul sub) :
    (¬ sub <:+: s ∧ replace s sub (.str r) = s) ∨
    ∃ i : Nat, First s sub 0 i ∧ replace s sub (.str r) = s.take i ++ r ++ s.drop (i + sub.length) := by
  have hf := C58_search_partial s sub h1 h2
  unfold search at hf
  unfold replace
  simp only []
  rw [cstr_eq h1, cstr_eq h2] at *
  cases hr : strstr sub s with
  | none => exact Or.inl ⟨strstr_none hr, rfl⟩
  | some n =>
    rw [hr] at hf
    exact Or.inr ⟨n, hf, rfl⟩

/-- **C60 refuted**: a replacing function gets the whole string, not what was found, for all strings. -/
theorem C60_replace_fn_refuted (s sub : Bytes) (f : Bytes → Bytes) (h1 : noNul s) (h2 : noNul sub) (hf : noNul (f s))
    (hs : sub <:+: s) : ∃ i : Nat, First s sub 0 i ∧ replace s sub (.fn f) = s.take i ++ f s ++ s.drop (i + sub.length) := by
  have hfirst := C58_search_partial s sub h1 h2
  unfold search at hfirst
  unfold replace
  simp only []
  rw [cstr_eq h1, cstr_eq h2] at *
  cases hr : strstr sub s with
  | none => exact absurd hs (strstr_none hr)
  | some n =>
    rw [hr] at hfirst
    simp only [cstr_eq hf]
    exact ⟨n, hfirst, rfl⟩

/-- `n` copies of `s`. -/
def copies (s : Bytes) : Nat → Bytes
  | 0 => []
  | n + 1 => s ++ copies s n

/-- **C60, repeat**: `repeat(n)` is `n` copies, for all strings but the empty one. -/
theorem C60_repeat_partial (s : Bytes) (n : Nat) (h : s ≠ []) : «repeat» s n = some (copies s n) := by
  unfold «repeat»
  rw [if_neg (by
    rintro (h1 | h1)
    · omega
    · exact h (List.length_eq_zero_iff.1 h1))]
  congr 1
  rw [Int.toNat_natCast]
  induction n with
  | zero => rfl
  | succ n ih => rw [List.replicate_succ, List.flatten_cons, ih]; rfl

/-- **C60 refuted**: the empty string cannot be repeated (ECMAScript gives the empty string). -/
theorem C60_repeat_empty_refuted (n : Int) : «repeat» [] n = none := by
  unfold «repeat»
  simp

/-- **C60, concat**: the strings one after the other; those given as arguments may contain NUL. -/
theorem C60_concat_partial (s : Bytes) (args : List Bytes) (h : noNul s) : concat s args = (s :: args).flatten := by
  unfold concat
  rw [cstr_eq h]; rfl

/-- **C60 refuted**: what follows a NUL in the string itself is lost. -/
theorem C60_concat_nul_refuted : concat [97, 0, 98] [[99]] = [97, 99] := by decide +kernel

/-- Comparison of bytes with case. -/
def sameByte (x y : UInt8) : Bool := decide (x = y)

theorem zip_prefix : ∀ (a s : Bytes), (a.length ≤ s.length ∧ (List.zipWith sameByte a s).all id = true) ↔ a <+: s
  | [], s => by simp
  | x :: a, [] => by simp
  | x :: a, y :: s => by
    have := zip_prefix a s
    simp only [sameByte, List.zipWith_cons_cons, List.all_cons, List.length_cons, id, Bool.and_eq_true, decide_eq_true_eq,
      List.cons_prefix_cons, Nat.add_le_add_iff_right]
    constructor
    · rintro ⟨h1, h2, h3⟩; exact ⟨h2, this.1 ⟨h1, h3⟩⟩
    · rintro ⟨h1, h2⟩; exact ⟨(this.2 h2).1, h1, (this.2 h2).2⟩

theorem mapFind_nothing (s : Bytes) : ∀ l : List (Bytes × Bytes), (∀ p ∈ l, p.1 ≠ [] ∧ ¬ p.1 <+: s) →
    mapFind sameByte s l = .nothing
  | [], _ => rfl
  | (a, b) :: l, h => by
    have h1 := h (a, b) (by simp)
    rw [mapFind, if_neg h1.1, if_neg (fun hc => h1.2 ((zip_prefix a s).1 hc))]
    exact mapFind_nothing s l (fun p hp => h p (List.mem_cons_of_mem _ hp))

/-- The first pair in the list whose source is at the beginning of `s`. -/
theorem mapFind_pair (s a b : Bytes) (l1 l2 : List (Bytes × Bytes)) (h : ∀ p ∈ l1, p.1 ≠ [] ∧ ¬ p.1 <+: s)
    (ha : a ≠ []) (hs : a <+: s) : mapFind sameByte s (l1 ++ (a, b) :: l2) = .pair a b := by
  induction l1 with
  | nil =>
    rw [List.nil_append, mapFind, if_neg ha, if_pos ((zip_prefix a s).2 hs)]
  | cons p l1 ih =>
    have h1 := h p (by simp)
    obtain ⟨x, y⟩ := p
    rw [List.cons_append, mapFind, if_neg h1.1, if_neg (fun hc => h1.2 ((zip_prefix x s).1 hc))]
    exact ih (fun q hq => h q (List.mem_cons_of_mem _ hq))

/-- `Subst l s r`: reading `s` from the left, at each position the first pair of `l` whose source is there is
replaced by its target, and reading goes on after the source; other bytes are kept. -/
inductive Subst (l : List (Bytes × Bytes)) : Bytes → Bytes → Prop
  | done : Subst l [] []
  | keep (c : UInt8) (s r : Bytes) : (∀ p ∈ l, ¬ p.1 <+: c :: s) → Subst l s r → Subst l (c :: s) (c :: r)
  | hit (a b s r : Bytes) (l1 l2 : List (Bytes × Bytes)) : l = l1 ++ (a, b) :: l2 → a ≠ [] →
      (∀ p ∈ l1, ¬ p.1 <+: a ++ s) → Subst l s r → Subst l (a ++ s) (b ++ r)

theorem mapLoop_subst {l : List (Bytes × Bytes)} (hl : ∀ p ∈ l, p.1 ≠ []) {s r : Bytes} (h : Subst l s r) :
    ∀ fuel, s.length ≤ fuel → mapLoop sameByte l fuel s = some r := by
  induction h with
  | done =>
    intro fuel _
    cases fuel <;> rfl
  | keep c s r hn _ ih =>
    intro fuel hf
    obtain ⟨f, rfl⟩ : ∃ f, fuel = f + 1 := ⟨fuel - 1, by simp at hf; omega⟩
    rw [mapLoop, mapFind_nothing _ _ (fun p hp => ⟨hl p hp, hn p hp⟩)]
    simp only []
    rw [ih f (by simp at hf; omega)]; rfl
  | hit a b s r l1 l2 he ha hn _ ih =>
    intro fuel hf
    obtain ⟨x, a', rfl⟩ := List.exists_cons_of_ne_nil ha
    obtain ⟨f, rfl⟩ : ∃ f, fuel = f + 1 := ⟨fuel - 1, by simp at hf; omega⟩
    have hm : mapFind sameByte (x :: a' ++ s) l = .pair (x :: a') b := by
      conv => lhs; arg 3; rw [he]
      exact mapFind_pair _ _ _ _ _ (fun p hp => ⟨hl p (by rw [he]; simp [hp]), hn p hp⟩) ha (List.prefix_append _ _)
    rw [List.cons_append] at hm ⊢
    rw [mapLoop, hm]
    simp only []
    have hd : (x :: (a' ++ s)).drop (x :: a').length = s := by
      rw [← List.cons_append, List.drop_left' rfl]
    rw [hd, ih f (by simp at hf; omega)]; rfl

/-- **C60, map**: `map` replaces from the left, the first pair that matches at each position, without looking
at what was put in, for all strings and all lists of pairs with sources that are not empty. -/
theorem C60_map (l : List (Bytes × Bytes)) (hl : ∀ p ∈ l, p.1 ≠ []) (s r : Bytes) (h : Subst l s r) :
    map sameByte s l = some r := mapLoop_subst hl h _ (Nat.le_refl _)

/-- Every string has such a reading, so `map` never fails. -/
theorem C60_map_total (l : List (Bytes × Bytes)) (hl : ∀ p ∈ l, p.1 ≠ []) (s : Bytes) : ∃ r, Subst l s r ∧ map sameByte s l = some r := by
  suffices h : ∀ n s, s.length ≤ n → ∃ r, Subst l s r by
    obtain ⟨r, hr⟩ := h s.length s (Nat.le_refl _)
    exact ⟨r, hr, C60_map l hl s r hr⟩
  intro n
  induction n with
  | zero =>
    intro s hs
    have : s = [] := List.length_eq_zero_iff.1 (by omega)
    subst this
    exact ⟨[], .done⟩
  | succ n ih =>
    intro s hs
    cases s with
    | nil => exact ⟨[], .done⟩
    | cons c s =>
      by_cases hx : ∃ p ∈ l, p.1 <+: c :: s
      · have : ∃ l1 p l2, l = l1 ++ p :: l2 ∧ p.1 <+: c :: s ∧ ∀ q ∈ l1, ¬ q.1 <+: c :: s := by
          clear hl
          induction l with
          | nil => obtain ⟨p, hp, -⟩ := hx; cases hp
          | cons q l ih2 =>
            by_cases hq : q.1 <+: c :: s
            · exact ⟨[], q, l, rfl, hq, by simp⟩
            · have hx2 : ∃ p ∈ l, p.1 <+: c :: s := by
                obtain ⟨p, hp, hp2⟩ := hx
                rcases List.mem_cons.1 hp with rfl | hp
                · exact absurd hp2 hq
                · exact ⟨p, hp, hp2⟩
              have key : ∃ l1 p l2, l = l1 ++ p :: l2 ∧ p.1 <+: c :: s ∧ ∀ q ∈ l1, ¬ q.1 <+: c :: s := by
                clear ih2 hx ih
                induction l with
                | nil => obtain ⟨p, hp, -⟩ := hx2; cases hp
                | cons q' l ih3 =>
                  by_cases hq' : q'.1 <+: c :: s
                  · exact ⟨[], q', l, rfl, hq', by simp⟩
                  · obtain ⟨l1, p, l2, h1, h2, h3⟩ := ih3 (by
                      obtain ⟨p, hp, hp2⟩ := hx2
                      rcases List.mem_cons.1 hp with rfl | hp
                      · exact absurd hp2 hq'
                      · exact ⟨p, hp, hp2⟩)
                    exact ⟨q' :: l1, p, l2, by rw [h1]; rfl, h2, by
                      intro r hr
                      rcases List.mem_cons.1 hr with rfl | hr
                      · exact hq'
                      · exact h3 r hr⟩
              obtain ⟨l1, p, l2, h1, h2, h3⟩ := key
              exact ⟨q :: l1, p, l2, by rw [h1]; rfl, h2, by
                intro r hr
                rcases List.mem_cons.1 hr with rfl | hr
                · exact hq
                · exact h3 r hr⟩
        obtain ⟨l1, ⟨a, b⟩, l2, h1, ⟨t, ht⟩, h3⟩ := this
        have ha : a ≠ [] := hl (a, b) (by rw [h1]; simp)
        have hlen := congrArg List.length ht
        have := List.length_pos_iff.2 ha
        obtain ⟨r, hr⟩ := ih t (by simp at hlen hs; omega)
        exact ⟨b ++ r, by
          rw [← ht]
          exact .hit a b t r l1 l2 h1 ha (by intro p hp; rw [ht]; exact h3 p hp) hr⟩
      · obtain ⟨r, hr⟩ := ih s (by simp at hs; omega)
        exact ⟨c :: r, .keep c s r (fun p hp hpp => hx ⟨p, hp, hpp⟩) hr⟩

/-- A string in which no source occurs is unchanged. -/
theorem C60_map_identity (l : List (Bytes × Bytes)) (hl : ∀ p ∈ l, p.1 ≠ []) (s : Bytes) (h : ∀ p ∈ l, ¬ p.1 <:+: s) :
    map sameByte s l = some s := by
  apply C60_map l hl
  induction s with
  | nil => exact .done
  | cons c s ih =>
    refine .keep c s s (fun p hp hpp => h p hp hpp.isInfix) (ih fun p hp hpp => h p hp ?_)
    exact hpp.trans (List.suffix_cons c s).isInfix

/-- **C60 refuted**: an empty source is only noticed when the string is not empty. -/
theorem C60_map_empty_refuted (b : Bytes) (c : UInt8) (s : Bytes) : map sameByte [] [([], b)] = some [] ∧
    map sameByte (c :: s) [([], b)] = none := ⟨rfl, rfl⟩

example : replace (asc "banana") (asc "an") (.str (asc "AN")) = asc "bANana" ∧
    replace (asc "abc") (asc "b") (.fn id) = asc "aabcc" ∧ «repeat» (asc "ab") 3 = some (asc "ababab") ∧
    concat (asc "a") [asc "b", [0], asc "c"] = [97, 98, 0, 99] ∧
    map sameByte (asc "abcab") [(asc "ab", asc "x"), (asc "a", asc "y"), (asc "c", asc "ab")] = some (asc "xabx") ∧
    (∀ p ∈ [(asc "ab", asc "x"), (asc "a", asc "y"), (asc "c", asc "ab")], p.1 ≠ []) := by decide +kernel

end Verif.Str
