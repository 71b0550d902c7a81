import Verif.Str.Split
import Verif.Utf8.Props
import Mathlib.Data.List.DropRight

/-!
C56 trim, C57 case, C58 searches, C59 substring and slice, C60 replace, map, concat, repeat.
-/

namespace Verif.Str

open Verif.Utf8

/-! ### C56 trim -/

theorem trimL_eq (t : Bytes) (ht : 0 ∉ t) (s : Bytes) : trimL t s = s.dropWhile (· ∈ t) := by
  induction s with
  | nil => rfl
  | cons c s ih =>
    rw [trimL, List.dropWhile_cons]
    by_cases h : c ∈ t
    · have : c ≠ 0 := fun h0 => ht (h0 ▸ h)
      rw [if_neg this, if_pos h, ih]; simp [h]
    · simp [h]

theorem trimR_eq (t : Bytes) (s : Bytes) : ∀ k, k ≤ s.length →
    s.take (trimR t s k) = (s.take k).rdropWhile (· ∈ t)
  | 0, _ => by simp [trimR]
  | k + 1, hk => by
    have h1 : s[k]? = some s[k] := List.getElem?_eq_getElem (by omega)
    rw [trimR, h1]
    simp only []
    have h2 : s.take (k + 1) = s.take k ++ [s[k]] := by rw [List.take_add_one, h1]; rfl
    rw [h2]
    by_cases h : s[k] ∈ t
    · rw [if_pos h, List.rdropWhile_concat_pos _ _ _ (by simp [h]), trimR_eq t s k (by omega)]
    · rw [if_neg h, List.rdropWhile_concat_neg _ _ _ (by simp [h]), h2]

/-- What `trim(chars)` should remove: bytes of `chars`, or white space. -/
def trimSet (chars : Option Bytes) : Bytes := match chars with | none => asc " \t\n\r" | some c => c

/-- **C56**: `trim`, `trimLeft`, `trimRight` remove exactly the leading and/or trailing bytes of the set,
for every string (NUL bytes included) and every set without NUL. -/
theorem C56_trim (left right : Bool) (s : Bytes) (chars : Option Bytes) (hc : noNul (trimSet chars)) :
    trim left right s chars =
      let v := if left then s.dropWhile (· ∈ trimSet chars) else s
      if right then v.rdropWhile (· ∈ trimSet chars) else v := by
  have ht : trimChars chars = trimSet chars := by
    cases chars with
    | none => rfl
    | some c => exact cstr_eq hc
  unfold trim
  simp only [ht]
  have h0 : (0 : UInt8) ∉ trimSet chars := fun h => hc 0 h rfl
  rw [trimL_eq _ h0]
  generalize (if left = true then List.dropWhile (fun x => decide (x ∈ trimSet chars)) s else s) = v
  cases right with
  | false => simp
  | true =>
    simp only [if_true]
    rw [trimR_eq _ _ _ (Nat.le_refl _), List.take_length]

/-- **C56 refuted** for sets with characters beyond ASCII, of which single bytes are removed:
trimming `"è"` of `"é"` leaves half a character. -/
theorem C56_utf8_refuted : trim true true [0xc3, 0xa8] (some [0xc3, 0xa9]) = [0xa8] := by decide +kernel

theorem encChar_ascii (c : Char) (h : c.toNat < 128) : String.utf8EncodeChar c = [UInt8.ofNat c.toNat] := by
  have hv : c.val.toNat = c.toNat := rfl
  unfold String.utf8EncodeChar
  simp only [hv]
  rw [if_pos (by omega)]

/-- The bytes of a character beyond ASCII are all above 127. -/
theorem encChar_high (c : Char) (h : ¬ c.toNat < 128) : ∀ b ∈ String.utf8EncodeChar c, ¬ b < 128 := by
  intro b hb
  have hv : c.val.toNat = c.toNat := rfl
  unfold String.utf8EncodeChar at hb
  simp only [hv] at hb
  rw [if_neg (by omega)] at hb
  have a1 : ∀ n : Fin 64, ¬ (UInt8.ofNat n.1 + 128 < 128) := by decide +kernel
  have a2 : ∀ n : Fin 32, ¬ (UInt8.ofNat n.1 + 192 < 128) := by decide +kernel
  have a3 : ∀ n : Fin 16, ¬ (UInt8.ofNat n.1 + 224 < 128) := by decide +kernel
  have a4 : ∀ n : Fin 8, ¬ (UInt8.ofNat n.1 + 240 < 128) := by decide +kernel
  split at hb
  · simp at hb
    rcases hb with rfl | rfl
    · exact a2 ⟨c.toNat / 64 % 32, by omega⟩
    · exact a1 ⟨c.toNat % 64, by omega⟩
  · split at hb
    · simp at hb
      rcases hb with rfl | rfl | rfl
      · exact a3 ⟨c.toNat / 4096 % 16, by omega⟩
      · exact a1 ⟨c.toNat / 64 % 64, by omega⟩
      · exact a1 ⟨c.toNat % 64, by omega⟩
    · simp at hb
      rcases hb with rfl | rfl | rfl | rfl
      · exact a4 ⟨c.toNat / 262144 % 8, by omega⟩
      · exact a1 ⟨c.toNat / 4096 % 64, by omega⟩
      · exact a1 ⟨c.toNat / 64 % 64, by omega⟩
      · exact a1 ⟨c.toNat % 64, by omega⟩

theorem encChar_ne_nil (c : Char) : String.utf8EncodeChar c ≠ [] := by
  intro h
  have := String.length_utf8EncodeChar c
  rw [h] at this
  have := Char.utf8Size_pos c
  simp at *

/-- A character is one of the set of bytes: it is ASCII and its byte is in the set. -/
def inSet (t : Bytes) (c : Char) : Bool := decide (c.toNat < 128) && decide (UInt8.ofNat c.toNat ∈ t)

theorem dropWhile_enc (t : Bytes) (ht : ∀ b ∈ t, b < 128) (cs : List Char) :
    (enc cs).dropWhile (· ∈ t) = enc (cs.dropWhile (inSet t)) := by
  induction cs with
  | nil => rfl
  | cons c cs ih =>
    rw [enc_cons, List.dropWhile_cons]
    by_cases h : c.toNat < 128
    · rw [encChar_ascii c h, List.singleton_append, List.dropWhile_cons]
      by_cases h1 : UInt8.ofNat c.toNat ∈ t
      · rw [if_pos (by simp [h1]), if_pos (by simp [inSet, h, h1]), ih]
      · rw [if_neg (by simp [h1]), if_neg (by simp [inSet, h1]), enc_cons, encChar_ascii c h]; rfl
    · rw [if_neg (by simp [inSet, h]), enc_cons]
      have hb := encChar_high c h
      have hn := encChar_ne_nil c
      revert hb hn
      generalize String.utf8EncodeChar c = u
      intro hb hn
      cases u with
      | nil => exact absurd rfl hn
      | cons b u =>
        have : b ∉ t := fun h => hb b (by simp) (ht b h)
        rw [List.cons_append, List.dropWhile_cons, if_neg (by simp [this])]

theorem rdropWhile_enc (t : Bytes) (ht : ∀ b ∈ t, b < 128) (cs : List Char) :
    (enc cs).rdropWhile (· ∈ t) = enc (cs.rdropWhile (inSet t)) := by
  induction cs using List.reverseRecOn with
  | nil => rfl
  | append_singleton cs c ih =>
    rw [enc_append, show enc [c] = String.utf8EncodeChar c by simp [enc]]
    by_cases h : c.toNat < 128
    · rw [encChar_ascii c h]
      by_cases h1 : UInt8.ofNat c.toNat ∈ t
      · rw [List.rdropWhile_concat_pos _ _ _ (by simp [h1]), List.rdropWhile_concat_pos _ _ _ (by simp [inSet, h, h1]), ih]
      · rw [List.rdropWhile_concat_neg _ _ _ (by simp [h1]), List.rdropWhile_concat_neg _ _ _ (by simp [inSet, h1]),
          enc_append, show enc [c] = String.utf8EncodeChar c by simp [enc], encChar_ascii c h]
    · rw [List.rdropWhile_concat_neg _ _ _ (by simp [inSet, h]), enc_append,
        show enc [c] = String.utf8EncodeChar c by simp [enc]]
      have hb := encChar_high c h
      have hn := encChar_ne_nil c
      revert hb hn
      generalize String.utf8EncodeChar c = u
      intro hb hn
      rcases List.eq_nil_or_concat u with h0 | ⟨u', b, h0⟩
      · exact absurd h0 hn
      · rw [List.concat_eq_append] at h0
        subst h0
        have : b ∉ t := fun h => hb b (by simp) (ht b h)
        rw [← List.append_assoc, List.rdropWhile_concat_neg _ _ _ (by simp [this])]

/-- **C56**: on a UTF-8 text, with a set of ASCII characters, whole characters are removed. -/
theorem C56_trim_chars (cs : List Char) (chars : Option Bytes) (hc : noNul (trimSet chars))
    (ha : ∀ b ∈ trimSet chars, b < 128) :
    trim true true (enc cs) chars =
      enc ((cs.dropWhile (inSet (trimSet chars))).rdropWhile (inSet (trimSet chars))) := by
  rw [C56_trim true true _ _ hc]
  simp only [if_true]
  rw [dropWhile_enc _ ha, rdropWhile_enc _ ha]

example : trim true true (asc "  a b\n") none = asc "a b" ∧ noNul (trimSet none) ∧ ∀ b ∈ trimSet none, b < 128 := by
  refine ⟨by decide +kernel, ?_, ?_⟩
  · intro c hc; revert c; decide +kernel
  · intro c hc; revert c; decide +kernel

/-! ### C57 case -/

/-- What the methods should do to one character: ASCII letters change. -/
def upChar (up : Case) (c : Char) : Char := if up = .lower then c.toLower else c.toUpper

/-- The specification of `toLowerCase`, `toUpperCase` and `toTitle` (the first character in upper case, the
others in lower case). -/
def caseText : Case → List Char → List Char
  | .lower, cs => cs.map Char.toLower
  | .upper, cs => cs.map Char.toUpper
  | .title, [] => []
  | .title, c :: cs => c.toUpper :: cs.map Char.toLower

theorem caseText_nil (up : Case) : caseText up [] = [] := by cases up <;> rfl

theorem caseText_cons (up : Case) (c : Char) (cs : List Char) :
    caseText up (c :: cs) = upChar up c :: caseText up.next cs := by cases up <;> rfl

/-- Without the last character if that is beyond ASCII. -/
def dropHigh (cs : List Char) : List Char :=
  match cs.getLast? with
  | some c => if c.toNat < 128 then cs else cs.dropLast
  | none => cs

theorem case_byte : ∀ n : Fin 128, UInt8.ofNat (Char.ofNat n.1).toLower.toNat = tolower (UInt8.ofNat n.1) ∧
    UInt8.ofNat (Char.ofNat n.1).toUpper.toNat = toupper (UInt8.ofNat n.1) ∧
    (Char.ofNat n.1).toLower.toNat < 128 ∧ (Char.ofNat n.1).toUpper.toNat < 128 ∧
    (UInt8.ofNat n.1 &&& 0x80 = 0) ∧ (n.1 ≠ 0 → UInt8.ofNat n.1 ≠ 0) := by decide +kernel

theorem ofNat_toNat (c : Char) : Char.ofNat c.toNat = c := Char.ofNat_toNat c

theorem upChar_high (up : Case) (c : Char) (h : ¬ c.toNat < 128) : upChar up c = c := by
  have hv : c.val.toNat = c.toNat := rfl
  unfold upChar Char.toLower Char.toUpper
  split
  · split
    · rename_i h1
      exfalso
      have := UInt32.le_iff_toNat_le.1 h1.2
      simp at this; omega
    · rfl
  · split
    · rename_i h1
      exfalso
      have := UInt32.le_iff_toNat_le.1 h1.2
      simp at this; omega
    · rfl

theorem high_bit : ∀ n : Fin 256, ¬ (UInt8.ofFin n < 128) → UInt8.ofFin n &&& 0x80 ≠ 0 := by decide +kernel

theorem cstr_append_zero (u : Bytes) (h : ∀ c ∈ u, c ≠ 0) : cstr u = u := cstr_eq h

theorem dropHigh_cons (c d : Char) (cs : List Char) : dropHigh (c :: d :: cs) = c :: dropHigh (d :: cs) := by
  unfold dropHigh
  rw [List.getLast?_cons_cons]
  cases (d :: cs).getLast? with
  | none => rfl
  | some e =>
    simp only []
    split
    · rfl
    · rw [List.dropLast_cons_of_ne_nil (by simp)]

theorem caseLoop_enc : ∀ (cs : List Char) (up : Case) (fuel : Nat), NoNul cs → (enc cs).length ≤ fuel →
    caseLoop fuel up (enc cs).length (enc cs) = some (enc (caseText up (dropHigh cs)))
  | [], up, fuel, _, _ => by
    cases fuel with
    | zero => simp [caseLoop, enc, dropHigh, caseText_nil]
    | succ f => simp [caseLoop, enc, dropHigh, caseText_nil]
  | c :: cs, up, fuel, hn, hf => by
    have hc := hn c (by simp)
    by_cases h : c.toNat < 128
    · have he := encChar_ascii c h
      obtain ⟨f, rfl⟩ : ∃ f, fuel = f + 1 := ⟨fuel - 1, by rw [enc_cons, he] at hf; simp at hf; omega⟩
      have hcb := case_byte ⟨c.toNat, h⟩
      simp only [ofNat_toNat] at hcb
      obtain ⟨q1, q2, q3, q4, q5, q6⟩ := hcb
      rw [enc_cons, he] at hf ⊢
      simp only [List.singleton_append, List.length_cons] at hf ⊢
      rw [caseLoop, if_neg (by omega), rdC_cons_zero]
      simp only [Option.bind_some]
      rw [if_neg (q6 hc), if_neg (by simp [q5])]
      simp only [Nat.add_sub_cancel, List.drop_succ_cons, List.drop_zero]
      rw [caseLoop_enc cs up.next f (fun x hx => hn x (List.mem_cons_of_mem _ hx)) (by omega)]
      have hd : dropHigh (c :: cs) = c :: dropHigh cs := by
        cases cs with
        | nil => simp [dropHigh, h]
        | cons d cs => exact dropHigh_cons c d cs
      rw [hd, caseText_cons, enc_cons]
      simp only [Option.map_some]
      congr 1
      unfold upChar
      by_cases hl : up = .lower
      · rw [if_pos hl, if_pos hl, encChar_ascii _ q3, q1]; rfl
      · rw [if_neg hl, if_neg hl, encChar_ascii _ q4, q2]; rfl
    · obtain ⟨b, t, he, hb0, -, -, -, -⟩ := enc1_shape c hc
      obtain ⟨f, rfl⟩ : ∃ f, fuel = f + 1 := ⟨fuel - 1, by rw [enc_cons, he] at hf; simp at hf; omega⟩
      have hbh : b &&& 0x80 ≠ 0 := by
        have h1 := encChar_high c h b (by rw [he]; simp)
        have := high_bit b.toFin
        simpa using this h1
      have hrd : rdC (enc (c :: cs)) 0 = some b := by
        rw [enc_cons, he, List.cons_append, rdC_cons_zero]
      have hu := utfToUniChar_enc c (enc cs)
      rw [caseLoop, if_neg (by rw [enc_cons, he]; simp), hrd]
      simp only [Option.bind_some]
      rw [if_neg hb0, if_pos hbh, enc_cons, hu]
      simp only [Option.bind_some, C06_encode_is_utf8]
      by_cases hcs : cs = []
      · subst hcs
        rw [if_pos (by simp [enc])]
        simp [dropHigh, h, caseText_nil, enc]
      · have hlen : 0 < (enc cs).length := by
          cases cs with
          | nil => exact absurd rfl hcs
          | cons d cs =>
            rw [enc_cons, List.length_append]
            have := List.length_pos_iff.2 (encChar_ne_nil d)
            omega
        rw [if_neg (by rw [List.length_append]; omega), drop_enc1, List.length_append, Nat.add_sub_cancel_left]
        rw [caseLoop_enc cs up.next f (fun x hx => hn x (List.mem_cons_of_mem _ hx)) (by
          rw [enc_cons, List.length_append] at hf
          have := List.length_pos_iff.2 (encChar_ne_nil c)
          omega)]
        have hd : dropHigh (c :: cs) = c :: dropHigh cs := by
          cases cs with
          | nil => exact absurd rfl hcs
          | cons d cs => exact dropHigh_cons c d cs
        rw [hd, caseText_cons, enc_cons, upChar_high _ _ h]
        simp only [Option.map_some]
        rw [cstr_eq]
        intro x hx
        have := enc_ne_zero [c] (by intro y hy; simp at hy; subst hy; exact hc)
        exact this x (by simpa [enc] using hx)

/-- **C57**: on a UTF-8 text whose last character is ASCII, `toUpperCase`, `toLowerCase` and `toTitle` change
the case of the ASCII letters and nothing else. -/
theorem C57_case_partial (up : Case) (cs : List Char) (h : NoNul cs) (hl : ∀ c, cs.getLast? = some c → c.toNat < 128) :
    toCase up (enc cs) = some (enc (caseText up cs)) := by
  unfold toCase
  rw [caseLoop_enc cs up _ h (Nat.le_refl _)]
  have : dropHigh cs = cs := by
    unfold dropHigh
    cases hg : cs.getLast? with
    | none => rfl
    | some c => simp only []; rw [if_pos (hl c hg)]
  rw [this]

/-- **C57 refuted**: a last character beyond ASCII is lost, in every text. -/
theorem C57_last_char_refuted (up : Case) (cs : List Char) (c : Char) (h : NoNul (cs ++ [c])) (hc : ¬ c.toNat < 128) :
    toCase up (enc (cs ++ [c])) = some (enc (caseText up cs)) := by
  unfold toCase
  rw [caseLoop_enc _ up _ h (Nat.le_refl _)]
  have : dropHigh (cs ++ [c]) = cs := by
    unfold dropHigh
    simp [hc]
  rw [this]

/-- **C57 refuted**: letters beyond ASCII keep their case (`"éa".toUpperCase()` is `"éA"`). -/
theorem C57_accents_refuted : toCase .upper (enc ['é', 'a']) = some (enc ['é', 'A']) := by decide +kernel

example : toCase .upper (asc "abC1") = some (asc "ABC1") ∧ toCase .title (asc "abC1") = some (asc "Abc1") ∧
    enc ['a', 'é', 'b'] = [97, 0xc3, 0xa9, 98] ∧ toCase .upper [97, 0xc3, 0xa9, 98] = some [65, 0xc3, 0xa9, 66] ∧
    toCase .upper [97, 0xc3, 0xa9] = some [65] := by decide +kernel

end Verif.Str
