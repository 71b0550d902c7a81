import Verif.Utf8.Model

/-!
C06, C07. The specification is Lean's own UTF-8 encoding `String.utf8EncodeChar`
(RFC 3629, written with divisions and remainders) and `List.take`/`List.drop` on characters.
-/

namespace Verif.Utf8

/-- The specification of a UTF-8 text: the concatenated encodings of its characters. -/
def enc (cs : List Char) : List UInt8 := cs.flatMap String.utf8EncodeChar

theorem enc_cons (c : Char) (cs : List Char) :
    enc (c :: cs) = String.utf8EncodeChar c ++ enc cs := rfl
theorem enc_append (a b : List Char) : enc (a ++ b) = enc a ++ enc b := by
  simp [enc]

/-! ### Encoding -/

theorem or_add_lo (a x k : Nat) (h : x < 2^k) : (a * 2^k) ||| x = a * 2^k + x := by
  have := Nat.shiftLeft_add_eq_or_of_lt h a
  rw [Nat.shiftLeft_eq] at this; exact this.symm

theorem and_mask (v k : Nat) : v &&& (2^k - 1) = v % 2^k := Nat.and_two_pow_sub_one_eq_mod v k

theorem field (v a b : Nat) : (v &&& ((2^b - 1) <<< a)) >>> a = v / 2^a % 2^b := by
  rw [Nat.shiftRight_and_distrib, Nat.shiftLeft_shiftRight, and_mask, Nat.shiftRight_eq_div_pow]

/-- **C06 (encoding).** Every character is written as its UTF-8 encoding. -/
theorem C06_encode_is_utf8 (c : Char) : uniCharToUtf c.toNat = String.utf8EncodeChar c := by
  have f1 := field c.toNat 6 5
  have f2 := field c.toNat 12 4
  have f3 := field c.toNat 6 6
  have f4 := field c.toNat 18 3
  have f5 := field c.toNat 12 6
  have f0 := and_mask c.toNat 6
  simp only [Nat.reducePow, Nat.reduceSub, Nat.reduceShiftLeft] at f0 f1 f2 f3 f4 f5
  have o1 : ∀ x, x < 64 → (0xc0 ||| x) = x + 0xc0 := fun x hx => by
    have := or_add_lo 3 x 6 hx; simp only [Nat.reducePow, Nat.reduceMul] at this; omega
  have o2 : ∀ x, x < 64 → (0x80 ||| x) = x + 0x80 := fun x hx => by
    have := or_add_lo 2 x 6 hx; simp only [Nat.reducePow, Nat.reduceMul] at this; omega
  have o3 : ∀ x, x < 16 → (0xe0 ||| x) = x + 0xe0 := fun x hx => by
    have := or_add_lo 14 x 4 hx; simp only [Nat.reducePow, Nat.reduceMul] at this; omega
  have o4 : ∀ x, x < 8 → (0xf0 ||| x) = x + 0xf0 := fun x hx => by
    have := or_add_lo 30 x 3 hx; simp only [Nat.reducePow, Nat.reduceMul] at this; omega
  have e : c.val.toNat = c.toNat := rfl
  unfold uniCharToUtf String.utf8EncodeChar
  simp only [e, f0, f1, f2, f3, f4, f5, u8]
  rw [o1 _ (by omega), o2 _ (by omega), o2 _ (by omega), o2 _ (by omega), o3 _ (by omega),
    o4 _ (by omega)]

/-! ### Decoding -/

theorem cont_u8 : ∀ b : Fin 64, isCont (UInt8.ofNat (b.1 + 0x80)) = true ∧
    andNot (UInt8.ofNat (b.1 + 0x80)) 0x80 = b.1 := by decide +kernel
theorem lead2 : ∀ b : Fin 32, ¬ UInt8.ofNat (b.1 + 0xc0) < 0xc0 ∧ UInt8.ofNat (b.1 + 0xc0) < 0xe0 ∧
    andNot (UInt8.ofNat (b.1 + 0xc0)) 0xc0 = b.1 := by decide +kernel
theorem lead3 : ∀ b : Fin 16, ¬ UInt8.ofNat (b.1 + 0xe0) < 0xc0 ∧ ¬ UInt8.ofNat (b.1 + 0xe0) < 0xe0 ∧
    UInt8.ofNat (b.1 + 0xe0) < 0xf0 ∧ andNot (UInt8.ofNat (b.1 + 0xe0)) 0xe0 = b.1 := by
  decide +kernel
theorem lead4 : ∀ b : Fin 8, ¬ UInt8.ofNat (b.1 + 0xf0) < 0xc0 ∧ ¬ UInt8.ofNat (b.1 + 0xf0) < 0xe0 ∧
    ¬ UInt8.ofNat (b.1 + 0xf0) < 0xf0 ∧ UInt8.ofNat (b.1 + 0xf0) < 0xf8 ∧
    andNot (UInt8.ofNat (b.1 + 0xf0)) 0xf0 = b.1 := by decide +kernel
theorem ascii_u8 : ∀ b : Fin 128, UInt8.ofNat b.1 < 0xc0 ∧ (UInt8.ofNat b.1).toNat = b.1 ∧
    isCont (UInt8.ofNat b.1) = false := by
  decide +kernel

theorem shl_or (a x k : Nat) (h : x < 2^k) : (a <<< k) ||| x = a * 2^k + x := by
  rw [Nat.shiftLeft_eq]; exact or_add_lo a x k h

theorem rdC_cons_zero (b : UInt8) (t : List UInt8) : rdC (b :: t) 0 = some b := by simp [rdC]
theorem rdC_cons_succ (b : UInt8) (t : List UInt8) (k : Nat) : rdC (b :: t) (k+1) = rdC t k := by
  simp [rdC]

theorem Char_lt (c : Char) : c.toNat < 0x110000 := by
  have := c.valid
  have e : c.val.toNat = c.toNat := rfl
  simp only [UInt32.isValidChar, Nat.isValidChar] at this
  omega

/-- **C06 (round trip).** Decoding the encoding of a character, whatever follows it, gives back the
character's code point and consumes exactly the bytes of the encoding. -/
theorem C06_decode_encode (c : Char) (rest : List UInt8) :
    utfToUniChar (uniCharToUtf c.toNat ++ rest)
      = some (c.toNat, (uniCharToUtf c.toNat).length) := by
  rw [C06_encode_is_utf8]
  have hlt := Char_lt c
  have e : c.val.toNat = c.toNat := rfl
  generalize hv : c.toNat = v at *
  unfold String.utf8EncodeChar
  simp only [e]
  split
  · rename_i h
    have := ascii_u8 ⟨v, by omega⟩
    simp [utfToUniChar, rdC_cons_zero, this.1, this.2.1]
  split
  · have a := lead2 ⟨v / 64 % 0x20, by omega⟩
    have b := cont_u8 ⟨v % 0x40, by omega⟩
    simp only at a b
    simp only [utfToUniChar, List.cons_append, List.nil_append, rdC_cons_zero, rdC_cons_succ,
      Option.bind_some, a, b, if_true, if_false, List.length_cons, List.length_nil]
    rw [shl_or _ _ 6 (by omega)]
    simp only [Option.some.injEq, Prod.mk.injEq, and_true]; omega
  split
  · have a := lead3 ⟨v / 4096 % 0x10, by omega⟩
    have b := cont_u8 ⟨v / 64 % 0x40, by omega⟩
    have c := cont_u8 ⟨v % 0x40, by omega⟩
    simp only at a b c
    simp only [utfToUniChar, List.cons_append, List.nil_append, rdC_cons_zero, rdC_cons_succ,
      Option.bind_some, a, b, c, if_true, if_false, List.length_cons, List.length_nil]
    rw [Nat.or_assoc, shl_or _ _ 6 (by omega), shl_or _ _ 12 (by omega)]
    simp only [Option.some.injEq, Prod.mk.injEq, and_true]; omega
  · have a := lead4 ⟨v / 262144 % 8, by omega⟩
    have b := cont_u8 ⟨v / 4096 % 0x40, by omega⟩
    have c := cont_u8 ⟨v / 64 % 0x40, by omega⟩
    have d := cont_u8 ⟨v % 0x40, by omega⟩
    simp only at a b c d
    simp only [utfToUniChar, List.cons_append, List.nil_append, rdC_cons_zero, rdC_cons_succ,
      Option.bind_some, a, b, c, d, if_true, if_false, List.length_cons, List.length_nil]
    rw [Nat.or_assoc, Nat.or_assoc, shl_or _ _ 6 (by omega), shl_or _ _ 12 (by omega),
      shl_or _ _ 18 (by omega)]
    simp only [Option.some.injEq, Prod.mk.injEq, and_true]; omega

theorem isCont_zero : isCont 0 = false := by decide

/-- A continuation byte is a real byte of the string, not its NUL. -/
theorem cont_lt {s : List UInt8} {k : Nat} {b : UInt8} (h : rdC s k = some b)
    (hc : isCont b = true) : k < s.length := by
  unfold rdC at h
  split at h
  · assumption
  split at h
  · cases h; simp [isCont_zero] at hc
  · cases h

theorem rdC_ok {s : List UInt8} {k : Nat} (h : k ≤ s.length) : ∃ b, rdC s k = some b := by
  unfold rdC
  by_cases h1 : k < s.length
  · simp [h1]
  · have : k = s.length := by omega
    simp [this]

/-- **C06 (safety and progress).** On every byte string the decoder stays inside the string (its NUL
included), consumes at least one byte and at most the bytes the string has (when it is non empty). -/
theorem C06_decode_safe (s : List UInt8) (hs : s ≠ []) :
    ∃ v k, utfToUniChar s = some (v, k) ∧ 1 ≤ k ∧ k ≤ s.length ∧ k ≤ 4 := by
  have hl : 0 < s.length := List.length_pos_iff.mpr hs
  unfold utfToUniChar
  obtain ⟨s0, h0⟩ := rdC_ok (s := s) (k := 0) (by omega)
  obtain ⟨s1, h1⟩ := rdC_ok (s := s) (k := 1) (by omega)
  simp only [h0, h1, Option.bind_some]
  have one : ∃ v k, some (s0.toNat, 1) = some (v, k) ∧ 1 ≤ k ∧ k ≤ s.length ∧ k ≤ 4 :=
    ⟨_, _, rfl, by omega, by omega, by omega⟩
  split
  · exact one
  split
  · split
    · have := cont_lt h1 ‹_›
      exact ⟨_, _, rfl, by omega, by omega, by omega⟩
    · exact one
  split
  · split
    · have := cont_lt h1 ‹_›
      obtain ⟨s2, h2⟩ := rdC_ok (s := s) (k := 2) (by omega)
      simp only [h2, Option.bind_some]
      split
      · have := cont_lt h2 ‹_›
        exact ⟨_, _, rfl, by omega, by omega, by omega⟩
      · exact one
    · exact one
  split
  · split
    · have := cont_lt h1 ‹_›
      obtain ⟨s2, h2⟩ := rdC_ok (s := s) (k := 2) (by omega)
      simp only [h2, Option.bind_some]
      split
      · have := cont_lt h2 ‹_›
        obtain ⟨s3, h3⟩ := rdC_ok (s := s) (k := 3) (by omega)
        simp only [h3, Option.bind_some]
        split
        · have := cont_lt h3 ‹_›
          exact ⟨_, _, rfl, by omega, by omega, by omega⟩
        · exact one
      · exact one
    · exact one
  · exact one

/-- A concrete case: the euro sign. -/
example : uniCharToUtf 0x20ac = [0xe2, 0x82, 0xac] ∧
    utfToUniChar ([0xe2, 0x82, 0xac] ++ [65]) = some (0x20ac, 3) := by decide +kernel

/-! ### Indexing by character -/

/-- First byte facts used below: non-NUL characters start with a non-NUL non-continuation byte,
and the following bytes are continuation bytes. -/
theorem enc1_shape (c : Char) (hc : c.toNat ≠ 0) : ∃ b t, String.utf8EncodeChar c = b :: t ∧
    b ≠ 0 ∧ isCont b = false ∧ (∀ x ∈ t, isCont x = true) ∧
    numUtfBytes b = (t.length : Int) + 1 ∧ (b &&& 0x80 = 0 → t = []) := by
  have hlt := Char_lt c
  have e : c.val.toNat = c.toNat := rfl
  generalize hv : c.toNat = v at *
  have A : ∀ b : Fin 128, b.1 ≠ 0 → UInt8.ofNat b.1 ≠ 0 ∧ isCont (UInt8.ofNat b.1) = false ∧
    numUtfBytes (UInt8.ofNat b.1) = 1 := by decide +kernel
  have B : ∀ b : Fin 32, UInt8.ofNat (b.1 + 0xc0) ≠ 0 ∧ isCont (UInt8.ofNat (b.1+0xc0)) = false ∧
    numUtfBytes (UInt8.ofNat (b.1+0xc0)) = 2 ∧ UInt8.ofNat (b.1+0xc0) &&& 0x80 ≠ 0 := by
      decide +kernel
  have C : ∀ b : Fin 16, UInt8.ofNat (b.1 + 0xe0) ≠ 0 ∧ isCont (UInt8.ofNat (b.1+0xe0)) = false ∧
    numUtfBytes (UInt8.ofNat (b.1+0xe0)) = 3 ∧ UInt8.ofNat (b.1+0xe0) &&& 0x80 ≠ 0 := by
      decide +kernel
  have D : ∀ b : Fin 8, UInt8.ofNat (b.1 + 0xf0) ≠ 0 ∧ isCont (UInt8.ofNat (b.1+0xf0)) = false ∧
    numUtfBytes (UInt8.ofNat (b.1+0xf0)) = 4 ∧ UInt8.ofNat (b.1+0xf0) &&& 0x80 ≠ 0 := by
      decide +kernel
  unfold String.utf8EncodeChar
  simp only [e]
  split
  · rename_i h
    have a := A ⟨v, by omega⟩ hc
    exact ⟨_, _, rfl, a.1, a.2.1, by simp, by simp [a.2.2], by simp⟩
  split
  · have a := B ⟨v / 64 % 0x20, by omega⟩
    have b := cont_u8 ⟨v % 0x40, by omega⟩
    exact ⟨_, _, rfl, a.1, a.2.1, by simpa [-UInt8.ofNat_add] using b.1,
      by simpa [-UInt8.ofNat_add] using a.2.2.1, fun h => absurd h a.2.2.2⟩
  split
  · have a := C ⟨v / 4096 % 0x10, by omega⟩
    have b := cont_u8 ⟨v / 64 % 0x40, by omega⟩
    have c := cont_u8 ⟨v % 0x40, by omega⟩
    exact ⟨_, _, rfl, a.1, a.2.1, by simpa [-UInt8.ofNat_add] using ⟨b.1, c.1⟩,
      by simpa [-UInt8.ofNat_add] using a.2.2.1,
      fun h => absurd h a.2.2.2⟩
  · have a := D ⟨v / 262144 % 8, by omega⟩
    have b := cont_u8 ⟨v / 4096 % 0x40, by omega⟩
    have c := cont_u8 ⟨v / 64 % 0x40, by omega⟩
    have d := cont_u8 ⟨v % 0x40, by omega⟩
    exact ⟨_, _, rfl, a.1, a.2.1, by simpa [-UInt8.ofNat_add] using ⟨b.1, c.1, d.1⟩,
      by simpa [-UInt8.ofNat_add] using a.2.2.1,
      fun h => absurd h a.2.2.2⟩

/-- No NUL characters: the text a C string can hold. -/
def NoNul (cs : List Char) : Prop := ∀ c ∈ cs, c.toNat ≠ 0

instance (cs : List Char) : Decidable (NoNul cs) := inferInstanceAs (Decidable (∀ c ∈ cs, _))

theorem cont_ne_zero {x : UInt8} (h : isCont x = true) : x ≠ 0 := by
  intro e; subst e; simp [isCont_zero] at h

theorem numUtfChars_cont (t r : List UInt8) (h : ∀ x ∈ t, isCont x = true) :
    numUtfChars (t ++ r) = numUtfChars r := by
  induction t with
  | nil => rfl
  | cons x t ih =>
    have hx := h x (by simp)
    simp [numUtfChars, cont_ne_zero hx, hx, ih (fun y hy => h y (by simp [hy]))]

/-- `length`: the number of characters. -/
theorem numUtfChars_enc (cs : List Char) (h : NoNul cs) : numUtfChars (enc cs) = cs.length := by
  induction cs with
  | nil => rfl
  | cons c cs ih =>
    obtain ⟨b, t, he, hb, hc, ht, -, -⟩ := enc1_shape c (h c (by simp))
    rw [enc_cons, he, List.cons_append]
    simp only [numUtfChars, hb, hc, if_false]
    rw [numUtfChars_cont t _ ht, ih (fun y hy => h y (by simp [hy]))]
    simp; omega

theorem enc_ne_zero (cs : List Char) (h : NoNul cs) : ∀ x ∈ enc cs, x ≠ 0 := by
  intro x hx
  simp only [enc, List.mem_flatMap] at hx
  obtain ⟨c, hc, hx⟩ := hx
  obtain ⟨b, t, he, hb, -, ht, -, -⟩ := enc1_shape c (h c hc)
  rw [he] at hx
  rcases List.mem_cons.mp hx with rfl | hx
  · exact hb
  · exact cont_ne_zero (ht x hx)

theorem strlen_enc (s : List UInt8) (h : ∀ x ∈ s, x ≠ 0) : strlen s = s.length := by
  unfold strlen
  induction s with
  | nil => rfl
  | cons x s ih =>
    have hx := h x (by simp)
    have := ih (fun y hy => h y (by simp [hy]))
    simpa [List.takeWhile_cons, hx] using this

theorem utfToUniChar_enc (c : Char) (rest : List UInt8) :
    utfToUniChar (String.utf8EncodeChar c ++ rest)
      = some (c.toNat, (String.utf8EncodeChar c).length) := by
  have := C06_decode_encode c rest
  rwa [C06_encode_is_utf8] at this

theorem drop_enc1 (c : Char) (r : List UInt8) :
    (String.utf8EncodeChar c ++ r).drop (String.utf8EncodeChar c).length = r := by simp

theorem NoNul.tail {c : Char} {cs : List Char} (h : NoNul (c :: cs)) : NoNul cs :=
  fun y hy => h y (by simp [hy])

theorem NoNul.drop {cs : List Char} (h : NoNul cs) (n : Nat) : NoNul (cs.drop n) :=
  fun y hy => h y (List.mem_of_mem_drop hy)

/-- The byte offset of character `n` is the size of the `n` characters before it. -/
theorem indexToOffset_enc (n : Nat) (cs : List Char) (h : NoNul cs) :
    indexToOffset n (enc cs) = some (enc (cs.take n)).length := by
  induction n generalizing cs with
  | zero => simp [indexToOffset, enc]
  | succ n ih =>
    cases cs with
    | nil => simp [indexToOffset, enc, rdC]
    | cons c cs =>
      obtain ⟨b, t, he, hb, -, -, -, hasc⟩ := enc1_shape c (h c (by simp))
      have hrd : rdC (enc (c :: cs)) 0 = some b := by
        rw [enc_cons, he, List.cons_append, rdC_cons_zero]
      simp only [indexToOffset, hrd, Option.bind_some, hb, if_false, List.take_succ_cons]
      split
      · rw [enc_cons, utfToUniChar_enc]
        simp only [Option.bind_some, drop_enc1, ih cs h.tail]
        simp [enc_cons]
      · rename_i h80
        have ht : t = [] := hasc (by simpa using h80)
        subst ht
        rw [enc_cons, he]
        simp only [List.cons_append, List.nil_append, List.drop_succ_cons, List.drop_zero,
          ih cs h.tail]
        simp [enc_cons, he]; omega

theorem enc_take_drop (cs : List Char) (n : Nat) :
    (enc cs).drop (enc (cs.take n)).length = enc (cs.drop n) := by
  conv => lhs; arg 2; rw [← List.take_append_drop n cs, enc_append]
  simp

theorem fixNeg_nonneg (k : Nat) (n : Nat) : fixNeg k n = n := by
  unfold fixNeg
  have : ¬ ((n:Int) < 0 ∧ 0 < k) := by omega
  simp [this]

/-- For a negative start the loop ends at `start mod length`. -/
theorem fixNeg_neg (k : Nat) (hk : 0 < k) (n : Int) :
    (fixNeg k n : Int) = if n < 0 then n % k else n := by
  induction h : (-n).toNat using Nat.strongRecOn generalizing n with
  | _ m ih =>
    rw [fixNeg]
    by_cases hn : n < 0
    · simp only [hn, hk, and_self, if_true]
      rw [ih (-(n + k)).toNat (by omega) (n + k) rfl]
      split
      · exact Int.add_emod_right ..
      · have : n + (k:Int) < k := by omega
        rw [← Int.add_emod_right (n) k, Int.emod_eq_of_lt (by omega) this]
    · simp [hn]; omega

/-- Byte length of the first character, 1 for the empty text. -/
def firstLen : List Char → Nat
  | [] => 1
  | c :: _ => (String.utf8EncodeChar c).length

theorem firstByte (cs : List Char) (h : NoNul cs) (pre : List UInt8) :
    ∃ b, rdC (pre ++ enc cs) pre.length = some b ∧ numUtfBytes b = (firstLen cs : Int) := by
  cases cs with
  | nil =>
    refine ⟨0, ?_, by decide⟩
    simp [enc, rdC]
  | cons c cs =>
    obtain ⟨b, t, he, hb, -, -, hn, -⟩ := enc1_shape c (h c (by simp))
    refine ⟨b, ?_, by simp [firstLen, he, hn]⟩
    rw [enc_cons, he]
    simp [rdC]

/-- What `Jsi_UtfSubstr` does, exactly: the wanted characters, followed by the first `l - 1` bytes
of the text after them, where `l` is the byte length of the first wanted character. -/
theorem utfSubstr_exact (cs : List Char) (h : NoNul cs) (n len : Nat) :
    utfSubstr (enc cs) n len = some (enc ((cs.drop n).take len) ++
      (enc (cs.drop (n + len))).take (firstLen (cs.drop n) - 1)) := by
  unfold utfSubstr
  have hn : ¬ ((n:Int) < 0 ∧ numUtfChars (enc cs) = 0) := by omega
  have hl : ¬ ((len:Int) < 0) := by omega
  simp only [hn, if_false, fixNeg_nonneg, indexToOffset_enc n cs h, Option.bind_some, hl,
    enc_take_drop, Int.toNat_natCast, indexToOffset_enc len (cs.drop n) (h.drop n)]
  obtain ⟨b, hrd, hb⟩ := firstByte (cs.drop n) (h.drop n) (enc (cs.take n))
  rw [← enc_append, List.take_append_drop] at hrd
  rw [hrd]
  have hb' : ¬ numUtfBytes b < 0 := by omega
  have hpos : 1 ≤ firstLen (cs.drop n) := by
    cases hcs : cs.drop n with
    | nil => simp [firstLen]
    | cons c t =>
      have : c ∈ cs.drop n := by simp [hcs]
      obtain ⟨b, t, he, -⟩ := enc1_shape c (h.drop n c this)
      simp [firstLen, he]
  simp only [Option.bind_some, hb', if_false, hb, Int.toNat_natCast]
  have hsz : (enc cs).length = (enc (cs.take n)).length + (enc (cs.drop n)).length := by
    conv => lhs; rw [← List.take_append_drop n cs, enc_append]
    simp
  have hsz2 : enc (cs.drop n) = enc ((cs.drop n).take len) ++ enc (cs.drop (n + len)) := by
    conv => lhs; rw [← List.take_append_drop len (cs.drop n), enc_append]
    rw [List.drop_drop]
  congr 1
  have : (if (enc (List.take len (List.drop n cs))).length + firstLen (List.drop n cs) - 1 >
      (enc cs).length - (enc (List.take n cs)).length
      then (enc cs).length - (enc (List.take n cs)).length else
      (enc (List.take len (List.drop n cs))).length + firstLen (List.drop n cs) - 1)
      = min (enc (cs.drop n)).length ((enc (List.take len (List.drop n cs))).length +
        (firstLen (List.drop n cs) - 1)) := by
    rw [hsz]; split <;> omega
  have hf0 : ¬ ((firstLen (List.drop n cs) : Int) < 0) := by omega
  simp only [hf0, if_false, Int.toNat_natCast, enc_take_drop]
  rw [this, List.take_eq_take_min, Nat.min_comm, ← Nat.min_assoc, Nat.min_self]
  rw [Nat.min_comm, ← List.take_eq_take_min, hsz2, List.take_append]
  simp [List.take_of_length_le]

/-- **C07 is false.** `"éab".substr(0,1)` and `"éab".charAt(0)` return two characters, `"éa"`. -/
theorem C07_refuted : ¬ ∀ (cs : List Char) (n len : Nat), NoNul cs → 0 < len →
    substrCmd (enc cs) n (some len) = some (enc ((cs.drop n).take len)) := by
  intro h
  have := h ['é', 'a', 'b'] 0 1 (by decide) (by decide)
  revert this; decide +kernel

theorem C07_charAt_refuted : ¬ ∀ (cs : List Char) (n : Nat), NoNul cs → n < cs.length →
    charAtCmd (enc cs) n = some (enc ((cs.drop n).take 1)) := by
  intro h
  have := h ['é', 'a', 'b'] 0 (by decide) (by decide)
  revert this; decide +kernel

/-- Even the result of `charAt` on well-formed text can be ill-formed UTF-8. -/
example : charAtCmd (enc ['é', 'é']) 0 = some (enc ['é'] ++ [0xc3]) := by decide +kernel

theorem enc_ascii_len (cs : List Char) (h : NoNul cs) (hl : (enc cs).length = cs.length) :
    ∀ c ∈ cs, (String.utf8EncodeChar c).length = 1 := by
  induction cs with
  | nil => simp
  | cons c cs ih =>
    have ge : ∀ cs : List Char, NoNul cs → cs.length ≤ (enc cs).length := by
      intro cs h
      induction cs with
      | nil => simp
      | cons c cs ih =>
        obtain ⟨b, t, he, -⟩ := enc1_shape c (h c (by simp))
        have := ih h.tail
        simp [enc_cons, he]; omega
    obtain ⟨b, t, he, -⟩ := enc1_shape c (h c (by simp))
    have g := ge cs h.tail
    simp only [enc_cons, List.length_append, List.length_cons, he] at hl
    intro x hx
    rcases List.mem_cons.mp hx with rfl | hx
    · simp only [he, List.length_cons]; omega
    · exact ih h.tail (by omega) x hx

theorem enc_take_ascii (cs : List Char) (h : ∀ c ∈ cs, (String.utf8EncodeChar c).length = 1)
    (n : Nat) : (enc cs).take n = enc (cs.take n) ∧ (enc cs).drop n = enc (cs.drop n) := by
  induction cs generalizing n with
  | nil => simp [enc]
  | cons c cs ih =>
    have h1 := h c (by simp)
    obtain ⟨b, hb⟩ := List.length_eq_one_iff.mp h1
    cases n with
    | zero => simp [enc]
    | succ n =>
      have := ih (fun y hy => h y (by simp [hy])) n
      simp [enc_cons, hb, this]

theorem substrDup_ascii (cs : List Char) (h : ∀ c ∈ cs, (String.utf8EncodeChar c).length = 1)
    (n len : Nat) (hl : 0 < len) :
    substrDup (enc cs) n len = some (enc ((cs.drop n).take len)) := by
  have hlen : (enc cs).length = cs.length := by
    clear hl
    induction cs with
    | nil => rfl
    | cons c cs ih =>
      simp [enc_cons, h c (by simp), ih (fun y hy => h y (by simp [hy]))]; omega
  unfold substrDup
  have h0 : ¬ (len : Int) = 0 := by omega
  have h1 : ¬ ((n:Int) < 0 ∧ (enc cs).length = 0) := by omega
  have h2 : (0:Int) < len := by omega
  simp only [h0, h1, if_false, fixNeg_nonneg, h2, if_true, Int.toNat_natCast]
  split
  · rw [List.drop_eq_nil_of_le (by omega)]; simp [enc]
  · rw [(enc_take_ascii cs h n).2]
    have h' : ∀ c ∈ cs.drop n, (String.utf8EncodeChar c).length = 1 :=
      fun c hc => h c (List.mem_of_mem_drop hc)
    rw [(enc_take_ascii _ h' _).1]
    congr 2
    rw [hlen, List.take_eq_take_iff]
    simp only [List.length_drop]
    omega

theorem substrDup_neg (a : List UInt8) (n : Nat) :
    substrDup a n (-1) = some (a.drop n) := by
  unfold substrDup
  have h1 : ¬ ((n:Int) < 0 ∧ a.length = 0) := by omega
  simp only [h1, if_false, fixNeg_nonneg, show ¬ ((-1:Int) = 0) by decide,
    show ¬ ((0:Int) < -1) by decide]
  split
  · rw [List.drop_eq_nil_of_le (by omega)]
  · simp [List.take_of_length_le]

/-- **C07, partial.** `substr(n,len)` returns exactly the `len` characters from `n` on for every
well-formed text when the first of them is an ASCII character (in particular for every ASCII text),
or when the text ends with them. What is missing is the case refuted above: a first character of
two bytes or more with text after the requested range. -/
theorem C07_substr_partial (cs : List Char) (h : NoNul cs) (n len : Nat) (hl : 0 < len)
    (hlen : (enc cs).length ≥ n + len)
    (hfirst : firstLen (cs.drop n) = 1 ∨ cs.length ≤ n + len) :
    substrCmd (enc cs) n (some len) = some (enc ((cs.drop n).take len)) := by
  unfold substrCmd
  simp only [numUtfChars_enc cs h]
  have h0 : ¬ ((len : Int) ≤ 0) := by omega
  simp only [h0, if_false]
  split
  · rename_i e
    exact substrDup_ascii cs (enc_ascii_len cs h e.symm) n len hl
  · have : ¬ ((len:Int) > (enc cs).length - n) := by omega
    simp only [this, if_false]
    rw [utfSubstr_exact cs h]
    rcases hfirst with hf | hf
    · simp [hf]
    · rw [List.drop_eq_nil_of_le hf]; simp [enc]

/-- `substr(n)` (to the end) is right for every well-formed text and every `n ≥ 0`. -/
theorem C07_substr_to_end (cs : List Char) (h : NoNul cs) (n : Nat) :
    substrCmd (enc cs) n none = some (enc (cs.drop n)) := by
  unfold substrCmd
  simp only [numUtfChars_enc cs h]
  split
  · rename_i e
    rw [substrDup_neg, (enc_take_ascii cs (enc_ascii_len cs h e.symm) n).2]
  · unfold utfSubstr
    have hn : ¬ ((n:Int) < 0 ∧ numUtfChars (enc cs) = 0) := by omega
    simp only [hn, if_false, fixNeg_nonneg, indexToOffset_enc n cs h, Option.bind_some,
      enc_take_drop, show (-1:Int) < 0 by decide, if_true]
    rw [strlen_enc _ (enc_ne_zero _ (h.drop n))]
    congr 1
    have hsz : (enc cs).length = (enc (cs.take n)).length + (enc (cs.drop n)).length := by
      conv => lhs; rw [← List.take_append_drop n cs, enc_append]
      simp
    rw [List.take_of_length_le]
    split <;> omega

/-- `substr(-k)` counts from the end: the last `k` characters, for every non-empty text and
`0 < k ≤ length`. -/
theorem C07_substr_from_end (cs : List Char) (h : NoNul cs) (k : Nat) (hk : 0 < k)
    (hk2 : k ≤ cs.length) :
    substrCmd (enc cs) (-(k:Int)) none = some (enc (cs.drop (cs.length - k))) := by
  have hpos : 0 < cs.length := by omega
  have key : (fixNeg cs.length (-(k:Int)) : Nat) = fixNeg cs.length ((cs.length - k : Nat) : Int) := by
    rw [fixNeg_nonneg]
    have := fixNeg_neg cs.length hpos (-(k:Int))
    have hneg : (-(k:Int)) < 0 := by omega
    rw [if_pos hneg] at this
    have e : (-(k:Int)) % (cs.length:Int) = ((cs.length - k : Nat) : Int) := by
      rw [← Int.add_emod_right, Int.emod_eq_of_lt (by omega) (by omega)]; omega
    omega
  rw [← C07_substr_to_end cs h (cs.length - k)]
  unfold substrCmd
  simp only [numUtfChars_enc cs h]
  split
  · rename_i e
    unfold substrDup
    simp only [← e, key]
    have h1 : ¬ (-(k:Int) < 0 ∧ cs.length = 0) := by omega
    have h2 : ¬ (((cs.length - k : Nat):Int) < 0 ∧ cs.length = 0) := by omega
    simp only [h1, h2, if_false]
  · unfold utfSubstr
    simp only [numUtfChars_enc cs h, key]
    have h1 : ¬ (-(k:Int) < 0 ∧ cs.length = 0) := by omega
    have h2 : ¬ (((cs.length - k : Nat):Int) < 0 ∧ cs.length = 0) := by omega
    simp only [h1, h2, if_false]

/-- `charCodeAt(n)` is the code point of character `n` of every well-formed text, NaN outside. -/
theorem C07_charCodeAt (cs : List Char) (h : NoNul cs) (n : Int) :
    charCodeAtCmd (enc cs) n = some (if 0 ≤ n then cs[n.toNat]?.map Char.toNat else none) := by
  unfold charCodeAtCmd
  simp only [numUtfChars_enc cs h]
  by_cases h0 : 0 ≤ n
  · by_cases h1 : n < cs.length
    · have hlt : n.toNat < cs.length := by omega
      simp only [h0, h1, and_self, if_true, indexToOffset_enc _ cs h, Option.bind_some,
        enc_take_drop]
      rw [List.drop_eq_getElem_cons hlt, enc_cons, utfToUniChar_enc]
      simp [hlt]
    · have hge : cs.length ≤ n.toNat := by omega
      simp [h0, h1, hge]
  · simp [h0]

/-- Concrete cases meeting the hypotheses. -/
example : NoNul ['a', 'é', '€', 'b'] := by decide
example : substrCmd (enc ['a', 'é', '€', 'b']) 0 (some 2) = some (enc ['a', 'é']) :=
  C07_substr_partial ['a', 'é', '€', 'b'] (by decide) 0 2 (by decide) (by decide +kernel)
    (Or.inl (by decide +kernel))

/-- `"".substr(-1)` never returns. -/
theorem C07_empty_negative_hangs : substrCmd [] (-1) none = none := by decide +kernel

end Verif.Utf8
