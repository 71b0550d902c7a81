import Verif.Base64.Model
import Verif.Base64.Spec

namespace Verif.Base64
open Spec

set_option maxRecDepth 20000

/-! ### Digit level facts (finite domains, checked in full by the kernel) -/

theorem ev_digit : ∀ s : Fin 64, ev s.val = digit s.val := by decide

theorem idx_digit : ∀ s : Fin 64, strchrIdx (digit s.val) = some s.val := by decide

theorem digit_ascii : ∀ s : Fin 64, ¬ (digit s.val ≥ 128 || digit s.val = 61) := by decide

theorem digit_nonl : ∀ s : Fin 64, digit s.val ≠ 10 ∧ digit s.val ≠ 13 := by decide

theorem shr2 : ∀ a : Fin 256, (a.val >>> 2) &&& 0x3f = a.val / 4 := by decide
theorem shl4 : ∀ a : Fin 256, (a.val <<< 4) &&& 0x30 = (a.val % 4) * 16 := by decide
theorem shr4 : ∀ a : Fin 256, (a.val >>> 4) &&& 0x0f = a.val / 16 := by decide
theorem shl2 : ∀ a : Fin 256, (a.val <<< 2) &&& 0x3c = (a.val % 16) * 4 := by decide
theorem shr6 : ∀ a : Fin 256, (a.val >>> 6) &&& 0x03 = a.val / 64 := by decide
theorem and3f : ∀ a : Fin 256, a.val &&& 0x3f = a.val % 64 := by decide
theorem or1 : ∀ (x : Fin 4) (y : Fin 16), (x.val * 16) ||| y.val = x.val * 16 + y.val := by decide
theorem or2 : ∀ (x : Fin 16) (y : Fin 4), (x.val * 4) ||| y.val = x.val * 4 + y.val := by decide

theorem dshl2 : ∀ a : Fin 64, (a.val <<< 2) &&& 0xfc = a.val * 4 := by decide
theorem dshr4 : ∀ a : Fin 64, (a.val >>> 4) &&& 0x03 = a.val / 16 := by decide
theorem dshl4 : ∀ a : Fin 64, (a.val <<< 4) &&& 0xf0 = (a.val % 16) * 16 := by decide
theorem dshr2 : ∀ a : Fin 64, (a.val >>> 2) &&& 0x0f = a.val / 4 := by decide
theorem dshl6 : ∀ a : Fin 64, (a.val <<< 6) &&& 0xc0 = (a.val % 4) * 64 := by decide
theorem dand : ∀ a : Fin 64, a.val &&& 0x3f = a.val := by decide
theorem dor1 : ∀ (x : Fin 64) (y : Fin 4), (x.val * 4) ||| y.val = x.val * 4 + y.val := by decide
theorem dor2 : ∀ (x : Fin 16) (y : Fin 16), (x.val * 16) ||| y.val = x.val * 16 + y.val := by decide
theorem dor3 : ∀ (x : Fin 4) (y : Fin 64), (x.val * 64) ||| y.val = x.val * 64 + y.val := by decide

theorem ev_eq {n : Nat} (h : n < 64) : ev n = digit n := ev_digit ⟨n, h⟩

theorem byte_lt (a : UInt8) : a.toNat < 256 := a.toNat_lt

theorem e0 (a : UInt8) (r : Nat) (hr : r < 65536) :
    ev ((a.toNat >>> 2) &&& 0x3f) = dig (a.toNat * 65536 + r) 0 := by
  have ha := byte_lt a
  rw [shr2 ⟨a.toNat, ha⟩, ev_eq (by omega)]
  unfold dig; congr 1; simp only [Nat.reduceSub, Nat.reducePow]; omega

theorem e1 (a b : UInt8) (r : Nat) (hr : r < 256) :
    ev (((a.toNat <<< 4) &&& 0x30) ||| ((b.toNat >>> 4) &&& 0x0f))
      = dig (a.toNat * 65536 + b.toNat * 256 + r) 1 := by
  have ha := byte_lt a
  have hb := byte_lt b
  rw [shl4 ⟨_, ha⟩, shr4 ⟨_, hb⟩]
  rw [or1 ⟨a.toNat % 4, by omega⟩ ⟨b.toNat / 16, by omega⟩]
  simp only []
  rw [ev_eq (by omega)]
  unfold dig; congr 1; simp only [Nat.reduceSub, Nat.reducePow]; omega

theorem e2 (a b c : UInt8) :
    ev (((b.toNat <<< 2) &&& 0x3c) ||| ((c.toNat >>> 6) &&& 0x03))
      = dig (a.toNat * 65536 + b.toNat * 256 + c.toNat) 2 := by
  have ha := byte_lt a
  have hb := byte_lt b
  have hc := byte_lt c
  rw [shl2 ⟨_, hb⟩, shr6 ⟨_, hc⟩]
  rw [or2 ⟨b.toNat % 16, by omega⟩ ⟨c.toNat / 64, by omega⟩]
  simp only []
  rw [ev_eq (by omega)]
  unfold dig; congr 1; simp only [Nat.reduceSub, Nat.reducePow]; omega

theorem e3 (a b c : UInt8) :
    ev (c.toNat &&& 0x3f) = dig (a.toNat * 65536 + b.toNat * 256 + c.toNat) 3 := by
  have hc := byte_lt c
  rw [and3f ⟨_, hc⟩, ev_eq (by omega)]
  unfold dig; congr 1; simp only [Nat.reduceSub, Nat.reducePow]; omega

/-! ### The encoder produces wrapped RFC 4648 text -/

theorem wrap72_append (c s : List UInt8) (hc : c.length = 72) :
    wrap72 (c ++ s) = c ++ 10 :: wrap72 s := by
  rw [wrap72]
  have : ¬ (c ++ s).length < 72 := by simp; omega
  rw [if_neg this]
  have h1 : (c ++ s).take 72 = c := by rw [← hc]; simp
  have h2 : (c ++ s).drop 72 = s := by rw [← hc]; simp
  rw [h1, h2]

theorem flush (c' s : List UInt8) (h : c'.length < 72 ∨ c'.length = 72) :
    (if c'.length ≥ 72 then c' ++ [10] ++ wrap72 s else wrap72 (c' ++ s)) = wrap72 (c' ++ s) := by
  split
  · rw [wrap72_append c' s (by omega)]; simp
  · rfl

theorem encLoop_eq : ∀ (n : Nat) (b c out : List UInt8), b.length ≤ n → c.length % 4 = 0 → c.length < 72 →
    encLoop b c out = some (out ++ wrap72 (c ++ rfc4648 b)) := by
  intro n
  induction n with
  | zero =>
    intro b c out hb h4 hc
    have : b = [] := List.length_eq_zero_iff.mp (by omega)
    subst this
    rw [encLoop, wrap72]
    simp [rfc4648, hc]
  | succ n ih =>
    intro b c out hb h4 hc
    match b with
    | [] =>
      rw [encLoop, wrap72]
      simp [rfc4648, hc]
    | [x] =>
      have z1 := e0 x 0 (by omega)
      have z2 := e1 x 0 0 (by omega)
      simp only [UInt8.toNat_zero, Nat.zero_mul, Nat.add_zero] at z1 z2
      rw [encLoop]
      simp [rdC, ppdcs, rfc4648]
      simp at z1 z2
      rw [z1, z2]
      split
      · rw [ih _ _ _ (by simp) (by simp) (by simp)]
        have := wrap72_append (c ++ [dig (x.toNat * 65536) 0, dig (x.toNat * 65536) 1, 61, 61]) []
          (by simp; omega)
        simp at this
        rw [this]
        simp [rfc4648]
      · rw [ih _ _ _ (by simp) (by simp; omega) (by simp; omega)]
        simp [rfc4648]
    | [x, y] =>
      have z1 := e0 x (y.toNat * 256) (by have := byte_lt y; omega)
      have z2 := e1 x y 0 (by omega)
      have z3 := e2 x y 0
      rw [encLoop]
      simp [rdC, ppdcs, rfc4648]
      simp at z1 z2 z3
      rw [z1, z2, z3]
      split
      · rw [ih _ _ _ (by simp) (by simp) (by simp)]
        have := wrap72_append (c ++ [dig (x.toNat * 65536 + y.toNat * 256) 0,
          dig (x.toNat * 65536 + y.toNat * 256) 1, dig (x.toNat * 65536 + y.toNat * 256) 2, 61]) []
          (by simp; omega)
        simp at this
        rw [this]
        simp [rfc4648]
      · rw [ih _ _ _ (by simp) (by simp; omega) (by simp; omega)]
        simp [rfc4648]
    | x :: y :: z :: t =>
      have z1 := e0 x (y.toNat * 256 + z.toNat) (by have := byte_lt y; have := byte_lt z; omega)
      have z2 := e1 x y z.toNat (byte_lt z)
      have z3 := e2 x y z
      have z4 := e3 x y z
      rw [← Nat.add_assoc] at z1
      rw [encLoop]
      simp [rdC, ppdcs, rfc4648]
      rw [z1, z2, z3, z4]
      generalize x.toNat * 65536 + y.toNat * 256 + z.toNat = n'
      simp at hb
      rw [if_neg (by omega), if_neg (by omega)]
      simp only [Option.bind_some]
      split
      · rw [ih _ _ _ (by omega) (by simp) (by simp)]
        have := wrap72_append (c ++ [dig n' 0, dig n' 1, dig n' 2, dig n' 3]) (rfc4648 t)
          (by simp; omega)
        simp at this
        rw [this]
        simp
      · rw [ih _ _ _ (by omega) (by simp; omega) (by simp; omega)]
        simp

/-- **C02**.  The encoder never reads outside its input and yields exactly the RFC 4648 text, with
a newline after every 72nd character. -/
theorem C02_base64_encode_is_rfc4648 (b : List UInt8) :
    encode b = some (wrap72 (rfc4648 b)) := by
  have := encLoop_eq b.length b [] [] (Nat.le_refl _) rfl (by decide)
  simpa [encode] using this

/-! ### Decoding -/

/-- Texts that are RFC 4648 base64 with line ends inserted between groups of four characters. -/
inductive Text : List UInt8 → List UInt8 → Prop
  | nil : Text [] []
  | nl {b s} : Text b s → Text b (10 :: s)
  | cr {b s} : Text b s → Text b (13 :: s)
  | one (a : UInt8) {s} : Text [] s → Text [a] (rfc4648 [a] ++ s)
  | two (a b : UInt8) {s} : Text [] s → Text [a, b] (rfc4648 [a, b] ++ s)
  | grp (a b c : UInt8) {t s} : Text t s → Text (a :: b :: c :: t) (rfc4648 [a, b, c] ++ s)

theorem getidx_digit {n : Nat} (h : n < 64) (t : List UInt8) : getidx (digit n :: t) = (some n, t) := by
  unfold getidx
  rw [if_neg (digit_ascii ⟨n, h⟩), idx_digit ⟨n, h⟩]

theorem getidx_eq (t : List UInt8) : getidx (61 :: t) = (none, t) := by
  simp [getidx]

theorem getidx_dig (n k : Nat) (t : List UInt8) :
    getidx (dig n k :: t) = (some (n / 64 ^ (3 - k) % 64), t) :=
  getidx_digit (Nat.mod_lt _ (by decide)) t

theorem dig_nonl (n k : Nat) : dig n k ≠ 10 ∧ dig n k ≠ 13 :=
  digit_nonl ⟨n / 64 ^ (3 - k) % 64, Nat.mod_lt _ (by decide)⟩

theorem out1 {p q v : Nat} (hp : p < 64) (hq : q < 64) (h : p * 4 + q / 16 = v) :
    ((p <<< 2) &&& 0xfc) ||| ((q >>> 4) &&& 0x03) = v := by
  rw [dshl2 ⟨p, hp⟩, dshr4 ⟨q, hq⟩, dor1 ⟨p, hp⟩ ⟨q / 16, by omega⟩]; exact h

theorem out2 {p q v : Nat} (hp : p < 64) (hq : q < 64) (h : p % 16 * 16 + q / 4 = v) :
    ((p <<< 4) &&& 0xf0) ||| ((q >>> 2) &&& 0x0f) = v := by
  rw [dshl4 ⟨p, hp⟩, dshr2 ⟨q, hq⟩, dor2 ⟨p % 16, by omega⟩ ⟨q / 4, by omega⟩]; exact h

theorem out3 {p q v : Nat} (hp : p < 64) (hq : q < 64) (h : p % 4 * 64 + q = v) :
    ((p <<< 6) &&& 0xc0) ||| (q &&& 0x3f) = v := by
  rw [dshl6 ⟨p, hp⟩, dand ⟨q, hq⟩, dor3 ⟨p % 4, by omega⟩ ⟨q, hq⟩]; exact h

theorem decLoop_end {r r' : List UInt8} {ix : List Nat} (out : List UInt8)
    (h1 : r.head? ≠ some 10) (h2 : r.head? ≠ some 13) (h : get4 r = (ix, r', true)) :
    decLoop r out = out ++ outBytes ix := by
  rw [decLoop]
  simp only [h1, h2, or_self, dite_false]
  split
  · rename_i h'; rw [h] at h'; injection h' with h3 h4; subst h3; rfl
  · rename_i h'; rw [h] at h'; injection h' with h3 h4; injection h4 with h5 h6; cases h6

theorem decLoop_step {r r' : List UInt8} {ix : List Nat} (out : List UInt8)
    (h1 : r.head? ≠ some 10) (h2 : r.head? ≠ some 13) (h : get4 r = (ix, r', false)) :
    decLoop r out = decLoop r' (out ++ outBytes ix) := by
  rw [decLoop]
  simp only [h1, h2, or_self, dite_false]
  split
  · rename_i h'; rw [h] at h'; injection h' with h3 h4; injection h4 with h5 h6; cases h6
  · rename_i h'; rw [h] at h'; injection h' with h3 h4; injection h4 with h5 h6
    subst h3; subst h5; rfl

theorem outBytes_eq {n a b c : Nat} (h : n = a * 65536 + b * 256 + c) (ha : a < 256) (hb : b < 256)
    (hc : c < 256) :
    outBytes [n / 64 ^ 3 % 64, n / 64 ^ 2 % 64] = [UInt8.ofNat a] ∧
    outBytes [n / 64 ^ 3 % 64, n / 64 ^ 2 % 64, n / 64 ^ 1 % 64] = [UInt8.ofNat a, UInt8.ofNat b] ∧
    outBytes [n / 64 ^ 3 % 64, n / 64 ^ 2 % 64, n / 64 ^ 1 % 64, n / 64 ^ 0 % 64]
      = [UInt8.ofNat a, UInt8.ofNat b, UInt8.ofNat c] := by
  simp only [Nat.reducePow, outBytes]
  have x1 := @out1 (n / 262144 % 64) (n / 4096 % 64) a (by omega) (by omega) (by omega)
  have x2 := @out2 (n / 4096 % 64) (n / 64 % 64) b (by omega) (by omega) (by omega)
  have x3 := @out3 (n / 64 % 64) (n / 1 % 64) c (by omega) (by omega) (by omega)
  rw [x1, x2, x3]
  simp

theorem decLoop_text {b s : List UInt8} (h : Text b s) : ∀ out, decLoop s out = out ++ b := by
  induction h with
  | nil => intro out; rw [decLoop_end (ix := []) (r' := []) out] <;> simp [get4, getidx, outBytes]
  | nl _ ih => intro out; rw [decLoop]; simp [ih]
  | cr _ ih => intro out; rw [decLoop]; simp [ih]
  | one a _ _ =>
    intro out
    have ha := byte_lt a
    have ho := (outBytes_eq (n := a.toNat * 65536) (b := 0) (c := 0) (by omega) ha (by omega) (by omega)).1
    simp only [rfc4648, List.cons_append]
    rw [decLoop_end out (by simp [dig_nonl]) (by simp [dig_nonl])
      (by simp only [get4, getidx_dig, getidx_eq]; rfl)]
    erw [ho]; simp
  | two a b _ _ =>
    intro out
    have ha := byte_lt a
    have hb := byte_lt b
    have ho := (outBytes_eq (n := a.toNat * 65536 + b.toNat * 256) (c := 0) (by omega) ha hb (by omega)).2.1
    simp only [rfc4648, List.cons_append]
    rw [decLoop_end out (by simp [dig_nonl]) (by simp [dig_nonl])
      (by simp only [get4, getidx_dig, getidx_eq]; rfl)]
    erw [ho]; simp
  | grp a b c _ ih =>
    intro out
    have ha := byte_lt a
    have hb := byte_lt b
    have hc := byte_lt c
    have ho := (outBytes_eq (n := a.toNat * 65536 + b.toNat * 256 + c.toNat) rfl ha hb hc).2.2
    simp only [rfc4648, List.cons_append]
    rw [decLoop_step out (by simp [dig_nonl]) (by simp [dig_nonl])
      (by simp only [get4, getidx_dig]; rfl)]
    erw [ho]
    rw [List.nil_append, ih]
    simp

theorem text_wrap_prefix : ∀ (n k : Nat) (b p s : List UInt8), b.length ≤ n → p.length = 4 * k → k < 18 →
    p ++ s = wrap72 (p ++ rfc4648 b) → Text b s := by
  intro n
  induction n with
  | zero =>
    intro k b p s hb hp hk h
    have : b = [] := List.length_eq_zero_iff.mp (by omega)
    subst this
    rw [wrap72, if_pos (by simp [rfc4648]; omega)] at h
    simp [rfc4648] at h
    subst h; exact .nil
  | succ n ih =>
    -- one group: either it completes a line, or it is followed by more text of the same line
    have key : ∀ (k : Nat) (t p s g : List UInt8), t.length ≤ n → g.length = 4 → p.length = 4 * k → k < 18 →
        p ++ s = wrap72 (p ++ (g ++ rfc4648 t)) → ∃ s', s = g ++ s' ∧ Text t s' := by
      intro k t p s g ht hg hp hk h
      by_cases hk' : k = 17
      · have hl : (p ++ g).length = 72 := by simp; omega
        rw [← List.append_assoc, wrap72_append _ _ hl, List.append_assoc] at h
        have := List.append_cancel_left h
        exact ⟨10 :: wrap72 (rfc4648 t), this, .nl (ih 0 t [] _ ht rfl (by omega) (by simp))⟩
      · have hpre : ∃ s', s = g ++ s' := by
          have h72 : (p ++ g).length < 72 := by simp; omega
          rw [wrap72] at h
          split at h
          · exact ⟨rfc4648 t, List.append_cancel_left h⟩
          · refine ⟨(rfc4648 t).take (72 - (p ++ g).length) ++
              10 :: wrap72 (List.drop 72 (p ++ (g ++ rfc4648 t))), ?_⟩
            apply List.append_cancel_left (as := p)
            rw [h, ← List.append_assoc p g, List.take_append, List.take_of_length_le (by omega)]
            simp
        obtain ⟨s', rfl⟩ := hpre
        refine ⟨s', rfl, ih (k + 1) t (p ++ g) s' ht (by simp; omega) (by omega) ?_⟩
        simpa using h
    intro k b p s hb hp hk h
    match b with
    | [] =>
      rw [wrap72, if_pos (by simp [rfc4648]; omega)] at h
      simp [rfc4648] at h
      subst h; exact .nil
    | [x] =>
      obtain ⟨s', rfl, ht⟩ := key k [] p s (rfc4648 [x]) (by simp) rfl hp hk (by simpa [rfc4648] using h)
      exact .one x ht
    | [x, y] =>
      obtain ⟨s', rfl, ht⟩ := key k [] p s (rfc4648 [x, y]) (by simp) rfl hp hk (by simpa [rfc4648] using h)
      exact .two x y ht
    | x :: y :: z :: t =>
      obtain ⟨s', rfl, ht⟩ := key k t p s (rfc4648 [x, y, z]) (by simp at hb; omega) rfl hp hk
        (by simpa [rfc4648] using h)
      exact .grp x y z ht

theorem text_wrap72 (b : List UInt8) : Text b (wrap72 (rfc4648 b)) :=
  text_wrap_prefix b.length 0 b [] _ (Nat.le_refl _) rfl (by decide) (by simp)

/-- Decoding accepts line ends (LF or CR) anywhere between groups. -/
theorem C01_base64_decode_any_wrapping (b s : List UInt8) (h : Text b s) : decode s = b := by
  simpa [decode] using decLoop_text h []

/-- **C01**.  For every byte string, encoding succeeds and decoding the result gives it back. -/
theorem C01_base64_roundtrip (b : List UInt8) : ∃ s, encode b = some s ∧ decode s = b :=
  ⟨_, C02_base64_encode_is_rfc4648 b, C01_base64_decode_any_wrapping _ _ (text_wrap72 b)⟩

/-- Unwrapped RFC 4648 text from another producer decodes too. -/
theorem C01_base64_decode_rfc4648 (b : List UInt8) : decode (rfc4648 b) = b := by
  apply C01_base64_decode_any_wrapping
  have : ∀ (n : Nat) (b : List UInt8), b.length ≤ n → Text b (rfc4648 b) := by
    intro n
    induction n with
    | zero => intro b hb; have : b = [] := List.length_eq_zero_iff.mp (by omega)
              subst this; exact .nil
    | succ n ih =>
      intro b hb
      match b with
      | [] => exact .nil
      | [x] => exact .one x .nil
      | [x, y] => exact .two x y .nil
      | x :: y :: z :: t => exact .grp x y z (ih t (by simp at hb; omega))
  exact this _ b (Nat.le_refl _)

-- Tests on literals (not proofs of anything general): the RFC 4648 vector "foobar" and a two line text.
example : rfc4648 (asc "foobar") = asc "Zm9vYmFy" := by decide
example : rfc4648 (asc "foob") = asc "Zm9vYg==" := by decide
example : Text [102, 111, 111, 98, 97] (rfc4648 [102, 111, 111] ++ 10 :: (rfc4648 [98, 97] ++ [])) :=
  .grp _ _ _ (.nl (.two _ _ .nil))

end Verif.Base64
