import Verif.Fmt.Spec
import Verif.Utf8.Props

/-! Lemmas on digits, on the reader, and on the C library part. -/

namespace Verif.Fmt
open Verif Verif.Utf8

theorem digit_isDig : ∀ d < 10, isDig (digit false d) = true ∧ (digit false d).toNat - 48 = d := by decide

theorem digits_lt {b : Nat} {up : Bool} {n : Nat} (h : n < b) : digits b up n = [digit up n] := by
  rw [digits, dif_pos (Or.inl h)]

theorem digits_ge {b : Nat} {up : Bool} {n : Nat} (hb : 2 ≤ b) (h : b ≤ n) :
    digits b up n = digits b up (n / b) ++ [digit up (n % b)] := by
  rw [digits, dif_neg (by omega)]

theorem digits_all (n : Nat) : ∀ c ∈ digits 10 false n, isDig c = true := by
  induction n using Nat.strongRecOn with
  | _ n ih =>
    by_cases h : n < 10
    · rw [digits_lt h]; intro c hc
      rw [List.mem_singleton.1 hc]; exact (digit_isDig n h).1
    · rw [digits_ge (by omega) (by omega)]
      intro c hc
      rcases List.mem_append.1 hc with h1 | h1
      · exact ih (n / 10) (by omega) c h1
      · rw [List.mem_singleton.1 h1]; exact (digit_isDig _ (by omega)).1

theorem val10_append (a b : List UInt8) (c : UInt8) (h : b = [c]) :
    val10 (a ++ b) = val10 a * 10 + (c.toNat - 48) := by
  subst h; simp [val10]

theorem val10_digits (n : Nat) : val10 (digits 10 false n) = n := by
  induction n using Nat.strongRecOn with
  | _ n ih =>
    by_cases h : n < 10
    · rw [digits_lt h]; simp only [val10, List.foldl_cons, List.foldl_nil]
      have := (digit_isDig n h).2; omega
    · rw [digits_ge (by omega) (by omega), val10_append _ _ _ rfl, ih (n / 10) (by omega),
        (digit_isDig (n % 10) (by omega)).2]
      omega

theorem digits_ne_nil (b : Nat) (up : Bool) (n : Nat) : digits b up n ≠ [] := by
  rw [digits]; split <;> simp

theorem digits_length (b : Nat) (up : Bool) (hb : 2 ≤ b) (k : Nat) : ∀ n, n < b ^ (k+1) → (digits b up n).length ≤ k + 1 := by
  induction k with
  | zero => intro n h; rw [digits_lt (by simpa using h)]; simp
  | succ k ih =>
    intro n h
    by_cases hn : n < b
    · rw [digits_lt hn]; simp
    · rw [digits_ge hb (by omega), List.length_append]
      have := ih (n / b) (by
        rw [Nat.div_lt_iff_lt_mul (by omega)]; rw [Nat.pow_succ] at h; exact h)
      simp; omega

/-- The first digit of a positive number is not `0`. -/
theorem digits_head (n : Nat) (h : n ≠ 0) : ∃ c t, digits 10 false n = c :: t ∧ c ∈ asc "123456789" := by
  induction n using Nat.strongRecOn with
  | _ n ih =>
    by_cases hn : n < 10
    · rw [digits_lt hn]
      exact ⟨_, _, rfl, (by decide : ∀ n < 10, n ≠ 0 → digit false n ∈ asc "123456789") n hn h⟩
    · rw [digits_ge (by omega) (by omega)]
      obtain ⟨c, t, e, hc⟩ := ih (n / 10) (by omega) (by omega)
      exact ⟨c, t ++ [digit false (n % 10)], by rw [e]; rfl, hc⟩

theorem takeWhile_run {p : UInt8 → Bool} (a r : List UInt8) (ha : ∀ c ∈ a, p c = true)
    (hr : ∀ c t, r = c :: t → p c = false) :
    (a ++ r).takeWhile p = a ∧ (a ++ r).dropWhile p = r := by
  induction a with
  | nil =>
    cases r with
    | nil => simp
    | cons c t => have := hr c t rfl; simp [this]
  | cons c a ih =>
    have h1 := ha c (by simp)
    have h2 := ih (fun c h => ha c (by simp [h]))
    simp [h1, h2]

theorem peek_nil : peek [] = (0, 1) := by decide

theorem peek_ascii (b : UInt8) (r : List UInt8) (h : b < 0x80) : peek (b :: r) = (b.toNat, 1) := by
  have h1 : b < 0xc0 := by
    rw [UInt8.lt_iff_toNat_lt] at h ⊢
    exact Nat.lt_trans h (by decide)
  simp [peek, utfToUniChar, rdC_cons_zero, h1]

theorem peek_enc (c : Char) (r : List UInt8) :
    peek (String.utf8EncodeChar c ++ r) = (c.toNat, (String.utf8EncodeChar c).length) := by
  unfold peek
  rw [utfToUniChar_enc]; rfl

theorem strtoul_digits (n : Nat) (r : List UInt8) (hn : n < 2^63)
    (hr : ∀ c t, r = c :: t → isDig c = false) :
    strtoul (digits 10 false n ++ r) = (n, r) := by
  have h := takeWhile_run (p := isDig) (digits 10 false n) r (digits_all n) hr
  simp only [strtoul, h.1, h.2, val10_digits]
  congr 1
  omega

theorem toLong_id (z : Int) (h1 : -2^63 ≤ z) (h2 : z < 2^63) : toLong z = z := by
  unfold toLong; exact Int.bmod_eq_of_le (by omega) (by omega)

theorem toInt_id (z : Int) (h1 : -2^31 ≤ z) (h2 : z < 2^31) : toInt z = z := by
  unfold toInt; exact Int.bmod_eq_of_le (by omega) (by omega)

theorem showInt_nonneg (n : Nat) : showInt n = digits 10 false n := by
  unfold showInt; rw [if_neg (by omega)]; simp

end Verif.Fmt
