import Verif.Fmt.Props
import Verif.Fmt.Safe

/-! Concrete cases: hypotheses are met; and inputs on which `format` goes wrong. -/

namespace Verif.Fmt
open Verif Verif.Utf8

/-- An environment in which numbers are integers; floating point directives print zeros to the width. -/
def demoE : Env Int where
  wide z := Int.bmod z (2^64)
  disp z := showInt z
  json z := showInt z
  dbl sp _ := List.replicate (val10 (((sp.drop 1).dropWhile isFlagB).takeWhile isDig)) 48

theorem val_head (w : Nat) (p : Option Nat) (c : UInt8) (hc : c ∈ asc "aAeEfgG") (fl : List UInt8) (hf : ∀ x ∈ fl, isFlagB x = true) :
    val10 (((fl ++ ((if w = 0 then [] else digits 10 false w) ++ (precC p ++ [c]))).dropWhile isFlagB).takeWhile isDig) = w := by
  have hc2 : ∀ c ∈ asc "aAeEfgG", isDig c = false ∧ isFlagB c = false := by decide
  have hP2 : ∀ x t, precC p ++ [c] = x :: t → isDig x = false ∧ isFlagB x = false := by
    intro x t e
    cases p with
    | none =>
      have : x = c := by simpa [precC] using (List.cons.inj e).1.symm
      subst this; exact hc2 _ hc
    | some p =>
      have : x = 46 := by simpa using (List.cons.inj e).1.symm
      subst this; decide
  have hW : ∀ x t, (if w = 0 then [] else digits 10 false w) ++ (precC p ++ [c]) = x :: t → isFlagB x = false := by
    intro x t e
    by_cases h0 : w = 0
    · rw [if_pos h0] at e; exact (hP2 x t e).2
    · rw [if_neg h0] at e; exact digits_noflag w h0 _ x t e
  rw [(takeWhile_run (p := isFlagB) fl _ hf hW).2]
  rw [(takeWhile_run (p := isDig) (if w = 0 then [] else digits 10 false w) (precC p ++ [c])
    (by split
        · intro x h; cases h
        · exact digits_all w) (fun x t e => (hP2 x t e).1)).1]
  split
  · rename_i h; subst h; rfl
  · exact val10_digits w

/-- The hypotheses about the C library can be met. -/
theorem C84_libc_satisfiable : LibcOk demoE where
  wide x := by
    have h1 := Int.bmod_lt (x := x) (m := 2^64) (by decide)
    have h2 := Int.le_bmod (x := x) (m := 2^64) (by decide)
    simp only [demoE]
    omega
  dbl fl am w p c x hf hc := by
    have hf' : ∀ x ∈ fl ++ (if am then [45] else []), isFlagB x = true := by
      intro y hy
      rcases List.mem_append.1 hy with h | h
      · exact (flag_mem' y).1 (hf y h)
      · cases am with
        | false => cases h
        | true => rw [List.mem_singleton.1 h]; decide
    have := val_head w p c hc _ hf'
    simp only [demoE, cText, List.cons_append, List.drop_succ_cons, List.drop_zero, List.length_replicate]
    simp only [List.append_assoc] at this ⊢
    rw [this]
    omega

/-- The pieces of `format("%-*dé%%%04.2ls", ...)`. -/
def demoSegs : List Seg :=
  [.dir ⟨asc "-", .star, .none, [], 100⟩, .chr 'é', .pct, .dir ⟨asc "0", .lit 4, .lit 2, asc "l", 115⟩]

theorem C84_example : (∀ g ∈ demoSegs, g.Ok) ∧ (∀ g ∈ demoSegs, g.Tame) ∧
    fmtText demoSegs = asc "%-*d" ++ enc ['é'] ++ asc "%%%04.2ls" ∧
    render demoE demoSegs [.num 6, .num 42, .str (asc "abc"), .num 7] = .ok (asc "42    " ++ enc ['é'] ++ asc "%00ab") ∧
    render demoE demoSegs [.num 6, .num 42] = .err := by
  have o1 : Dir.Ok ⟨asc "-", .star, .none, [], 100⟩ :=
    ⟨by decide, by decide, (fun n h => by cases h), by decide, by decide⟩
  have o2 : Dir.Ok ⟨asc "0", .lit 4, .lit 2, asc "l", 115⟩ :=
    ⟨by decide, by decide, (fun n h => by cases h; decide), by decide, by decide⟩
  have t1 : Dir.Tame ⟨asc "-", .star, .none, [], 100⟩ := ⟨fun h => absurd h (by decide), fun h => absurd h (by decide)⟩
  have t2 : Dir.Tame ⟨asc "0", .lit 4, .lit 2, asc "l", 115⟩ :=
    ⟨fun _ _ => ⟨by decide, by simp⟩, fun h => absurd h (by decide)⟩
  refine ⟨?_, ?_, by decide +kernel, by decide +kernel, by decide +kernel⟩
  · intro g hg
    simp only [demoSegs, List.mem_cons, List.not_mem_nil, or_false] at hg
    rcases hg with h | h | h | h <;> subst h
    · exact o1
    · show 'é' ≠ '%'; decide
    · trivial
    · exact o2
  · intro g hg
    simp only [demoSegs, List.mem_cons, List.not_mem_nil, or_false] at hg
    rcases hg with h | h | h | h <;> subst h
    · exact t1
    · trivial
    · trivial
    · exact t2

/-- The numbers of C87's hypotheses. -/
theorem C87_example : Dir.Ok ⟨asc "+0#", .lit 8, .none, [], 120⟩ ∧
    formatString demoE (asc "%+0#8x") [.num 255] = .ok (asc "0x0000ff") ∧ strtol 16 (asc "0x0000ff") = 255 ∧
    formatString demoE (asc "%u") [.num (-1)] = .ok (asc "18446744073709551615") := by
  refine ⟨⟨by decide, by decide, (fun n h => by cases h; decide), by decide, by decide⟩, ?_, ?_, ?_⟩ <;> decide +kernel

/-- C84 is false for the `0` flag with left justification: the zeros are put at the right.
`format("%-05s", "ab")` is `ab000`. -/
theorem C84_zero_left_refuted : formatString demoE (asc "%-05s") [.str (asc "ab")] = .ok (asc "ab000") ∧
    render demoE [.dir ⟨asc "-0", .lit 5, .none, [], 115⟩] [.str (asc "ab")] = .ok (asc "ab   ") ∧
    fmtText [.dir ⟨asc "-0", .lit 5, .none, [], 115⟩] = asc "%-05s" := by
  refine ⟨?_, ?_, ?_⟩ <;> decide +kernel

/-- C84 is false for `%q` with a precision: the first character becomes a NUL.
`format("%.3q", [1,2])` should be `[1,`. -/
theorem C84_q_precision_refuted :
    formatString demoE (asc "%.3q") [.other (asc "[1,2]") (asc "[ 1, 2 ]")] = .ok (0 :: asc "1,") ∧
    render demoE [.dir ⟨[], .none, .lit 3, [], 113⟩] [.other (asc "[1,2]") (asc "[ 1, 2 ]")] = .ok (asc "[1,") := by
  refine ⟨?_, ?_⟩ <;> decide +kernel

/-- C84 is false for strings with a NUL: `%S` stops there, `%s` does not. -/
theorem C84_nul_refuted : formatString demoE (asc "%S") [.str [97, 0, 98]] = .ok [97] ∧
    formatString demoE (asc "%s") [.str [97, 0, 98]] = .ok [97, 0, 98] := by
  refine ⟨?_, ?_⟩ <;> decide +kernel

/-- A width is not a number of characters: `format("%3s", "éé")` is not padded to three characters, and a
precision can cut a character in two. -/
theorem C84_width_characters_refuted :
    ¬ (∀ (cs : List Char) (t : List UInt8), NoNul cs → formatString demoE (asc "%3s") [.str (enc cs)] = .ok t →
      3 ≤ numUtfChars t) ∧
    formatString demoE (asc "%.1s") [.str (enc ['é'])] = .ok [0xc3] := by
  refine ⟨fun h => ?_, by decide +kernel⟩
  have h1 := h ['é', 'é'] (enc ['é', 'é']) (by unfold NoNul; decide) (by decide +kernel)
  revert h1
  decide +kernel

/-- `%c` of a number above 127 gives a byte that is not a character. -/
theorem C84_char_byte_refuted : formatString demoE (asc "%c") [.num 233] = .ok [0xe9] ∧
    formatString demoE (asc "%C") [.num 233] = .ok (enc ['é']) := by
  refine ⟨?_, ?_⟩ <;> decide +kernel

/-! ### C85: memory safety fails -/

/-- An unknown conversion after 80 flags: the message is copied past the end of the 100 byte buffer. -/
theorem C85_unknown_conversion_refuted :
    formatString demoE (37 :: List.replicate 80 45 ++ asc "y") [.num 1] = .undef := by decide +kernel

/-- A 19 digit width after 80 flags: `sprintf` writes past the end of the 100 byte buffer. -/
theorem C85_flags_width_refuted :
    formatString demoE (37 :: List.replicate 80 43 ++ asc "1000000000000000000d") [.num 1] = .undef := by decide +kernel

theorem big_text (t : List UInt8) (h : 100 ≤ t.length) : printNum t 2147483647 100 = .undef := by
  unfold printNum
  have e : toInt ((2147483647 : Int) + 1) = -2147483648 := by decide
  rw [e]
  simp only []
  have e2 : (((-2147483648 : Int)) % 2^64).toNat = 18446744071562067968 := by decide
  rw [e2, if_neg (by decide), if_neg (show ¬ ((100 : Int) < -2147483648) by decide)]
  rw [if_pos]
  rw [List.length_take]
  omega

theorem big_conv (x : Int) : convNum demoE false 100 (.num x) [37] 2000000000 true 147483647 100 = .undef := by
  have hp : parseC (asc "2000000000.147483647lld") = some ⟨false, false, false, false, false, 2000000000, some 147483647, 100⟩ := by
    decide +kernel
  have hs : specNum [37] 2000000000 true 147483647 = asc "%2000000000.147483647" := by decide +kernel
  have hlen : lenOf false 2000000000 true 147483647 = 2147483647 := by decide
  have hc : convNum demoE false 100 (.num x) [37] 2000000000 true 147483647 100 = .undef := by
    unfold convNum
    simp only [hs, hlen]
    rw [if_neg (by decide)]
    simp only [Bool.false_eq_true, if_false]
    rw [if_neg (by decide)]
    have e : List.drop 1 (asc "%2000000000.147483647" ++ [108, 108, 100]) = asc "2000000000.147483647lld" := by decide
    rw [e, hp]
    simp only []
    apply big_text
    rw [cInt_length_eq]
    exact Nat.le_trans (by decide) (Nat.le_max_left _ _)
  exact hc

theorem convert_d (v : Arg Int) (sp : List UInt8) (w : Int) (g : Bool) (p b : Int) :
    convert demoE 100 v sp w g p b = convNum demoE false 100 v sp w g p b := by
  unfold convert
  rfl

/-- `format("%2000000000.147483647d", 1)`: the size of the buffer overflows an `int`, no memory is
allocated, and two thousand million bytes are written into a buffer of 100. -/
theorem C85_refuted (x : Int) : formatString demoE (asc "%2000000000.147483647d") [.num x] = .undef := by
  have hconv : convert demoE 100 (.num x) [37] 2000000000 true 147483647 100 = .undef := by
    rw [convert_d, big_conv]
  have hw : ∀ A : List (Arg Int), widthStep demoE A ⟨[37], false, 32, asc "2000000000.147483647d"⟩ 1 =
      .ok ⟨2000000000, [37], false, asc ".147483647d", 1⟩ := by
    intro A
    have e1 : isDigN (peek (asc "2000000000.147483647d")).1 = true := by decide +kernel
    have e2 : toLong ((strtoul (asc "2000000000.147483647d")).1 : Nat) = 2000000000 := by decide +kernel
    have e3 : (strtoul (asc "2000000000.147483647d")).2 = asc ".147483647d" := by decide +kernel
    simp only [widthStep, e1, if_true, e2, e3]
  have hpr : ∀ A : List (Arg Int), precStep demoE A (asc "147483647d") 1 = .ok ⟨147483647, asc "d", 1⟩ := by
    intro A
    have e1 : isDigN (peek (asc "147483647d")).1 = true := by decide +kernel
    have e2 : toLong ((strtoul (asc "147483647d")).1 : Nat) = 147483647 := by decide +kernel
    have e3 : (strtoul (asc "147483647d")).2 = asc "d" := by decide +kernel
    simp only [precStep, e1, if_true, e2, e3]
  have hd : dotStep (asc ".147483647d") = (true, asc "147483647d") := by decide +kernel
  have hfl : flagLoop ((asc "2000000000.147483647d").length + 1) ⟨[37], false, 32, asc "2000000000.147483647d"⟩ =
      some ⟨[37], false, 32, asc "2000000000.147483647d"⟩ := by
    have e1 : isFlag (peek (asc "2000000000.147483647d")).1 = false := by decide +kernel
    simp only [flagLoop, e1, Bool.false_eq_true, if_false]
  have hfin : ∀ f, finish demoE [.str f, .num x] 32 ⟨2000000000, [37], false, asc ".147483647d", 1⟩ true
      ⟨147483647, asc "d", 1⟩ 100 = .undef := by
    intro f
    have e1 : lenMod (asc "d") = asc "d" := by decide +kernel
    have e2 : (peek (asc "d")).1 = 100 := by decide +kernel
    simp only [finish, e1, e2, List.getElem?_cons_succ, List.getElem?_cons_zero, hconv, R.bind]
  have hdir : ∀ f, directive demoE [.str f, .num x] (asc "2000000000.147483647d") 1 100 = .undef := by
    intro f
    unfold directive
    rw [if_neg (by simp), hfl]
    simp only [hw, R.bind, hd, hpr, hfin]
  unfold formatString
  have e1 : peek (asc "%2000000000.147483647d") = (37, 1) := by decide +kernel
  have e2 : (asc "%2000000000.147483647d").drop 1 = asc "2000000000.147483647d" := by decide
  have e3 : (peek (asc "2000000000.147483647d")).1 ≠ 37 := by decide +kernel
  rw [loop, if_neg (by decide)]
  unfold round
  simp only [e1, e2]
  rw [if_neg (by decide), if_neg e3, hdir]
  rfl

/-- A text that meets the hypotheses of `C85_format_safe_partial`: an unfinished and a bad directive. -/
theorem C85_example : Short "%-08.3f %zz %".toList ∧ formatString demoE (asc "%-08.3f %zz %") [.num 1, .num 2] = .err := by
  refine ⟨⟨fun k => ?_, fun k => ?_⟩, by decide +kernel⟩
  · have hl := (List.takeWhile_sublist flagC (l := ("%-08.3f %zz %".toList.drop k))).length_le
    have : ("%-08.3f %zz %".toList).length = 13 := by decide
    rw [List.length_drop] at hl; omega
  · by_cases hk : k < 13
    · exact (by decide +kernel : ∀ k < 13, ((("%-08.3f %zz %".toList).drop k).takeWhile digC).length ≤ 9) k hk
    · rw [List.drop_of_length_le (by have : ("%-08.3f %zz %".toList).length = 13 := by decide
                                     omega)]
      simp

/-- C86's hypothesis is met, with an argument too many. -/
theorem C86_example : formatString demoE (asc "%d-%s") [.num 5, .str (asc "x")] = .ok (asc "5-x") ∧
    formatString demoE (asc "%d-%s") [.num 5, .str (asc "x"), .num 9] = .ok (asc "5-x") ∧
    formatString demoE (asc "%d-%s") [.num 5] = .err := by
  refine ⟨?_, ?_, ?_⟩ <;> decide +kernel

end Verif.Fmt
