import Verif.Fmt.Whole

/-! C84: `format` does what `printf` says.  C87: printed integers read back. -/

namespace Verif.Fmt
open Verif Verif.Utf8

/-- **C84, the part that holds.** For every format made of characters, `%%` and directives, and every
argument list, `format` gives what the specification `render` says - the text, or an error.
Missing, and false: the `0` flag with left justification for text, a precision with `%q`, strings with
NUL for `%S` and `%q` (`C84_*_refuted`); widths or precisions above 10^9 and more than 70 flags
(`C85_*`); a width that counts characters rather than bytes (`C84_width_characters_refuted`). -/
theorem C84_format_partial {F} (E : Env F) (hE : LibcOk E) (segs : List Seg) (args : List (Arg F))
    (hok : ∀ g ∈ segs, g.Ok) (htame : ∀ g ∈ segs, g.Tame) (hnn : NoNulArgs segs args) :
    match render E segs args with
    | .ok t => formatString E (fmtText segs) args = .ok t
    | .err => formatString E (fmtText segs) args = .err
    | .big => True := by
  have h := loop_text E hE (.str (fmtText segs) :: args) segs ((fmtText segs).length + 1)
    ⟨fmtText segs, fmtText segs, 0, [], 1, 100⟩ hok htame hnn rfl (by simp) (by simp) rfl (by simp)
  simp only [List.drop_succ_cons, List.drop_zero, List.take_zero, List.nil_append] at h
  exact h

/-- Text without `%` is given back unchanged, whatever the arguments. -/
theorem C84_plain_text {F} (E : Env F) (cs : List Char) (h : '%' ∉ cs) (args : List (Arg F)) :
    formatString E (enc cs) args = .ok (enc cs) := by
  have key : ∀ (cs : List Char), '%' ∉ cs → ∀ (n : Nat) (s : St), s.rem = enc cs → s.rem.length < n →
      s.span.drop s.nb = s.rem → s.nb ≤ s.span.length →
      loop E (.str (enc cs) :: args) n s = .ok (s.out ++ s.span) := by
    intro cs0
    suffices hh : ∀ (A : List (Arg F)) (cs : List Char), '%' ∉ cs → ∀ (n : Nat) (s : St), s.rem = enc cs → s.rem.length < n →
      s.span.drop s.nb = s.rem → s.nb ≤ s.span.length → loop E A n s = .ok (s.out ++ s.span) from hh _ cs0
    intro A cs
    induction cs with
    | nil =>
      intro _ n s hrem hn hsp hnb
      cases n with
      | zero => omega
      | succ n =>
        have h0 : s.rem = [] := by rw [hrem]; rfl
        rw [loop, if_pos h0]
        rw [h0] at hsp
        have : s.span.take s.nb = s.span := by
          have := List.take_append_drop s.nb s.span
          rw [hsp, List.append_nil] at this; exact this
        rw [this]
    | cons c cs ih =>
      intro hc n s hrem hn hsp hnb
      cases n with
      | zero => omega
      | succ n =>
        rw [enc_cons] at hrem
        have hpk : peek s.rem = (c.toNat, (String.utf8EncodeChar c).length) := by rw [hrem]; exact peek_enc c _
        have hpos := enc_pos c
        have hl : s.rem.length = (String.utf8EncodeChar c).length + (enc cs).length := by rw [hrem]; simp
        have hne : s.rem ≠ [] := by intro h0; rw [h0, List.length_nil] at hl; omega
        have hc2 : c.toNat ≠ 37 := by
          intro h0
          exact hc (by rw [show '%' = c from (Char.toNat_inj.1 h0).symm]; simp)
        have hdrop : s.rem.drop (String.utf8EncodeChar c).length = enc cs := by rw [hrem]; simp
        have hr : round E A s = .ok { s with rem := enc cs, nb := s.nb + (String.utf8EncodeChar c).length } := by
          unfold round
          simp only [hpk, hdrop]
          rw [if_pos hc2]
        rw [loop, if_neg hne, hr]
        have hsl : s.span.length = s.nb + s.rem.length := by
          have := congrArg List.length hsp
          simp only [List.length_drop] at this; omega
        exact ih (fun h0 => hc (by simp [h0])) n { s with rem := enc cs, nb := s.nb + (String.utf8EncodeChar c).length } rfl
          (by simp only []; omega) (by simp only []; rw [← List.drop_drop, hsp, hdrop]) (by simp only []; omega)
  have := key cs h ((enc cs).length + 1) ⟨enc cs, enc cs, 0, [], 1, 100⟩ rfl (by simp) rfl (by simp)
  simpa [formatString] using this

/-! ### Reading integers back -/

/-- The value of a digit in base `b` (`strtol`). -/
def digVal (b : Nat) (c : UInt8) : Option Nat :=
  let v := if 48 ≤ c ∧ c ≤ 57 then c.toNat - 48 else if 97 ≤ c ∧ c ≤ 122 then c.toNat - 87
    else if 65 ≤ c ∧ c ≤ 90 then c.toNat - 55 else 99
  if v < b then some v else none

/-- Digits up to the first character that is none. -/
def readDigits (b : Nat) : Nat → List UInt8 → Nat
  | acc, [] => acc
  | acc, c :: t =>
    match digVal b c with
    | some v => readDigits b (acc * b + v) t
    | none => acc

/-- An unsigned number, with `0x` in base 16. -/
def readNat (b : Nat) (s : List UInt8) : Nat :=
  match s with
  | 48 :: x :: t => if b = 16 ∧ (x = 120 ∨ x = 88) then readDigits b 0 t else readDigits b 0 (48 :: x :: t)
  | s => readDigits b 0 s

/-- What C's `strtol` reads: blanks, a sign, the digits. -/
def strtol (b : Nat) (s : List UInt8) : Int :=
  match s.dropWhile (· == 32) with
  | 45 :: t => -(readNat b t : Int)
  | 43 :: t => readNat b t
  | t => readNat b t

theorem digVal_digit : ∀ v < 16, ∀ up : Bool, (digVal 16 (digit up v) = some v ∧ (v < 10 → digVal 10 (digit up v) = some v) ∧
    (v < 8 → digVal 8 (digit up v) = some v)) ∧ digit up v ≠ 120 ∧ digit up v ≠ 88 ∧ digit up v ≠ 32 ∧ digit up v ≠ 45 ∧ digit up v ≠ 43 := by
  decide +kernel

theorem digVal_ok {b v : Nat} (hb : b = 8 ∨ b = 10 ∨ b = 16) (up : Bool) (hv : v < b) : digVal b (digit up v) = some v := by
  rcases hb with h | h | h <;> subst h
  · exact (digVal_digit v (by omega) up).1.2.2 hv
  · exact (digVal_digit v (by omega) up).1.2.1 hv
  · exact (digVal_digit v (by omega) up).1.1

theorem readDigits_digits {b : Nat} (hb : b = 8 ∨ b = 10 ∨ b = 16) (up : Bool) (n : Nat) : ∀ T,
    readDigits b 0 (digits b up n ++ T) = readDigits b n T := by
  have h2 : 2 ≤ b := by omega
  induction n using Nat.strongRecOn with
  | _ n ih =>
    intro T
    by_cases h : n < b
    · rw [digits_lt h]
      simp only [List.cons_append, List.nil_append, readDigits, digVal_ok hb up h]
      simp
    · rw [digits_ge h2 (by omega), List.append_assoc, ih (n / b) (Nat.div_lt_self (by omega) (by omega))]
      simp only [List.cons_append, List.nil_append, readDigits, digVal_ok hb up (Nat.mod_lt n (by omega))]
      rw [Nat.div_add_mod']

theorem readDigits_zeros {b : Nat} (hb : b = 8 ∨ b = 10 ∨ b = 16) (k : Nat) (T : List UInt8) :
    readDigits b 0 (List.replicate k 48 ++ T) = readDigits b 0 T := by
  induction k with
  | zero => rfl
  | succ k ih =>
    have : digVal b 48 = some 0 := by rcases hb with h | h | h <;> subst h <;> decide
    rw [List.replicate_succ, List.cons_append, readDigits, this]
    simpa using ih

theorem readDigits_blanks {b : Nat} (hb : b = 8 ∨ b = 10 ∨ b = 16) (n k : Nat) : readDigits b n (List.replicate k 32) = n := by
  cases k with
  | zero => rfl
  | succ k =>
    have : digVal b 32 = none := by rcases hb with h | h | h <;> subst h <;> decide
    rw [List.replicate_succ, readDigits, this]

theorem base_cases (c : UInt8) : baseOf c = 8 ∨ baseOf c = 10 ∨ baseOf c = 16 := by
  unfold baseOf; split
  · exact Or.inl rfl
  · split
    · exact Or.inr (Or.inr rfl)
    · exact Or.inr (Or.inl rfl)

theorem body_read (d : CDir) (w : Int) (T : List UInt8) :
    readDigits (baseOf d.conv) 0 (body d w ++ T) = readDigits (baseOf d.conv) (mag d.conv w) T := by
  have hb := base_cases d.conv
  unfold body
  simp only []
  generalize hA : (if d.prec = some 0 ∧ mag d.conv w = 0 then ([] : List UInt8)
    else digits (baseOf d.conv) (d.conv == 88) (mag d.conv w)) = A
  have hAr : ∀ T, readDigits (baseOf d.conv) 0 (A ++ T) = readDigits (baseOf d.conv) (mag d.conv w) T := by
    intro T
    rw [← hA]
    split
    · rename_i h; rw [h.2]; rfl
    · exact readDigits_digits hb _ _ T
  split
  · rw [List.cons_append, List.append_assoc]
    have := readDigits_zeros hb 1 (List.replicate (d.prec.getD 1 - A.length) 48 ++ (A ++ T))
    simp only [List.replicate_one, List.cons_append, List.nil_append] at this
    rw [this, readDigits_zeros hb, hAr]
  · rw [List.append_assoc, readDigits_zeros hb, hAr]

/-- A character of a printed number's digits. -/
def DigLike (c : UInt8) : Prop := c ≠ 120 ∧ c ≠ 88 ∧ c ≠ 32 ∧ c ≠ 45 ∧ c ≠ 43

theorem digits_like {b : Nat} (h2 : 2 ≤ b) (h16 : b ≤ 16) (up : Bool) (n : Nat) : ∀ c ∈ digits b up n, DigLike c := by
  induction n using Nat.strongRecOn with
  | _ n ih =>
    by_cases h : n < b
    · rw [digits_lt h]; intro c hc; rw [List.mem_singleton.1 hc]; exact (digVal_digit n (by omega) up).2
    · rw [digits_ge h2 (by omega)]
      intro c hc
      rcases List.mem_append.1 hc with hc | hc
      · exact ih _ (Nat.div_lt_self (by omega) (by omega)) c hc
      · rw [List.mem_singleton.1 hc]
        have := Nat.mod_lt n (y := b) (by omega)
        exact (digVal_digit _ (by omega) up).2

theorem zero_like : DigLike 48 := by unfold DigLike; decide

theorem body_like (d : CDir) (w : Int) : ∀ c ∈ body d w, DigLike c := by
  have hb := base_cases d.conv
  intro c
  unfold body
  simp only []
  generalize hA : (if d.prec = some 0 ∧ mag d.conv w = 0 then ([] : List UInt8)
    else digits (baseOf d.conv) (d.conv == 88) (mag d.conv w)) = A
  have hAl : ∀ c ∈ A, DigLike c := by
    rw [← hA]; split
    · intro c hc; cases hc
    · exact digits_like (by omega) (by omega) _ _
  have h2 : ∀ k, ∀ c ∈ List.replicate k 48 ++ A, DigLike c := by
    intro k c hc
    rcases List.mem_append.1 hc with hc | hc
    · rw [List.eq_of_mem_replicate hc]; exact zero_like
    · exact hAl c hc
  split
  · intro hc
    rcases List.mem_cons.1 hc with hc | hc
    · rw [hc]; exact zero_like
    · exact h2 _ c hc
  · exact h2 _ c

theorem readNat_plain (b : Nat) (s : List UInt8) (h : ∀ c ∈ s, c ≠ 120 ∧ c ≠ 88) : readNat b s = readDigits b 0 s := by
  unfold readNat
  split
  · rename_i x t
    have := h x (by simp)
    rw [if_neg (by rintro ⟨_, h1 | h1⟩ <;> simp_all)]
  · rfl

theorem dropBlanks (k : Nat) (s : List UInt8) : (List.replicate k 32 ++ s).dropWhile (· == 32) = s.dropWhile (· == 32) := by
  induction k with
  | zero => rfl
  | succ k ih => rw [List.replicate_succ, List.cons_append, List.dropWhile_cons]; simpa using ih

/-- Digits followed by blanks, read after the blanks in front are skipped. -/
theorem read_tail (b : Nat) (s : List UInt8) (k : Nat) (hs : ∀ c ∈ s, DigLike c) (hb : b = 8 ∨ b = 10 ∨ b = 16) :
    (∀ x t, (s ++ List.replicate k 32).dropWhile (· == 32) = x :: t → x ≠ 45 ∧ x ≠ 43) ∧
    readNat b ((s ++ List.replicate k 32).dropWhile (· == 32)) = readDigits b 0 (s ++ List.replicate k 32) := by
  cases s with
  | nil =>
    have e : ([] ++ List.replicate k (32 : UInt8)).dropWhile (· == 32) = [] := by
      have := dropBlanks k []
      simpa using this
    rw [e]
    refine ⟨(fun x t h => by cases h), ?_⟩
    rw [List.nil_append, readDigits_blanks hb]; rfl
  | cons c s =>
    have hc := hs c (by simp)
    have e : ((c :: s) ++ List.replicate k (32 : UInt8)).dropWhile (· == 32) = (c :: s) ++ List.replicate k 32 := by
      rw [List.cons_append, List.dropWhile_cons, if_neg (by simpa using hc.2.2.1)]
    rw [e]
    refine ⟨fun x t h => ?_, readNat_plain b _ ?_⟩
    · have : c = x := (List.cons.inj h).1
      subst this; exact hc.2.2.2
    · intro x hx
      rcases List.mem_append.1 hx with hx | hx
      · exact ⟨(hs x hx).1, (hs x hx).2.1⟩
      · rw [List.eq_of_mem_replicate hx]; decide

/-- The general shape of a printed integer reads back. -/
theorem strtol_shape (d : CDir) (w : Int) (k1 k2 k3 : Nat) :
    strtol (baseOf d.conv) (List.replicate k1 32 ++ (lead d w ++ (List.replicate k2 48 ++ body d w ++ List.replicate k3 32))) =
      if d.conv = 100 then w else (mag d.conv w : Int) := by
  have hb := base_cases d.conv
  have hs : ∀ c ∈ List.replicate k2 48 ++ body d w, DigLike c := by
    intro c hc
    rcases List.mem_append.1 hc with hc | hc
    · rw [List.eq_of_mem_replicate hc]; exact zero_like
    · exact body_like d w c hc
  have hv : readDigits (baseOf d.conv) 0 (List.replicate k2 48 ++ body d w ++ List.replicate k3 32) = mag d.conv w := by
    rw [List.append_assoc, readDigits_zeros hb, body_read, readDigits_blanks hb]
  obtain ⟨t1, t2⟩ := read_tail (baseOf d.conv) (List.replicate k2 48 ++ body d w) k3 hs hb
  rw [hv] at t2
  have hpl : ∀ c ∈ List.replicate k2 48 ++ body d w ++ List.replicate k3 32, c ≠ 120 ∧ c ≠ 88 := by
    intro c hc
    rcases List.mem_append.1 hc with hc | hc
    · exact ⟨(hs c hc).1, (hs c hc).2.1⟩
    · rw [List.eq_of_mem_replicate hc]; decide
  have hpv := readNat_plain (baseOf d.conv) _ hpl
  rw [hv] at hpv
  generalize hX : List.replicate k2 48 ++ body d w ++ List.replicate k3 32 = X at *
  have plain : ∀ Y, Y = X.dropWhile (· == 32) → (match Y with
      | 45 :: t => -(readNat (baseOf d.conv) t : Int)
      | 43 :: t => (readNat (baseOf d.conv) t : Int)
      | t => (readNat (baseOf d.conv) t : Int)) = (mag d.conv w : Int) := by
    intro Y hY
    rw [← hY] at t1 t2
    split
    · exact absurd rfl (t1 _ _ rfl).1
    · exact absurd rfl (t1 _ _ rfl).2
    · rw [t2]
  unfold strtol
  rw [dropBlanks]
  by_cases h100 : d.conv = 100
  · rw [if_pos h100]
    have hm : mag d.conv w = w.natAbs := by unfold mag; rw [if_pos h100]
    have hl : lead d w = if w < 0 then [45] else if d.plus then [43] else if d.space then [32] else [] := by
      unfold lead; rw [if_pos h100]
    rw [hl]
    by_cases hw : w < 0
    · rw [if_pos hw]
      have e : ([45] ++ X).dropWhile (· == 32) = 45 :: X := rfl
      rw [e]
      simp only []
      rw [hpv, hm]; omega
    · rw [if_neg hw]
      by_cases hp : d.plus = true
      · rw [if_pos hp]
        have e : ([43] ++ X).dropWhile (· == 32) = 43 :: X := rfl
        rw [e]
        simp only []
        rw [hpv, hm]; omega
      · rw [if_neg hp]
        have e : ((if d.space = true then [32] else []) ++ X).dropWhile (· == 32) = X.dropWhile (· == 32) := by
          split <;> rfl
        have := plain _ e
        rw [this, hm]; omega
  · rw [if_neg h100]
    have hl : lead d w = if (d.conv = 120 ∨ d.conv = 88) ∧ d.alt ∧ mag d.conv w ≠ 0 then [48, d.conv] else [] := by
      unfold lead; rw [if_neg h100]
    rw [hl]
    by_cases hx : (d.conv = 120 ∨ d.conv = 88) ∧ d.alt = true ∧ mag d.conv w ≠ 0
    · rw [if_pos hx]
      have e : ([48, d.conv] ++ X).dropWhile (· == 32) = 48 :: d.conv :: X := rfl
      rw [e]
      have hb16 : baseOf d.conv = 16 := by
        unfold baseOf
        rw [if_neg (by rcases hx.1 with h | h <;> rw [h] <;> decide), if_pos hx.1]
      have : readNat (baseOf d.conv) (48 :: d.conv :: X) = readDigits (baseOf d.conv) 0 X := by
        simp only [readNat]
        rw [if_pos ⟨hb16, hx.1⟩]
      rw [hv] at this
      show (readNat (baseOf d.conv) (48 :: d.conv :: X) : Int) = _
      rw [this]
    · rw [if_neg hx]; exact plain _ rfl

/-- What C's printf prints for an integer, C's strtol reads back. -/
theorem cInt_read (d : CDir) (w : Int) :
    strtol (baseOf d.conv) (cInt d w) = if d.conv = 100 then w else (mag d.conv w : Int) := by
  unfold cInt
  simp only []
  generalize d.width - ((lead d w).length + (body d w).length) = k
  split
  · have := strtol_shape d w 0 0 k
    simpa [List.append_assoc] using this
  · split
    · have := strtol_shape d w 0 k 0
      simpa [List.append_assoc] using this
    · have := strtol_shape d w k 0 0
      simpa [List.append_assoc] using this

/-- **C87.** An integer printed with any of the integer conversions, with any flags (up to 70), width and
precision (up to 10^9), is read back by `strtol`: the same integer for `d` and `i`, the integer modulo
2^64 for the unsigned conversions; with `o` in base 8, `x` and `X` in base 16. -/
theorem C87_integers_read_back {F} (E : Env F) (hE : LibcOk E) (d : Dir) (hd : d.Ok) (hc : d.conv ∈ asc "diuoxX")
    (hw : d.width ≠ .star ∧ ∀ n, d.width = .lit n → n ≤ 10^9) (hp : d.prec ≠ .star ∧ ∀ n, d.prec = .lit n → n ≤ 10^9) (x : F) :
    ∃ t, formatString E d.text [.num x] = .ok t ∧
      strtol (if d.conv ∈ asc "o" then 8 else if d.conv ∈ asc "xX" then 16 else 10) t =
        if d.conv ∈ asc "di" then E.wide x else E.wide x % 2^64 := by
  have ht : (Seg.dir d).Tame := ⟨fun h => absurd h
      ((by decide : ∀ c ∈ asc "diuoxX", c ∉ asc "sSqcC") _ hc),
    fun h => absurd h ((by decide : ∀ c ∈ asc "diuoxX", c ≠ 113) _ hc)⟩
  have key := C84_format_partial E hE [.dir d] [.num x] (by simpa [Seg.Ok] using hd) (by simpa using ht)
    (fun d' h v hv hc' => by
      intro b hb
      subst hb
      simp at hv)
  have hft : fmtText [.dir d] = d.text := by simp [fmtText, Seg.text]
  rw [hft] at key
  have hW : ∃ W : Nat, widthOf E d.width [.num x] = some ((W : Int), [Arg.num x]) ∧ W ≤ 10^9 := by
    cases h : d.width with
    | none => exact ⟨0, rfl, by decide⟩
    | lit n => exact ⟨n, rfl, hw.2 n h⟩
    | star => exact absurd h hw.1
  have hP : ∃ P, precOf E d.prec [.num x] = some (P, [Arg.num x]) ∧ P.getD 0 ≤ 10^9 := by
    cases h : d.prec with
    | none => exact ⟨none, rfl, by decide⟩
    | lit n => exact ⟨some n, rfl, hp.2 n h⟩
    | star => exact absurd h hp.1
  obtain ⟨W, hW1, hW2⟩ := hW
  obtain ⟨P, hP1, hP2⟩ := hP
  let c : CDir := ⟨d.flags.contains 45 || decide ((W : Int) < 0), d.flags.contains 43, d.flags.contains 32, d.flags.contains 35,
    d.flags.contains 48, W, P, if d.conv ∈ asc "i" then 100 else d.conv⟩
  have hr : render E [.dir d] [.num x] = .ok (cInt c (E.wide x)) := by
    have n1 : ∀ c ∈ asc "diuoxX", c ∉ asc "s" ∧ c ∉ asc "S" ∧ c ∉ asc "q" ∧ c ∉ asc "cC" := by decide
    obtain ⟨a1, a2, a3, a4⟩ := n1 _ hc
    have h1 : dirRes E d [.num x] = .ok (cInt c (E.wide x)) [] := by
      unfold dirRes
      rw [hW1]
      simp only [hP1]
      unfold dirEnd
      rw [if_neg (by simp only [Int.natAbs_natCast]; omega)]
      simp only [conv1, if_neg a1, if_neg a2, if_neg a3, if_neg a4, if_pos hc]
      simp only [Int.natAbs_natCast]
      rfl
    simp [render, h1]
  rw [hr] at key
  refine ⟨_, key, ?_⟩
  have hrd := cInt_read c (E.wide x)
  have hcc : c.conv = if d.conv ∈ asc "i" then 100 else d.conv := rfl
  rw [hcc] at hrd
  have h6 : d.conv = 100 ∨ d.conv = 105 ∨ d.conv = 117 ∨ d.conv = 111 ∨ d.conv = 120 ∨ d.conv = 88 := by
    have e : asc "diuoxX" = [100, 105, 117, 111, 120, 88] := by decide
    rw [e] at hc; simpa using hc
  have hmod : ∀ k : UInt8, k ≠ 100 → (mag k (E.wide x) : Int) = E.wide x % 2^64 := by
    intro k hk
    unfold mag; rw [if_neg hk]
    have := Int.emod_nonneg (E.wide x) (b := 2^64) (by decide)
    omega
  rcases h6 with h | h | h | h | h | h <;> rw [h] at hrd ⊢
  · exact hrd
  · exact hrd
  · exact hrd.trans (hmod 117 (by decide))
  · exact hrd.trans (hmod 111 (by decide))
  · exact hrd.trans (hmod 120 (by decide))
  · exact hrd.trans (hmod 88 (by decide))

/-- Different integers never print alike with `d` or `i`. -/
theorem C87_different_integers {F} (E : Env F) (hE : LibcOk E) (d : Dir) (hd : d.Ok) (hc : d.conv ∈ asc "di")
    (hw : d.width ≠ .star ∧ ∀ n, d.width = .lit n → n ≤ 10^9) (hp : d.prec ≠ .star ∧ ∀ n, d.prec = .lit n → n ≤ 10^9) (x y : F)
    (h : formatString E d.text [.num x] = formatString E d.text [.num y]) : E.wide x = E.wide y := by
  have hc' : d.conv ∈ asc "diuoxX" := (by decide : ∀ c ∈ asc "di", c ∈ asc "diuoxX") _ hc
  obtain ⟨t1, a1, b1⟩ := C87_integers_read_back E hE d hd hc' hw hp x
  obtain ⟨t2, a2, b2⟩ := C87_integers_read_back E hE d hd hc' hw hp y
  rw [if_pos hc] at b1 b2
  rw [a1, a2] at h
  cases h
  rw [← b1, ← b2]

end Verif.Fmt
