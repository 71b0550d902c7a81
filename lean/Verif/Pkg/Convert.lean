import Verif.Pkg.Version
/-!
# System.verConvert (C202)

`SysVerConvertCmd` (src/jsiCmds.c 3975-4013).
-/
namespace Verif.Pkg

/-- The loop over the text from its end: `len` the index, `e` where the text ends so far.  src/jsiCmds.c:3994-3999. -/
def truncLoop (b : List UInt8) : Nat → Nat → Nat → Nat
  | 0, _, e => e
  | t + 1, len, e =>
    if 1 < len then truncLoop b t (len - 2) (if b[len]? = some 48 ∧ b[len - 1]? = some 46 then len - 1 else e)
    else e

/-- The text after it.  src/jsiCmds.c:3992-4000. -/
def truncate (b : List UInt8) (t : Nat) : List UInt8 := b.take (truncLoop b t (b.length - 1) b.length)

/-- What `verConvert` gives. -/
inductive VerOut where
  | text (s : List UInt8)
  | number (v : ℚ)
  | null
  | error

/-- `verConvert(n, trunc)` of a number that is not negative; no `trunc` is 0.  src/jsiCmds.c:3981-4003. -/
def verConvertNum (fl : ℚ → ℚ) (n : ℚ) (t : Int) : VerOut :=
  if t < 0 ∨ 2 < t then .error else .text (truncate (verStr fl n) t.toNat)

/-- `verConvert(s)` of a text.  src/jsiCmds.c:4004-4013. -/
def verConvertText (fl : ℚ → ℚ) (s : List UInt8) : VerOut :=
  match getVerText fl s with
  | some v => .number v
  | none => .null

/-- A version with at most `t` zero parts left out at its end. -/
def shortVer (a b c t : Nat) : List UInt8 :=
  if 2 ≤ t ∧ b = 0 ∧ c = 0 then decN a
  else if 1 ≤ t ∧ c = 0 then decN a ++ 46 :: decN b
  else dotted a b c

theorem decN_one {n : Nat} (h : n < 10) : decN n = [UInt8.ofNat (48 + n)] := by
  unfold decN; rw [dif_pos h]

theorem decN_two {n : Nat} (h : 10 ≤ n) (h2 : n < 100) : decN n = [UInt8.ofNat (48 + n / 10), UInt8.ofNat (48 + n % 10)] := by
  rw [decN, dif_neg (by omega), decN_one (by omega)]; rfl

theorem decN_pos (n : Nat) : 0 < (decN n).length := by
  unfold decN; split <;> simp

theorem digit_inj {n : Nat} (h : n < 10) : (UInt8.ofNat (48 + n) = 48 ↔ n = 0) ∧ UInt8.ofNat (48 + n) ≠ 46 := by
  have : ∀ n : Fin 10, (UInt8.ofNat (48 + n.val) = 48 ↔ n.val = 0) ∧ UInt8.ofNat (48 + n.val) ≠ 46 := by decide +kernel
  exact this ⟨n, h⟩

theorem truncate_zero (b : List UInt8) : truncate b 0 = b := by simp [truncate, truncLoop]

theorem get_back (l r : List UInt8) (k i : Nat) (h : k = l.length + i) : (l ++ r)[k]? = r[i]? := by
  subst h
  rw [List.getElem?_append_right (Nat.le_add_right ..), Nat.add_sub_cancel_left]

/-- One step: the last two bytes. -/
theorem truncate_one (l : List UInt8) (y x : UInt8) (h : l ≠ []) :
    truncate (l ++ [y, x]) 1 = if x = 48 ∧ y = 46 then l else l ++ [y, x] := by
  have hl : 0 < l.length := List.length_pos_iff.2 h
  unfold truncate truncLoop truncLoop
  have e1 : (l ++ [y, x]).length - 1 = l.length + 1 := by simp
  rw [e1, if_pos (by omega), get_back l _ _ 1 rfl, get_back l _ _ 0 (by omega)]
  simp only [List.getElem?_cons_succ, List.getElem?_cons_zero, Option.some.injEq]
  split
  · simp
  · simp

/-- Two steps: the last four. -/
theorem truncate_two (l : List UInt8) (w z y x : UInt8) (h : l ≠ []) :
    truncate (l ++ [w, z, y, x]) 2 =
      if z = 48 ∧ w = 46 then l else if x = 48 ∧ y = 46 then l ++ [w, z] else l ++ [w, z, y, x] := by
  have hl : 0 < l.length := List.length_pos_iff.2 h
  unfold truncate truncLoop truncLoop truncLoop
  have e1 : (l ++ [w, z, y, x]).length - 1 = l.length + 3 := by simp
  rw [e1, if_pos (by omega), if_pos (by omega), get_back l _ (l.length + 3) 3 rfl, get_back l _ (l.length + 3 - 1) 2 (by omega),
    get_back l _ (l.length + 3 - 2) 1 (by omega), get_back l _ (l.length + 3 - 2 - 1) 0 (by omega)]
  simp only [List.getElem?_cons_succ, List.getElem?_cons_zero, Option.some.injEq]
  split
  · have : l.length + 3 - 2 - 1 = l.length := by omega
    rw [this]; simp
  · split
    · have : l.length + 3 - 1 = l.length + 2 := by omega
      rw [this, List.take_append]
      have h2 : l.length + 2 - l.length = 2 := by omega
      simp [List.take_of_length_le, h2]
    · simp

theorem trunc_dotted_one {a b c : Nat} (hc : c < 100) : truncate (dotted a b c) 1 = shortVer a b c 1 := by
  unfold shortVer
  rw [if_neg (by omega)]
  have hne : decN a ++ 46 :: decN b ≠ [] := by simp
  by_cases h : c < 10
  · have e : dotted a b c = (decN a ++ 46 :: decN b) ++ [46, UInt8.ofNat (48 + c)] := by simp [dotted, decN_one h]
    rw [e, truncate_one _ _ _ hne]
    by_cases hz : c = 0
    · rw [if_pos ⟨(digit_inj h).1.2 hz, rfl⟩, if_pos ⟨by omega, hz⟩]
    · rw [if_neg (fun x => hz ((digit_inj h).1.1 x.1)), if_neg (fun x => hz x.2)]
  · have e : dotted a b c = (decN a ++ 46 :: (decN b ++ [46])) ++ [UInt8.ofNat (48 + c / 10), UInt8.ofNat (48 + c % 10)] := by
      simp [dotted, decN_two (Nat.le_of_not_lt h) hc]
    rw [e, truncate_one _ _ _ (by simp), if_neg (fun x => (digit_inj (by omega)).2 x.2), if_neg (by omega)]

theorem trunc_dotted_two {a b c : Nat} (hb : b < 100) (hc : c < 100) :
    truncate (dotted a b c) 2 = if b = 0 ∧ c < 10 then decN a else shortVer a b c 2 := by
  have hA : decN a ≠ [] := List.length_pos_iff.1 (decN_pos a)
  by_cases h : c < 10
  · by_cases h' : b < 10
    · have e : dotted a b c = decN a ++ [46, UInt8.ofNat (48 + b), 46, UInt8.ofNat (48 + c)] := by
        simp [dotted, decN_one h, decN_one h']
      rw [e, truncate_two _ _ _ _ _ hA]
      by_cases hz : b = 0
      · rw [if_pos ⟨(digit_inj h').1.2 hz, rfl⟩, if_pos ⟨hz, h⟩]
      · have hR : (if b = 0 ∧ c < 10 then decN a else shortVer a b c 2) = if 1 ≤ 2 ∧ c = 0 then decN a ++ 46 :: decN b else dotted a b c := by
          rw [if_neg (fun x => hz x.1)]
          unfold shortVer
          rw [if_neg (fun x => hz x.2.1)]
        rw [if_neg (fun x => hz ((digit_inj h').1.1 x.1)), hR]
        by_cases hy : c = 0
        · rw [if_pos ⟨(digit_inj h).1.2 hy, rfl⟩, if_pos ⟨by omega, hy⟩, decN_one h']
        · rw [if_neg (fun x => hy ((digit_inj h).1.1 x.1)), if_neg (fun x => hy x.2), e]
    · have e : dotted a b c = (decN a ++ [46]) ++ [UInt8.ofNat (48 + b / 10), UInt8.ofNat (48 + b % 10), 46, UInt8.ofNat (48 + c)] := by
        simp [dotted, decN_one h, decN_two (Nat.le_of_not_lt h') hb]
      have hR : (if b = 0 ∧ c < 10 then decN a else shortVer a b c 2) = if 1 ≤ 2 ∧ c = 0 then decN a ++ 46 :: decN b else dotted a b c := by
        have hb0 : b ≠ 0 := by omega
        rw [if_neg (fun x => hb0 x.1)]
        unfold shortVer
        rw [if_neg (fun x => hb0 x.2.1)]
      rw [e, truncate_two _ _ _ _ _ (by simp), if_neg (fun x => absurd x.2 (digit_inj (by omega)).2), hR]
      by_cases hy : c = 0
      · rw [if_pos ⟨(digit_inj h).1.2 hy, rfl⟩, if_pos ⟨by omega, hy⟩, decN_two (Nat.le_of_not_lt h') hb]; simp
      · rw [if_neg (fun x => hy ((digit_inj h).1.1 x.1)), if_neg (fun x => hy x.2), e]
  · have hcs : ∀ (l : List UInt8) (w : UInt8), dotted a b c = l ++ [w, 46, UInt8.ofNat (48 + c / 10), UInt8.ofNat (48 + c % 10)] → l ≠ [] →
        truncate (dotted a b c) 2 = dotted a b c := by
      intro l w e hl
      rw [e, truncate_two _ _ _ _ _ hl, if_neg (fun x => absurd x.1 (by decide)), if_neg (fun x => (digit_inj (by omega)).2 x.2)]
    have hs : (if b = 0 ∧ c < 10 then decN a else shortVer a b c 2) = dotted a b c := by
      rw [if_neg (fun x => h x.2)]
      unfold shortVer
      rw [if_neg (by omega), if_neg (by omega)]
    rw [hs]
    by_cases h' : b < 10
    · exact hcs (decN a ++ [46]) (UInt8.ofNat (48 + b)) (by simp [dotted, decN_one h', decN_two (Nat.le_of_not_lt h) hc]) (by simp)
    · exact hcs (decN a ++ [46, UInt8.ofNat (48 + b / 10)]) (UInt8.ofNat (48 + b % 10))
        (by simp [dotted, decN_two (Nat.le_of_not_lt h') hb, decN_two (Nat.le_of_not_lt h) hc]) (by simp)

/-- **C202 (part).** A version text becomes a number, and that number the text again, with `t` zero parts at its end left out: for `t` 0 and 1. -/
theorem C202_there_and_back_partial {fl : ℚ → ℚ} (hf : Rounds fl) {s : List UInt8} {a b c : Nat} (h : Version s a b c)
    (ha : a < 100) (hb : b < 100) (hc : c < 100) :
    ∃ v, verConvertText fl s = .number v ∧ verConvertNum fl v 0 = .text (dotted a b c) ∧
      verConvertNum fl v 1 = .text (if c = 0 then decN a ++ 46 :: decN b else dotted a b c) := by
  obtain ⟨v, h1, h2⟩ := C111_shown_as_given_partial hf h ha hb hc
  refine ⟨v, by unfold verConvertText; rw [h1], ?_, ?_⟩
  · unfold verConvertNum
    rw [if_neg (by omega), h2]
    show VerOut.text (truncate _ 0) = _
    rw [truncate_zero]
  · unfold verConvertNum
    rw [if_neg (by omega), h2]
    show VerOut.text (truncate _ 1) = _
    rw [trunc_dotted_one hc]
    unfold shortVer
    rw [if_neg (by omega)]
    by_cases hz : c = 0
    · rw [if_pos ⟨by omega, hz⟩, if_pos hz]
    · rw [if_neg (fun x => hz x.2), if_neg hz]

/-- **C202 (part).** … and for `t` 2, unless the middle part alone is zero and the last has one digit. -/
theorem C202_two_partial {fl : ℚ → ℚ} (hf : Rounds fl) {s : List UInt8} {a b c : Nat} (h : Version s a b c)
    (ha : a < 100) (hb : b < 100) (hc : c < 100) (hn : ¬ (b = 0 ∧ 0 < c ∧ c < 10)) :
    ∃ v, verConvertText fl s = .number v ∧
      verConvertNum fl v 2 = .text (if b = 0 ∧ c = 0 then decN a else if c = 0 then decN a ++ 46 :: decN b else dotted a b c) := by
  obtain ⟨v, h1, h2⟩ := C111_shown_as_given_partial hf h ha hb hc
  refine ⟨v, by unfold verConvertText; rw [h1], ?_⟩
  unfold verConvertNum
  rw [if_neg (by omega), h2]
  show VerOut.text (truncate _ 2) = _
  rw [trunc_dotted_two hb hc]
  unfold shortVer
  congr 1
  by_cases hz : c = 0
  · by_cases hy : b = 0
    · rw [if_pos ⟨hy, by omega⟩, if_pos ⟨hy, hz⟩]
    · rw [if_neg (fun x => hy x.1), if_neg (fun x => hy x.2.1), if_pos ⟨by omega, hz⟩, if_neg (fun x => hy x.1), if_pos hz]
  · rw [if_neg (fun x => hn ⟨x.1, by omega, x.2⟩), if_neg (fun x => hz x.2.2), if_neg (fun x => hz x.2), if_neg (fun x => hz x.2), if_neg hz]

/-- **C202 refuted.** `verConvert(verConvert("1.0.5"), 2)`, and every such version `a.0.c`, is `a`. -/
theorem C202_zero_refuted {fl : ℚ → ℚ} (hf : Rounds fl) {s : List UInt8} {a c : Nat} (h : Version s a 0 c) (ha : a < 100) (hc : c < 10) :
    ∃ v, verConvertText fl s = .number v ∧ verConvertNum fl v 2 = .text (decN a) := by
  obtain ⟨v, h1, h2⟩ := C111_shown_as_given_partial hf h ha (by omega) (by omega)
  refine ⟨v, by unfold verConvertText; rw [h1], ?_⟩
  unfold verConvertNum
  rw [if_neg (by omega), h2]
  show VerOut.text (truncate _ 2) = _
  rw [trunc_dotted_two (by omega) (by omega), if_pos ⟨rfl, hc⟩]

/-- **C202** Another number of parts is an error, and a text that is no version is null. -/
theorem C202_other (fl : ℚ → ℚ) : (∀ n t, t < 0 ∨ 2 < t → verConvertNum fl n t = .error) ∧ (∀ s, getVerText fl s = none → verConvertText fl s = .null) := by
  constructor
  · intro n t h; unfold verConvertNum; rw [if_pos h]
  · intro s h; unfold verConvertText; rw [h]

example : Version (asc "1.0.5") 1 0 5 :=
  ⟨asc "1", ⟨by decide +kernel, by decide +kernel, by decide +kernel⟩, Or.inr ⟨asc "0", ⟨by decide +kernel, by decide +kernel, by decide +kernel⟩,
    Or.inr ⟨asc "5", ⟨by decide +kernel, by decide +kernel, by decide +kernel⟩, by decide +kernel⟩⟩⟩

end Verif.Pkg
