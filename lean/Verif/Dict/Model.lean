import Verif.Basic

/-!
Model of `Jsi_DictionaryCompare`, src/jsiChar.c:180-280: the comparison of string-keyed trees
(src/jsiTree.c:265-269) and of `sort` in dictionary mode (src/jsiValue.c:931).

A C string is the list of its bytes without the terminating NUL; `*s` at the end of the list is 0.
-/

namespace Verif.Dict

/-- `isdigit`, `isupper`, `islower` in the C locale. -/
def digit (c : UInt8) : Bool := decide (48 ≤ c.toNat) && decide (c.toNat ≤ 57)
def upper (c : UInt8) : Bool := decide (65 ≤ c.toNat) && decide (c.toNat ≤ 90)
def lower (c : UInt8) : Bool := decide (97 ≤ c.toNat) && decide (c.toNat ≤ 122)

/-- `*s`. -/
def hd (s : List UInt8) : UInt8 := s.headD 0

/-- `while (*s == '0' && isdigit(s[1])) s++`, lines 198-205: what is left and the number of steps. -/
def stripZeros : List UInt8 → List UInt8 × Nat
  | [] => ([], 0)
  | c :: t => if c = 48 ∧ digit (hd t) = true then ((stripZeros t).1, (stripZeros t).2 + 1) else (c :: t, 0)

/-- `if (*s == ',') s++`, lines 226-231. -/
def dropComma : List UInt8 → List UInt8
  | [] => []
  | c :: t => if c = 44 then t else c :: t

/-- `if (diff == 0) diff = UCHAR(*left) - UCHAR(*right)`, lines 220-222. -/
def nd (diff : Int) (a b : UInt8) : Int := if diff = 0 then (a.toNat : Int) - b.toNat else diff

/-- The loop of lines 218-250, on two strings that start with a digit.  `inl`: the result; `inr`: where the two
pointers are when the numbers are equal. -/
def numLoop (diff : Int) : List UInt8 → List UInt8 → Int ⊕ (List UInt8 × List UInt8)
  | a :: l, b :: r =>
    if digit (hd (dropComma r)) = false then
      if digit (hd (dropComma l)) = true then .inl 1
      else if nd diff a b ≠ 0 then
        .inl (nd diff a b)
      else .inr (dropComma l, dropComma r)
    else if digit (hd (dropComma l)) = false then .inl (-1)
    else numLoop (nd diff a b) (dropComma l) (dropComma r)
  | l, r => .inr (l, r)
termination_by l _ => l.length
decreasing_by
  cases l with
  | nil => simp [dropComma]
  | cons c t => simp only [dropComma]; split <;> simp <;> omega

theorem dropComma_length (l : List UInt8) : (dropComma l).length ≤ l.length := by
  cases l with
  | nil => simp [dropComma]
  | cons c t => simp only [dropComma]; split <;> simp

theorem stripZeros_length (l : List UInt8) : (stripZeros l).1.length ≤ l.length := by
  induction l with
  | nil => simp [stripZeros]
  | cons c t ih => simp only [stripZeros]; split <;> simp; omega

theorem stripZeros_ne (l : List UInt8) (h : l ≠ []) : (stripZeros l).1 ≠ [] := by
  induction l with
  | nil => exact absurd rfl h
  | cons c t ih =>
    simp only [stripZeros]
    split
    · rename_i h'
      apply ih
      rintro rfl
      exact absurd h'.2 (by decide)
    · simp

theorem numLoop_length (n : Nat) : ∀ (l r : List UInt8) (d : Int) (l2 r2 : List UInt8), l.length ≤ n →
    l ≠ [] → r ≠ [] → numLoop d l r = .inr (l2, r2) → l2.length < l.length := by
  induction n with
  | zero => intro l r d l2 r2 hn hl; simp at hn; exact absurd hn hl
  | succ n ih =>
    intro l r d l2 r2 hn hl hr h
    match l, r, hl, hr with
    | a :: l, b :: r, _, _ =>
      unfold numLoop at h
      have hlen := dropComma_length l
      simp only [List.length_cons] at hn ⊢
      split at h
      · split at h
        · simp at h
        split at h
        · simp at h
        · simp only [Sum.inr.injEq, Prod.mk.injEq] at h
          rw [← h.1]; omega
      split at h
      · simp at h
      · rename_i h1 h2
        have n1 : dropComma l ≠ [] := by intro e; rw [e] at h2; exact h2 (by decide)
        have n2 : dropComma r ≠ [] := by intro e; rw [e] at h1; exact h1 (by decide)
        have := ih _ _ _ _ _ (by omega) n1 n2 h
        omega

theorem hd_digit_ne {l : List UInt8} (h : digit (hd l) = true) : l ≠ [] := by
  rintro rfl; exact absurd h (by decide)

/-- `Jsi_DictionaryCompare` from a point of the two strings on, `sec` being `secondaryDiff`. -/
def cmpLoop (sec : Int) (l r : List UInt8) : Int :=
  if h : digit (hd r) = true ∧ digit (hd l) = true then
    match hh : numLoop 0 (stripZeros l).1 (stripZeros r).1 with
    | .inl d => d
    | .inr (l2, r2) =>
      cmpLoop (if sec = 0 then ((stripZeros l).2 : Int) - (stripZeros r).2 else sec) l2 r2
  else if hd l = hd r then
    if h0 : hd l = 0 then sec else cmpLoop sec l.tail r.tail
  else if upper (hd l) = true ∧ lower (hd r) = true then
    if ((hd l).toNat : Int) + 32 - (hd r).toNat ≠ 0 then ((hd l).toNat : Int) + 32 - (hd r).toNat
    else if h0 : l = [] then 0 else cmpLoop (if sec = 0 then -1 else sec) l.tail r.tail
  else if upper (hd r) = true ∧ lower (hd l) = true then
    if ((hd l).toNat : Int) - ((hd r).toNat + 32) ≠ 0 then ((hd l).toNat : Int) - ((hd r).toNat + 32)
    else if h0 : l = [] then 0 else cmpLoop (if sec = 0 then 1 else sec) l.tail r.tail
  else ((hd l).toNat : Int) - (hd r).toNat
termination_by l.length
decreasing_by
  · have h1 := stripZeros_length l
    have h2 := numLoop_length _ _ _ _ _ _ (Nat.le_refl _) (stripZeros_ne l (hd_digit_ne h.2))
      (stripZeros_ne r (hd_digit_ne h.1)) hh
    omega
  · have : l ≠ [] := by rintro rfl; exact h0 rfl
    have := List.length_pos_iff.2 this
    simp; omega
  · have := List.length_pos_iff.2 h0
    simp; omega
  · have := List.length_pos_iff.2 h0
    simp; omega

/-- `Jsi_DictionaryCompare(left, right)`. (The two tests `l = []` above are never reached: a letter was seen.) -/
def dictCmp (left right : List UInt8) : Int := cmpLoop 0 left right

end Verif.Dict
