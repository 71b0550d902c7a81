import Verif.Dict.Spec
import Mathlib.Data.List.TakeWhile

/-!
C22: is the dictionary comparison a total order?
-/

namespace Verif.Dict

/-! ### Antisymmetry, for all strings -/

/-- The result of the number loop with the roles exchanged. -/
def swapR : Int ⊕ (List UInt8 × List UInt8) → Int ⊕ (List UInt8 × List UInt8)
  | .inl x => .inl (-x)
  | .inr (a, b) => .inr (b, a)

theorem nd_swap (d : Int) (a b : UInt8) : nd (-d) b a = -nd d a b := by
  unfold nd; split <;> split <;> omega

theorem numLoop_swap (n : Nat) : ∀ (d : Int) (l r : List UInt8), l.length ≤ n →
    numLoop (-d) r l = swapR (numLoop d l r) := by
  induction n with
  | zero =>
    intro d l r h
    have : l = [] := List.length_eq_zero_iff.1 (by omega)
    subst this
    cases r <;> simp [numLoop, swapR]
  | succ n ih =>
    intro d l r h
    cases l with
    | nil => cases r <;> simp [numLoop, swapR]
    | cons a l =>
      cases r with
      | nil => simp [numLoop, swapR]
      | cons b r =>
        have hl := dropComma_length l
        simp only [List.length_cons] at h
        unfold numLoop
        rw [nd_swap]
        cases h1 : digit (hd (dropComma r)) <;> cases h2 : digit (hd (dropComma l))
        · simp only [reduceIte, Bool.false_eq_true, ne_eq, Int.neg_eq_zero]
          by_cases h3 : nd d a b = 0
          · simp [h3, swapR]
          · simp [h3, swapR]
        · simp [swapR]
        · simp [swapR]
        · simp only [Bool.true_eq_false, reduceIte]
          exact ih _ _ _ (by omega)

/-! The cases of the comparison. -/

theorem cmp_inl {l r : List UInt8} {d : Int} (sec : Int) (hr : digit (hd r) = true) (hl : digit (hd l) = true)
    (h : numLoop 0 (stripZeros l).1 (stripZeros r).1 = .inl d) : cmpLoop sec l r = d := by
  rw [cmpLoop, dif_pos ⟨hr, hl⟩]
  split
  · rename_i x hx; rw [hx] at h; simpa using h
  · rename_i hx; rw [hx] at h; simp at h

theorem cmp_inr {l r l2 r2 : List UInt8} (sec : Int) (hr : digit (hd r) = true) (hl : digit (hd l) = true)
    (h : numLoop 0 (stripZeros l).1 (stripZeros r).1 = .inr (l2, r2)) : cmpLoop sec l r =
      cmpLoop (if sec = 0 then ((stripZeros l).2 : Int) - (stripZeros r).2 else sec) l2 r2 := by
  rw [cmpLoop, dif_pos ⟨hr, hl⟩]
  split
  · rename_i x hx; rw [hx] at h; simp at h
  · rename_i hx; rw [hx] at h
    simp only [Sum.inr.injEq, Prod.mk.injEq] at h
    rw [h.1, h.2]

theorem cmp_end {l r : List UInt8} (sec : Int) (hl : hd l = 0) (hr : hd r = 0) : cmpLoop sec l r = sec := by
  rw [cmpLoop, dif_neg (fun x => absurd x.2 (by rw [hl]; decide)), if_pos (by rw [hl, hr]), dif_pos hl]

theorem cmp_same {l r : List UInt8} (sec : Int) (hd1 : ¬ digit (hd l) = true) (h : hd l = hd r) (h0 : hd l ≠ 0) :
    cmpLoop sec l r = cmpLoop sec l.tail r.tail := by
  rw [cmpLoop, dif_neg (fun x => hd1 x.2), if_pos h, dif_neg h0]

theorem cmp_ul {l r : List UInt8} (sec : Int) (hu : upper (hd l) = true) (hv : lower (hd r) = true) :
    cmpLoop sec l r = if ((hd l).toNat : Int) + 32 - (hd r).toNat ≠ 0 then ((hd l).toNat : Int) + 32 - (hd r).toNat
      else cmpLoop (if sec = 0 then -1 else sec) l.tail r.tail := by
  have nl : l ≠ [] := by rintro rfl; exact absurd hu (by decide)
  have h1 : ¬ (digit (hd r) = true ∧ digit (hd l) = true) := by
    simp only [upper, lower, digit, Bool.and_eq_true, decide_eq_true_eq] at *; omega
  have h2 : hd l ≠ hd r := by
    intro e; rw [e] at hu
    simp only [upper, lower, digit, Bool.and_eq_true, decide_eq_true_eq] at *; omega
  rw [cmpLoop, dif_neg h1, if_neg h2, if_pos ⟨hu, hv⟩, dif_neg nl]

theorem cmp_lu {l r : List UInt8} (sec : Int) (hu : upper (hd r) = true) (hv : lower (hd l) = true) :
    cmpLoop sec l r = if ((hd l).toNat : Int) - ((hd r).toNat + 32) ≠ 0 then
        ((hd l).toNat : Int) - ((hd r).toNat + 32)
      else cmpLoop (if sec = 0 then 1 else sec) l.tail r.tail := by
  have nl : l ≠ [] := by rintro rfl; exact absurd hv (by decide)
  have h1 : ¬ (digit (hd r) = true ∧ digit (hd l) = true) := by
    simp only [upper, lower, digit, Bool.and_eq_true, decide_eq_true_eq] at *; omega
  have h2 : hd l ≠ hd r := by
    intro e; rw [e] at hv
    simp only [upper, lower, digit, Bool.and_eq_true, decide_eq_true_eq] at *; omega
  have h3 : ¬ (upper (hd l) = true ∧ lower (hd r) = true) := by
    simp only [upper, lower, digit, Bool.and_eq_true, decide_eq_true_eq] at *; omega
  rw [cmpLoop, dif_neg h1, if_neg h2, if_neg h3, if_pos ⟨hu, hv⟩, dif_neg nl]

theorem cmp_other {l r : List UInt8} (sec : Int) (h1 : ¬ (digit (hd r) = true ∧ digit (hd l) = true))
    (h2 : hd l ≠ hd r) (h3 : ¬ (upper (hd l) = true ∧ lower (hd r) = true))
    (h4 : ¬ (upper (hd r) = true ∧ lower (hd l) = true)) :
    cmpLoop sec l r = ((hd l).toNat : Int) - (hd r).toNat := by
  rw [cmpLoop, dif_neg h1, if_neg h2, if_neg h3, if_neg h4]

theorem hd_ne {l : List UInt8} (h : hd l ≠ 0) : l ≠ [] := by rintro rfl; exact h rfl

theorem inr_length {l r l2 r2 : List UInt8} (hr : digit (hd r) = true) (hl : digit (hd l) = true)
    (h : numLoop 0 (stripZeros l).1 (stripZeros r).1 = .inr (l2, r2)) :
    l2.length < l.length ∧ r2.length < r.length := by
  have nl := stripZeros_ne l (hd_digit_ne hl)
  have nr := stripZeros_ne r (hd_digit_ne hr)
  have h1 := numLoop_length _ _ _ _ _ _ (Nat.le_refl _) nl nr h
  have hs := numLoop_swap _ 0 (stripZeros l).1 (stripZeros r).1 (Nat.le_refl _)
  rw [Int.neg_zero, h] at hs
  have h2 := numLoop_length _ _ _ _ _ _ (Nat.le_refl _) nr nl hs
  have := stripZeros_length l
  have := stripZeros_length r
  omega

theorem cmpLoop_swap (n : Nat) : ∀ (sec : Int) (l r : List UInt8), l.length ≤ n →
    cmpLoop (-sec) r l = -cmpLoop sec l r := by
  induction n using Nat.strongRecOn with
  | ind n ih =>
  intro sec l r hn
  have tl : ∀ (s1 s2 : Int), s1 = -s2 → hd l ≠ 0 → cmpLoop s1 r.tail l.tail = -cmpLoop s2 l.tail r.tail := by
    intro s1 s2 e h0
    have := List.length_pos_iff.2 (hd_ne h0)
    rw [e]
    refine ih l.tail.length ?_ _ _ _ (Nat.le_refl _)
    simp; omega
  by_cases hd1 : digit (hd r) = true ∧ digit (hd l) = true
  · have hs := numLoop_swap _ 0 (stripZeros l).1 (stripZeros r).1 (Nat.le_refl _)
    rw [Int.neg_zero] at hs
    cases hx : numLoop 0 (stripZeros l).1 (stripZeros r).1 with
    | inl d =>
      rw [hx] at hs
      rw [cmp_inl sec hd1.1 hd1.2 hx, cmp_inl _ hd1.2 hd1.1 hs]
    | inr p =>
      obtain ⟨l2, r2⟩ := p
      rw [hx] at hs
      rw [cmp_inr sec hd1.1 hd1.2 hx, cmp_inr _ hd1.2 hd1.1 hs]
      have e : (if -sec = 0 then ((stripZeros r).2 : Int) - (stripZeros l).2 else -sec) =
          -(if sec = 0 then ((stripZeros l).2 : Int) - (stripZeros r).2 else sec) := by
        split <;> split <;> omega
      rw [e]
      have := inr_length hd1.1 hd1.2 hx
      exact ih _ (by omega) _ _ _ (Nat.le_refl _)
  by_cases he : hd l = hd r
  · by_cases h0 : hd l = 0
    · rw [cmp_end _ h0 (by rw [← he]; exact h0), cmp_end _ (by rw [← he]; exact h0) h0]
    · have n1 : ¬ digit (hd l) = true := fun h => hd1 ⟨by rw [← he]; exact h, h⟩
      rw [cmp_same sec n1 he h0, cmp_same _ (by rw [← he]; exact n1) he.symm (by rw [← he]; exact h0)]
      exact tl _ _ rfl h0
  by_cases hu : upper (hd l) = true ∧ lower (hd r) = true
  · have h0 : hd l ≠ 0 := by intro e; rw [e] at hu; exact absurd hu.1 (by decide)
    rw [cmp_ul sec hu.1 hu.2, cmp_lu _ hu.1 hu.2]
    by_cases hz : ((hd l).toNat : Int) + 32 - (hd r).toNat ≠ 0
    · rw [if_pos hz, if_pos (by omega)]; omega
    · rw [if_neg hz, if_neg (by omega)]
      apply tl _ _ _ h0
      split <;> split <;> omega
  by_cases hv : upper (hd r) = true ∧ lower (hd l) = true
  · have h0 : hd l ≠ 0 := by intro e; rw [e] at hv; exact absurd hv.2 (by decide)
    rw [cmp_lu sec hv.1 hv.2, cmp_ul _ hv.1 hv.2]
    by_cases hz : ((hd l).toNat : Int) - ((hd r).toNat + 32) ≠ 0
    · rw [if_pos hz, if_pos (by omega)]; omega
    · rw [if_neg hz, if_neg (by omega)]
      apply tl _ _ _ h0
      split <;> split <;> omega
  rw [cmp_other sec hd1 he hu hv, cmp_other _ (fun h => hd1 h.symm) (fun h => he h.symm) hv hu]
  omega

/-- **C22**, antisymmetry, for all strings: exchanging the operands negates the result. -/
theorem C22_antisymmetric (a b : List UInt8) : dictCmp b a = -dictCmp a b := by
  have := cmpLoop_swap _ 0 a b (Nat.le_refl _)
  simpa [dictCmp] using this

/-- **C22**, reflexivity. -/
theorem C22_reflexive (a : List UInt8) : dictCmp a a = 0 := by
  have := C22_antisymmetric a a
  omega

/-- **C22 refuted**: different strings compare as equal, because commas in numbers are ignored. -/
theorem C22_zero_refuted : dictCmp (asc "1,2") (asc "12") = 0 ∧ asc "1,2" ≠ asc "12" := by decide +kernel

/-- **C22 refuted**: not transitive, `Z` > `a` > `_` > `Z`. -/
theorem C22_transitive_refuted : 0 < dictCmp (asc "Z") (asc "a") ∧ 0 < dictCmp (asc "a") (asc "_") ∧
    0 < dictCmp (asc "_") (asc "Z") := by decide +kernel

/-! ### The order on plain strings -/

/-- First difference of two digit strings of the same length. -/
def fd (d : Int) : List UInt8 → List UInt8 → Int
  | a :: p, b :: q => fd (nd d a b) p q
  | _, _ => d

theorem dropComma_plain {l : List UInt8} (h : (44 : UInt8) ∉ l) : dropComma l = l := by
  cases l with
  | nil => rfl
  | cons c t => simp only [dropComma]; rw [if_neg]; rintro rfl; exact h (by simp)

theorem digit_hd_append {p l : List UInt8} (hp : ∀ c ∈ p, digit c = true) (hl : digit (hd l) = false) :
    digit (hd (p ++ l)) = !p.isEmpty := by
  cases p with
  | nil => simpa using hl
  | cons c p => simpa [hd] using hp c (by simp)

theorem numLoop_spec : ∀ (p q l r : List UInt8) (d : Int), (∀ c ∈ p, digit c = true) → (∀ c ∈ q, digit c = true) →
    digit (hd l) = false → digit (hd r) = false → (44 : UInt8) ∉ p ++ l → (44 : UInt8) ∉ q ++ r →
    p ≠ [] → q ≠ [] →
    numLoop d (p ++ l) (q ++ r) = if q.length < p.length then .inl 1 else if p.length < q.length then .inl (-1)
      else if fd d p q ≠ 0 then .inl (fd d p q) else .inr (l, r) := by
  intro p
  induction p with
  | nil => intro q l r d _ _ _ _ _ _ h; exact absurd rfl h
  | cons a p ih =>
    intro q l r d hp hq hl hr cl cr _ nq
    cases q with
    | nil => exact absurd rfl nq
    | cons b q =>
      simp only [List.cons_append, List.mem_cons, not_or] at cl cr
      simp only [List.cons_append]
      unfold numLoop
      rw [dropComma_plain cl.2, dropComma_plain cr.2]
      rw [digit_hd_append (fun c hc => hp c (by simp [hc])) hl, digit_hd_append (fun c hc => hq c (by simp [hc])) hr]
      cases p with
      | nil =>
        cases q with
        | nil => by_cases h3 : nd d a b = 0 <;> simp [fd, h3]
        | cons b2 q => simp
      | cons a2 p =>
        cases q with
        | nil => simp
        | cons b2 q =>
          simp only [List.isEmpty_cons, Bool.not_false, Bool.true_eq_false, reduceIte]
          rw [ih (b2 :: q) l r _ (fun c hc => hp c (by simp [hc])) (fun c hc => hq c (by simp [hc])) hl hr cl.2 cr.2
            (by simp) (by simp)]
          simp only [List.length_cons, Nat.add_lt_add_iff_right]
          rfl

theorem value_cons_gen (n : Nat) (p : List UInt8) :
    p.foldl (fun n c => 10 * n + (c.toNat - 48)) n = n * 10 ^ p.length + value p := by
  unfold value
  induction p generalizing n with
  | nil => simp
  | cons c p ih =>
    simp only [List.foldl_cons, List.length_cons]
    rw [ih, ih (10 * 0 + _)]
    rw [Nat.pow_succ, Nat.add_mul, Nat.add_mul, Nat.mul_zero, Nat.zero_mul, Nat.zero_add]
    have : 10 * n * 10 ^ p.length = n * (10 ^ p.length * 10) := by
      rw [Nat.mul_comm 10 n, Nat.mul_assoc, Nat.mul_comm 10]
    omega

theorem value_cons (c : UInt8) (p : List UInt8) :
    value (c :: p) = (c.toNat - 48) * 10 ^ p.length + value p := by
  have := value_cons_gen (10 * 0 + (c.toNat - 48)) p
  simp only [Nat.mul_zero, Nat.zero_add] at this
  unfold value at *
  simpa using this

theorem digit_iff (c : UInt8) : digit c = true ↔ 48 ≤ c.toNat ∧ c.toNat ≤ 57 := by
  simp [digit]

theorem value_lt (p : List UInt8) (h : ∀ c ∈ p, digit c = true) : value p < 10 ^ p.length := by
  induction p with
  | nil => simp [value]
  | cons c p ih =>
    rw [value_cons, List.length_cons, Nat.pow_succ]
    have h1 := (digit_iff c).1 (h c (by simp))
    have h2 := ih (fun c hc => h c (by simp [hc]))
    have : (c.toNat - 48) * 10 ^ p.length ≤ 9 * 10 ^ p.length := Nat.mul_le_mul_right _ (by omega)
    omega

theorem fd_ne (d : Int) (hd0 : d ≠ 0) : ∀ p q : List UInt8, fd d p q = d := by
  intro p
  induction p with
  | nil => intro q; simp [fd]
  | cons a p ih =>
    intro q
    cases q with
    | nil => simp [fd]
    | cons b q =>
      simp only [fd, nd, if_neg hd0]
      exact ih q

theorem fd_value : ∀ (p q : List UInt8), p.length = q.length → (∀ c ∈ p, digit c = true) →
    (∀ c ∈ q, digit c = true) → ((fd 0 p q < 0 ↔ value p < value q) ∧ (fd 0 p q = 0 ↔ p = q)) := by
  intro p
  induction p with
  | nil => intro q h; cases q <;> simp_all [fd, value]
  | cons a p ih =>
    intro q h hp hq
    cases q with
    | nil => simp at h
    | cons b q =>
      simp only [List.length_cons, Nat.add_right_cancel_iff] at h
      have ha := (digit_iff a).1 (hp a (by simp))
      have hb := (digit_iff b).1 (hq b (by simp))
      have h1 := value_lt p (fun c hc => hp c (by simp [hc]))
      have h2 := value_lt q (fun c hc => hq c (by simp [hc]))
      obtain ⟨i1, i2⟩ := ih q h (fun c hc => hp c (by simp [hc])) (fun c hc => hq c (by simp [hc]))
      rw [value_cons, value_cons, ← h]
      rw [← h] at h2
      simp only [fd, nd, reduceIte]
      by_cases e : (a.toNat : Int) - b.toNat = 0
      · have e' : a = b := UInt8.toNat_inj.1 (by omega)
        rw [e]
        subst e'
        constructor
        · rw [i1]; omega
        · rw [i2]; simp
      · rw [fd_ne _ e]
        constructor
        · constructor
          · intro hlt
            have : (a.toNat - 48) + 1 ≤ b.toNat - 48 := by omega
            have := Nat.mul_le_mul_right (10 ^ p.length) this
            rw [Nat.add_mul] at this
            omega
          · intro hlt
            by_contra hge
            have : (b.toNat - 48) + 1 ≤ a.toNat - 48 := by omega
            have := Nat.mul_le_mul_right (10 ^ p.length) this
            rw [Nat.add_mul] at this
            omega
        · constructor
          · intro h0; exact absurd h0 e
          · intro h0; injection h0 with h0 _; subst h0; omega

/-- Digits without superfluous zeros. -/
def Lean' (p : List UInt8) : Prop := p ≠ [] ∧ (∀ c ∈ p, digit c = true) ∧ zeros p = 0

theorem value_shorter (p q : List UInt8) (hp : ∀ c ∈ p, digit c = true) (hq : Lean' q)
    (h : p.length < q.length) (hpn : p ≠ []) : value p < value q := by
  obtain ⟨nq, dq, zq⟩ := hq
  match q, nq with
  | [b], _ => simp only [List.length_singleton] at h; exact absurd (List.length_eq_zero_iff.1 (by omega)) hpn
  | b :: c :: q, _ =>
    have hb := (digit_iff b).1 (dq b (by simp))
    have hb0 : b ≠ 48 := by
      intro e; simp [zeros, e] at zq
    have hb1 : 1 ≤ b.toNat - 48 := by
      have : b.toNat ≠ 48 := fun e => hb0 (UInt8.toNat_inj.1 e)
      omega
    have h1 := value_lt p hp
    rw [value_cons]
    have h2 := Nat.mul_le_mul_right (10 ^ (c :: q).length) hb1
    have h3 : 10 ^ p.length ≤ 10 ^ (c :: q).length := Nat.pow_le_pow_right (by decide) (by simp at h ⊢; omega)
    omega

theorem strip_spec : ∀ (p l : List UInt8), p ≠ [] → (∀ c ∈ p, digit c = true) → digit (hd l) = false →
    ∃ p1, stripZeros (p ++ l) = (p1 ++ l, zeros p) ∧ Lean' p1 ∧ value p1 = value p ∧
      p = List.replicate (zeros p) 48 ++ p1 := by
  intro p
  induction p with
  | nil => intro l h; exact absurd rfl h
  | cons a p ih =>
    intro l _ hp hl
    have hp' : ∀ c ∈ p, digit c = true := fun c hc => hp c (by simp [hc])
    cases p with
    | nil =>
      refine ⟨[a], ?_, ⟨by simp, hp, rfl⟩, rfl, by simp [zeros]⟩
      simp only [List.cons_append, List.nil_append, stripZeros]
      rw [if_neg (by rw [hl]; simp)]
      simp [zeros]
    | cons b p =>
      by_cases ha : a = 48
      · obtain ⟨p1, h1, h2, h3, h4⟩ := ih l (by simp) hp' hl
        refine ⟨p1, ?_, h2, ?_, ?_⟩
        · simp only [List.cons_append] at h1 ⊢
          rw [stripZeros, if_pos ⟨ha, by simpa [hd] using hp' b (by simp)⟩, h1]
          simp [zeros, ha]
        · rw [h3, value_cons a, ha]; simp
        · simp only [zeros, ha, if_true, List.replicate_succ, List.cons_append, ← h4]
      · refine ⟨a :: b :: p, ?_, ⟨by simp, hp, by simp [zeros, ha]⟩, rfl, by simp [zeros, ha]⟩
        simp only [List.cons_append, stripZeros]
        rw [if_neg (fun h => ha h.1)]
        simp [zeros, ha]

theorem toks_digit {l : List UInt8} (h : digit (hd l) = true) :
    toks l = ([48, value (l.takeWhile digit)], zeros (l.takeWhile digit)) :: toks (l.dropWhile digit) := by
  cases l with
  | nil => exact absurd h (by decide)
  | cons c t =>
    have hc : digit c = true := h
    rw [toks, if_pos hc, List.dropWhile_cons_of_pos hc]

theorem toks_char {l : List UInt8} (h : ¬ digit (hd l) = true) (h0 : l ≠ []) :
    toks l = ([fold (hd l)], if upper (hd l) then 0 else 1) :: toks l.tail := by
  cases l with
  | nil => exact absurd rfl h0
  | cons c t =>
    have hc : ¬ digit c = true := h
    rw [toks, if_neg hc]; rfl

theorem hd_dropWhile (l : List UInt8) : digit (hd (l.dropWhile digit)) = false := by
  induction l with
  | nil => rfl
  | cons c t ih =>
    rw [List.dropWhile_cons]
    split
    · exact ih
    · rename_i h; simpa [hd] using h

theorem plain_tail {l : List UInt8} (h : Plain l) : Plain l.tail := fun c hc => h c (List.mem_of_mem_tail hc)

theorem plain_hd {l : List UInt8} (h : Plain l) (h0 : l ≠ []) :
    hd l ≠ 0 ∧ hd l ≠ 44 ∧ ¬ (91 ≤ (hd l).toNat ∧ (hd l).toNat ≤ 96) := by
  cases l with
  | nil => exact absurd rfl h0
  | cons c t => exact h c (by simp)

theorem plain_nil {l : List UInt8} (h : Plain l) : l = [] ↔ hd l = 0 := by
  constructor
  · rintro rfl; rfl
  · intro h0; by_contra hn; exact (plain_hd h hn).1 h0

/-- The place of a character or number among the first components. -/
def rank (c : UInt8) : Nat := if digit c then 48 else fold c

theorem first_cons {l : List UInt8} (h0 : l ≠ []) : ∃ e P, first l = (rank (hd l) :: e) :: P := by
  by_cases h : digit (hd l) = true
  · refine ⟨[value (l.takeWhile digit)], first (l.dropWhile digit), ?_⟩
    rw [first, toks_digit h, List.map_cons]; simp only [rank, h, if_true]; rfl
  · exact ⟨[], _, by rw [first, toks_char h h0, List.map_cons]; simp only [rank, h]; rfl⟩

theorem cmp_spec (n : Nat) : ∀ (sec : Int) (l r : List UInt8), l.length ≤ n → Plain l → Plain r →
    (cmpLoop sec l r < 0 ↔ first l < first r ∨ (first l = first r ∧ (sec < 0 ∨ sec = 0 ∧ second l < second r))) := by
  induction n using Nat.strongRecOn with
  | ind n ih =>
  intro sec l r hn hl hr
  by_cases hd1 : digit (hd r) = true ∧ digit (hd l) = true
  · -- two numbers
    obtain ⟨dr, dl⟩ := hd1
    have nl := hd_digit_ne dl
    have nr := hd_digit_ne dr
    have pl : ∀ c ∈ l.takeWhile digit, digit c = true := fun c hc => List.mem_takeWhile_imp hc
    have pr : ∀ c ∈ r.takeWhile digit, digit c = true := fun c hc => List.mem_takeWhile_imp hc
    have nel : l.takeWhile digit ≠ [] := by
      cases l with
      | nil => exact absurd rfl nl
      | cons c t => rw [List.takeWhile_cons_of_pos (show digit c = true from dl)]; simp
    have ner : r.takeWhile digit ≠ [] := by
      cases r with
      | nil => exact absurd rfl nr
      | cons c t => rw [List.takeWhile_cons_of_pos (show digit c = true from dr)]; simp
    obtain ⟨p1, hp1, lp, vp, ep⟩ := strip_spec _ (l.dropWhile digit) nel pl (hd_dropWhile l)
    obtain ⟨q1, hq1, lq, vq, eq⟩ := strip_spec _ (r.dropWhile digit) ner pr (hd_dropWhile r)
    rw [List.takeWhile_append_dropWhile] at hp1 hq1
    have cl : (44 : UInt8) ∉ p1 ++ l.dropWhile digit := by
      intro hc
      rcases List.mem_append.1 hc with hc | hc
      · exact absurd (lp.2.1 _ hc) (by decide)
      · exact (hl _ ((List.dropWhile_sublist digit).subset hc)).2.1 rfl
    have cr : (44 : UInt8) ∉ q1 ++ r.dropWhile digit := by
      intro hc
      rcases List.mem_append.1 hc with hc | hc
      · exact absurd (lq.2.1 _ hc) (by decide)
      · exact (hr _ ((List.dropWhile_sublist digit).subset hc)).2.1 rfl
    have hN := numLoop_spec p1 q1 _ _ 0 lp.2.1 lq.2.1 (hd_dropWhile l) (hd_dropWhile r) cl cr lp.1 lq.1
    have hN' : numLoop 0 (stripZeros l).1 (stripZeros r).1 =
        numLoop 0 (p1 ++ l.dropWhile digit) (q1 ++ r.dropWhile digit) := by rw [hp1, hq1]
    rw [hN] at hN'
    have ef : first l = [48, value p1] :: first (l.dropWhile digit) := by
      rw [first, toks_digit dl, List.map_cons, vp]; rfl
    have er : first r = [48, value q1] :: first (r.dropWhile digit) := by
      rw [first, toks_digit dr, List.map_cons, vq]; rfl
    have sf : second l = zeros (l.takeWhile digit) :: second (l.dropWhile digit) := by
      rw [second, toks_digit dl, List.map_cons]; rfl
    have sr : second r = zeros (r.takeWhile digit) :: second (r.dropWhile digit) := by
      rw [second, toks_digit dr, List.map_cons]; rfl
    have e2 : ∀ x y : Nat, ([48, x] < [48, y]) ↔ x < y := by intro x y; simp [List.cons_lt_cons_iff]
    rw [ef, er, sf, sr]
    simp only [List.cons_lt_cons_iff, e2, List.cons.injEq, true_and, and_true]
    by_cases h1 : q1.length < p1.length
    · rw [if_pos h1] at hN'
      rw [cmp_inl sec dr dl hN']
      have := value_shorter q1 p1 lq.2.1 lp h1 lq.1
      constructor
      · intro h; omega
      · rintro ((h | h) | h) <;> omega
    rw [if_neg h1] at hN'
    by_cases h2 : p1.length < q1.length
    · rw [if_pos h2] at hN'
      rw [cmp_inl sec dr dl hN']
      have := value_shorter p1 q1 lp.2.1 lq h2 lp.1
      constructor
      · intro h; exact Or.inl (Or.inl this)
      · intro _; omega
    rw [if_neg h2] at hN'
    obtain ⟨f1, f2⟩ := fd_value p1 q1 (by omega) lp.2.1 lq.2.1
    by_cases h3 : fd 0 p1 q1 ≠ 0
    · rw [if_pos h3] at hN'
      rw [cmp_inl sec dr dl hN', f1]
      have hne : value p1 ≠ value q1 := by
        intro e
        have g1 := (fd_value p1 q1 (by omega) lp.2.1 lq.2.1).1
        have g2 := (fd_value q1 p1 (by omega) lq.2.1 lp.2.1).1
        have sw : ∀ p q : List UInt8, ∀ d, fd (-d) q p = -fd d p q := by
          intro p
          induction p with
          | nil => intro q d; cases q <;> simp [fd]
          | cons a p ih => intro q d; cases q with
            | nil => simp [fd]
            | cons b q => simp only [fd, nd_swap]; exact ih _ _
        have := sw p1 q1 0
        rw [Int.neg_zero] at this
        omega
      constructor
      · intro h; exact Or.inl (Or.inl h)
      · rintro ((h | h) | h)
        · exact h
        · exact absurd h.1 hne
        · exact absurd h.1.1 hne
    · rw [if_neg h3] at hN'
      have hpq : p1 = q1 := f2.1 (by simpa using h3)
      rw [cmp_inr sec dr dl hN']
      have hlen := (inr_length dr dl hN').1
      rw [ih _ (by omega) _ _ _ (Nat.le_refl _)
        (fun c hc => hl c ((List.dropWhile_sublist digit).subset hc))
        (fun c hc => hr c ((List.dropWhile_sublist digit).subset hc))]
      rw [hp1, hq1, hpq]
      simp only [Nat.lt_irrefl, false_or, true_and]
      by_cases hs : sec = 0
      · simp only [hs, if_true, true_and]
        have : ∀ x y : Nat, ((x : Int) - y < 0 ↔ x < y) ∧ ((x : Int) - y = 0 ↔ x = y) := by intros; omega
        simp only [this]
        simp
      · simp only [hs, if_false, false_and]
  by_cases he : hd l = hd r
  · by_cases h0 : hd l = 0
    · have e1 := (plain_nil hl).2 h0
      have e2 := (plain_nil hr).2 (by rw [← he]; exact h0)
      subst e1; subst e2
      rw [cmp_end sec rfl rfl]
      simp
    · have n1 : ¬ digit (hd l) = true := fun h => hd1 ⟨by rw [← he]; exact h, h⟩
      rw [cmp_same sec n1 he h0]
      have nl := hd_ne h0
      have nr : r ≠ [] := hd_ne (by rw [← he]; exact h0)
      have := List.length_pos_iff.2 nl
      rw [ih l.tail.length (by simp; omega) _ _ _ (Nat.le_refl _) (plain_tail hl) (plain_tail hr)]
      unfold first second
      rw [toks_char n1 nl, toks_char (by rw [← he]; exact n1) nr, he]
      simp only [List.map_cons, List.cons_lt_cons_iff, List.cons.injEq, true_and, lt_irrefl, false_or]
  -- letters that differ in case
  have letters : ∀ (s1 : Int), fold (hd l) = fold (hd r) → ¬ digit (hd l) = true → ¬ digit (hd r) = true →
      hd l ≠ 0 → hd r ≠ 0 →
      ((if upper (hd l) then (0 : Nat) else 1) < (if upper (hd r) then 0 else 1) ∧ s1 = (if sec = 0 then -1 else sec) ∨
       (if upper (hd r) then (0 : Nat) else 1) < (if upper (hd l) then 0 else 1) ∧ s1 = (if sec = 0 then 1 else sec)) →
      (cmpLoop s1 l.tail r.tail < 0 ↔
        first l < first r ∨ (first l = first r ∧ (sec < 0 ∨ sec = 0 ∧ second l < second r))) := by
    intro s1 hf n1 n2 h0 h0r hs
    have nl := hd_ne h0
    have nr := hd_ne h0r
    have := List.length_pos_iff.2 nl
    rw [ih l.tail.length (by simp; omega) _ _ _ (Nat.le_refl _) (plain_tail hl) (plain_tail hr)]
    unfold first second
    rw [toks_char n1 nl, toks_char n2 nr, hf]
    simp only [List.map_cons, List.cons_lt_cons_iff, List.cons.injEq, true_and, lt_irrefl, false_or]
    refine or_congr Iff.rfl (and_congr Iff.rfl ?_)
    generalize (if upper (hd l) then (0 : Nat) else 1) = x at hs ⊢
    generalize (if upper (hd r) then (0 : Nat) else 1) = y at hs ⊢
    rcases hs with ⟨h, rfl⟩ | ⟨h, rfl⟩
    · by_cases hz : sec = 0
      · simp [hz, h]
      · simp [hz]
    · by_cases hz : sec = 0
      · have h1 : ¬ x < y := by omega
        have h2 : ¬ x = y := by omega
        simp [hz, h1, h2]
      · simp [hz]
  -- different places
  have decided : ∀ (s1 : Int), l ≠ [] → r ≠ [] → rank (hd l) ≠ rank (hd r) →
      (s1 < 0 ↔ rank (hd l) < rank (hd r)) →
      (s1 < 0 ↔ first l < first r ∨ (first l = first r ∧ (sec < 0 ∨ sec = 0 ∧ second l < second r))) := by
    intro s1 nl nr hne hs
    obtain ⟨e1, P1, h1⟩ := first_cons nl
    obtain ⟨e2, P2, h2⟩ := first_cons nr
    rw [h1, h2, hs]
    simp only [List.cons_lt_cons_iff, List.cons.injEq, hne, false_and, or_false]
  by_cases hu : upper (hd l) = true ∧ lower (hd r) = true
  · have hA : hd l ≠ 0 := by intro e; rw [e] at hu; exact absurd hu.1 (by decide)
    have hB : hd r ≠ 0 := by intro e; rw [e] at hu; exact absurd hu.2 (by decide)
    have hur : upper (hd r) = false := by
      simp only [upper, lower, Bool.and_eq_true, decide_eq_true_eq, Bool.and_eq_false_iff, decide_eq_false_iff_not] at hu ⊢
      omega
    have hdl : digit (hd l) = false := by
      simp only [upper, lower, digit, Bool.and_eq_true, decide_eq_true_eq, Bool.and_eq_false_iff, decide_eq_false_iff_not] at hu ⊢
      omega
    have hdr : digit (hd r) = false := by
      simp only [upper, lower, digit, Bool.and_eq_true, decide_eq_true_eq, Bool.and_eq_false_iff, decide_eq_false_iff_not] at hu ⊢
      omega
    rw [cmp_ul sec hu.1 hu.2]
    by_cases hz : ((hd l).toNat : Int) + 32 - (hd r).toNat ≠ 0
    · rw [if_pos hz]
      refine decided _ (hd_ne hA) (hd_ne hB) ?_ ?_
      · simp only [rank, hdl, hdr, fold, hu.1, hur, if_true, Bool.false_eq_true, if_false]; omega
      · simp only [rank, hdl, hdr, fold, hu.1, hur, if_true, Bool.false_eq_true, if_false]; omega
    · rw [if_neg hz]
      refine letters _ ?_ (by simp [hdl]) (by simp [hdr]) hA hB (Or.inl ⟨by simp [hu.1, hur], rfl⟩)
      simp only [fold, hu.1, hur, if_true, Bool.false_eq_true, if_false]; omega
  by_cases hv : upper (hd r) = true ∧ lower (hd l) = true
  · have hA : hd l ≠ 0 := by intro e; rw [e] at hv; exact absurd hv.2 (by decide)
    have hB : hd r ≠ 0 := by intro e; rw [e] at hv; exact absurd hv.1 (by decide)
    have hul : upper (hd l) = false := by
      simp only [upper, lower, Bool.and_eq_true, decide_eq_true_eq, Bool.and_eq_false_iff, decide_eq_false_iff_not] at hv ⊢
      omega
    have hdl : digit (hd l) = false := by
      simp only [upper, lower, digit, Bool.and_eq_true, decide_eq_true_eq, Bool.and_eq_false_iff, decide_eq_false_iff_not] at hv ⊢
      omega
    have hdr : digit (hd r) = false := by
      simp only [upper, lower, digit, Bool.and_eq_true, decide_eq_true_eq, Bool.and_eq_false_iff, decide_eq_false_iff_not] at hv ⊢
      omega
    rw [cmp_lu sec hv.1 hv.2]
    by_cases hz : ((hd l).toNat : Int) - ((hd r).toNat + 32) ≠ 0
    · rw [if_pos hz]
      refine decided _ (hd_ne hA) (hd_ne hB) ?_ ?_
      · simp only [rank, hdl, hdr, fold, hv.1, hul, if_true, Bool.false_eq_true, if_false]; omega
      · simp only [rank, hdl, hdr, fold, hv.1, hul, if_true, Bool.false_eq_true, if_false]; omega
    · rw [if_neg hz]
      refine letters _ ?_ (by simp [hdl]) (by simp [hdr]) hA hB (Or.inr ⟨by simp [hv.1, hul], rfl⟩)
      simp only [fold, hv.1, hul, if_true, Bool.false_eq_true, if_false]; omega
  rw [cmp_other sec hd1 he hu hv]
  by_cases nl : l = []
  · subst nl
    have nr : r ≠ [] := by rintro rfl; exact he rfl
    obtain ⟨e2, P2, h2⟩ := first_cons nr
    have e : first [] = [] := by simp [first, toks]
    have hp := (plain_hd hr nr).1
    have : (hd r).toNat ≠ 0 := fun e => hp (UInt8.toNat_inj.1 e)
    have hz : (hd ([] : List UInt8)).toNat = 0 := rfl
    rw [h2, e, hz]
    constructor
    · intro _; left; simp
    · intro _; omega
  by_cases nr : r = []
  · subst nr
    obtain ⟨e2, P2, h2⟩ := first_cons nl
    have e : first [] = [] := by simp [first, toks]
    have hz : (hd ([] : List UInt8)).toNat = 0 := rfl
    rw [h2, e, hz]
    constructor
    · intro h; omega
    · rintro (h | h)
      · simp at h
      · simp at h
  · have pl := plain_hd hl nl
    have pr := plain_hd hr nr
    have he' : (hd l).toNat ≠ (hd r).toNat := fun e => he (UInt8.toNat_inj.1 e)
    have key : rank (hd l) ≠ rank (hd r) ∧ ((hd l).toNat < (hd r).toNat ↔ rank (hd l) < rank (hd r)) := by
      simp only [rank, fold, digit, upper, lower, Bool.and_eq_true, decide_eq_true_eq] at *
      split <;> split <;> (try split) <;> (try split) <;> omega
    refine decided _ nl nr key.1 ?_
    rw [← key.2]; omega

/-- **C22**, exactly what the comparison does on plain strings: the dictionary order. -/
theorem C22_is_dictionary_order_partial (s t : List UInt8) (hs : Plain s) (ht : Plain t) :
    (dictCmp s t < 0 ↔ Before s t) ∧ (0 < dictCmp s t ↔ Before t s) := by
  have h1 := cmp_spec _ 0 s t (Nat.le_refl _) hs ht
  have h2 := cmp_spec _ 0 t s (Nat.le_refl _) ht hs
  have h3 := C22_antisymmetric s t
  unfold Before dictCmp at *
  constructor
  · rw [h1]; simp
  · have : 0 < cmpLoop 0 s t ↔ cmpLoop 0 t s < 0 := by omega
    rw [this, h2]; simp

/-- **C22**, transitivity, on plain strings.  Missing: commas and the characters between `Z` and `a`, see the
refutations. -/
theorem C22_transitive_partial (s t u : List UInt8) (hs : Plain s) (ht : Plain t) (hu : Plain u)
    (h1 : dictCmp s t < 0) (h2 : dictCmp t u < 0) : dictCmp s u < 0 := by
  rw [(C22_is_dictionary_order_partial s t hs ht).1] at h1
  rw [(C22_is_dictionary_order_partial t u ht hu).1] at h2
  rw [(C22_is_dictionary_order_partial s u hs hu).1]
  rcases h1 with h1 | ⟨e1, h1⟩ <;> rcases h2 with h2 | ⟨e2, h2⟩
  · exact Or.inl (lt_trans h1 h2)
  · exact Or.inl (by rw [← e2]; exact h1)
  · exact Or.inl (by rw [e1]; exact h2)
  · exact Or.inr ⟨by rw [e1, e2], lt_trans h1 h2⟩

theorem value_unique (p q : List UInt8) (hp : Lean' p) (hq : Lean' q) (h : value p = value q) : p = q := by
  by_cases h1 : p.length < q.length
  · have := value_shorter p q hp.2.1 hq h1 hp.1; omega
  by_cases h2 : q.length < p.length
  · have := value_shorter q p hq.2.1 hp h2 hq.1; omega
  have h3 := fd_value p q (by omega) hp.2.1 hq.2.1
  have h4 := fd_value q p (by omega) hq.2.1 hp.2.1
  have sw : ∀ p q : List UInt8, ∀ d, fd (-d) q p = -fd d p q := by
    intro p
    induction p with
    | nil => intro q d; cases q <;> simp [fd]
    | cons a p ih => intro q d; cases q with
      | nil => simp [fd]
      | cons b q => simp only [fd, nd_swap]; exact ih _ _
  have := sw p q 0
  rw [Int.neg_zero] at this
  exact h3.2.1 (by omega)

/-- The pieces of a string determine it (whatever the string). -/
theorem toks_inj (n : Nat) : ∀ (l r : List UInt8), l.length ≤ n → Plain l → Plain r → toks l = toks r → l = r := by
  induction n using Nat.strongRecOn with
  | ind n ih =>
  intro l r hn hl hr h
  by_cases nl : l = []
  · subst nl
    by_cases nr : r = []
    · exact nr.symm
    · exfalso
      by_cases dr : digit (hd r) = true
      · rw [toks_digit dr] at h; simp [toks] at h
      · rw [toks_char dr nr] at h; simp [toks] at h
  by_cases nr : r = []
  · subst nr
    exfalso
    by_cases dl : digit (hd l) = true
    · rw [toks_digit dl] at h; simp [toks] at h
    · rw [toks_char dl nl] at h; simp [toks] at h
  have len := List.length_pos_iff.2 nl
  by_cases dl : digit (hd l) = true
  · by_cases dr : digit (hd r) = true
    · rw [toks_digit dl, toks_digit dr] at h
      simp only [List.cons.injEq, Prod.mk.injEq, true_and, and_true] at h
      obtain ⟨⟨hv, hz⟩, ht⟩ := h
      have lt : (l.dropWhile digit).length < l.length := by
        cases l with
        | nil => exact absurd rfl nl
        | cons c t =>
          rw [List.dropWhile_cons_of_pos (show digit c = true from dl)]
          have := (List.dropWhile_sublist (p := digit) (l := t)).length_le
          simp; omega
      have e := ih _ (by omega) (l.dropWhile digit) (r.dropWhile digit) (Nat.le_refl _)
        (fun c hc => hl c ((List.dropWhile_sublist digit).subset hc))
        (fun c hc => hr c ((List.dropWhile_sublist digit).subset hc)) ht
      have nel : l.takeWhile digit ≠ [] := by
        cases l with
        | nil => exact absurd rfl nl
        | cons c t => rw [List.takeWhile_cons_of_pos (show digit c = true from dl)]; simp
      have ner : r.takeWhile digit ≠ [] := by
        cases r with
        | nil => exact absurd rfl nr
        | cons c t => rw [List.takeWhile_cons_of_pos (show digit c = true from dr)]; simp
      obtain ⟨p1, _, lp, vp, ep⟩ := strip_spec _ (l.dropWhile digit) nel (fun c hc => List.mem_takeWhile_imp hc) (hd_dropWhile l)
      obtain ⟨q1, _, lq, vq, eq⟩ := strip_spec _ (r.dropWhile digit) ner (fun c hc => List.mem_takeWhile_imp hc) (hd_dropWhile r)
      have hpq := value_unique p1 q1 lp lq (by rw [vp, vq, hv])
      have : l.takeWhile digit = r.takeWhile digit := by rw [ep, eq, hz, hpq]
      rw [← List.takeWhile_append_dropWhile (p := digit) (l := l), this, e, List.takeWhile_append_dropWhile]
    · rw [toks_digit dl, toks_char dr nr] at h
      simp at h
  · by_cases dr : digit (hd r) = true
    · rw [toks_char dl nl, toks_digit dr] at h
      simp at h
    · rw [toks_char dl nl, toks_char dr nr] at h
      simp only [List.cons.injEq, Prod.mk.injEq, and_true] at h
      obtain ⟨⟨hf, hu⟩, ht⟩ := h
      have e := ih l.tail.length (by simp; omega) l.tail r.tail (Nat.le_refl _) (plain_tail hl) (plain_tail hr) ht
      have hh : hd l = hd r := by
        apply UInt8.toNat_inj.1
        unfold fold at hf
        by_cases u1 : upper (hd l) = true <;> by_cases u2 : upper (hd r) = true <;> simp [u1, u2] at hf hu <;> omega
      cases l with
      | nil => exact absurd rfl nl
      | cons a l =>
        cases r with
        | nil => exact absurd rfl nr
        | cons b r => simp only [hd, List.headD_cons, List.tail_cons] at hh e; rw [hh, e]

/-- **C22**, zero means equal, on plain strings.  Missing: commas (`C22_zero_refuted`). -/
theorem C22_zero_partial (s t : List UInt8) (hs : Plain s) (ht : Plain t) : dictCmp s t = 0 ↔ s = t := by
  constructor
  · intro h
    obtain ⟨h1, h2⟩ := C22_is_dictionary_order_partial s t hs ht
    have n1 : ¬ Before s t := fun x => by have := h1.2 x; omega
    have n2 : ¬ Before t s := fun x => by have := h2.2 x; omega
    simp only [Before, not_or, not_and] at n1 n2
    have e1 : first s = first t := le_antisymm (not_lt.1 n2.1) (not_lt.1 n1.1)
    have e2 : second s = second t := le_antisymm (not_lt.1 (n2.2 e1.symm)) (not_lt.1 (n1.2 e1))
    refine toks_inj _ s t (Nat.le_refl _) hs ht ?_
    have len : (toks s).length = (toks t).length := by
      have := congrArg List.length e1; simpa [first] using this
    refine List.ext_getElem len (fun i h1 h2 => ?_)
    have a1 : (first s)[i]? = (first t)[i]? := by rw [e1]
    have a2 : (second s)[i]? = (second t)[i]? := by rw [e2]
    simp only [first, second, List.getElem?_map, List.getElem?_eq_getElem h1, List.getElem?_eq_getElem h2,
      Option.map_some, Option.some.injEq] at a1 a2
    exact Prod.ext a1 a2
  · rintro rfl; exact C22_reflexive s

instance (s : List UInt8) : Decidable (Plain s) := by unfold Plain; infer_instance

/-- The hypotheses are met, and the order is the one users expect: `file9 < file010 < File10`... -/
example : Plain (asc "file9") ∧ Plain (asc "file10") ∧ dictCmp (asc "file9") (asc "file10") < 0 ∧
    Plain (asc "File10") ∧ dictCmp (asc "File10") (asc "file10") < 0 ∧
    dictCmp (asc "file10") (asc "file010") < 0 := by decide +kernel

end Verif.Dict
