import Verif.Value.Model
import Mathlib.Data.List.TakeWhile

/-!
C38 (loose equality of numbers and numeric strings), C39 (strict equality is an equivalence), C47 (what equals null and
undefined), C48 (relational operators), C49 (strict equality of strings).
-/

namespace Verif.Value

/-! ### Rounding -/

theorem roundNat_ge (m j : Nat) (h : 2 ^ j ≤ m) : 2 ^ j ≤ roundNat m := by
  unfold roundNat
  split
  · exact h
  · rename_i h53
    have hm : m ≠ 0 := by intro e; subst e; exact h53 (by decide)
    have hL : 53 ≤ log2 m := (Nat.le_log2 hm).2 (by omega)
    have hj : j ≤ log2 m := (Nat.le_log2 hm).2 h
    have hlo : 2 ^ log2 m ≤ m := Nat.log2_self_le hm
    have e : 2 ^ log2 m = 2 ^ 52 * 2 ^ (log2 m - 52) := by rw [← Nat.pow_add]; congr 1; omega
    have hk : 0 < 2 ^ (log2 m - 52) := Nat.two_pow_pos _
    have hq : 2 ^ 52 ≤ m / 2 ^ (log2 m - 52) := by
      rw [Nat.le_div_iff_mul_le hk, ← e]; exact hlo
    have h1 : 2 ^ j ≤ 2 ^ log2 m := Nat.pow_le_pow_right (by decide) hj
    have h2 : 2 ^ log2 m ≤ m / 2 ^ (log2 m - 52) * 2 ^ (log2 m - 52) := by
      rw [e]; exact Nat.mul_le_mul_right _ hq
    have h3 : m / 2 ^ (log2 m - 52) * 2 ^ (log2 m - 52) ≤
        (m / 2 ^ (log2 m - 52) + 1) * 2 ^ (log2 m - 52) := Nat.mul_le_mul_right _ (by omega)
    split
    · omega
    split
    · omega
    split <;> omega

theorem roundNat_le (m j : Nat) (h : m ≤ 2 ^ j) : roundNat m ≤ 2 ^ j := by
  unfold roundNat
  split
  · exact h
  · rename_i h53
    have hm : m ≠ 0 := by intro e; subst e; exact h53 (by decide)
    have hL : 53 ≤ log2 m := (Nat.le_log2 hm).2 (by omega)
    have hlo : 2 ^ log2 m ≤ m := Nat.log2_self_le hm
    have hhi : m < 2 ^ (log2 m + 1) := Nat.lt_log2_self
    have hk : 0 < 2 ^ (log2 m - 52) := Nat.two_pow_pos _
    have hdm : m / 2 ^ (log2 m - 52) * 2 ^ (log2 m - 52) ≤ m := Nat.div_mul_le_self _ _
    have e : 2 ^ (log2 m + 1) = 2 ^ 53 * 2 ^ (log2 m - 52) := by rw [← Nat.pow_add]; congr 1; omega
    rcases Nat.lt_or_ge m (2 ^ j) with hlt | hge
    · have hj : log2 m + 1 ≤ j := by
        have : log2 m < j := (Nat.log2_lt hm).2 hlt
        omega
      have hq : m / 2 ^ (log2 m - 52) < 2 ^ 53 := by
        rw [Nat.div_lt_iff_lt_mul hk, ← e]; exact hhi
      have h1 : (m / 2 ^ (log2 m - 52) + 1) * 2 ^ (log2 m - 52) ≤ 2 ^ (log2 m + 1) := by
        rw [e]; exact Nat.mul_le_mul_right _ hq
      have h2 : 2 ^ (log2 m + 1) ≤ 2 ^ j := Nat.pow_le_pow_right (by decide) hj
      split
      · omega
      split
      · omega
      split <;> omega
    · have hmj : m = 2 ^ j := by omega
      have hj : j = log2 m := by rw [hmj]; unfold log2; rw [Nat.log2_two_pow]
      have hmod : m % 2 ^ (log2 m - 52) = 0 := by
        have : 2 ^ (log2 m - 52) ∣ m := by
          conv => rhs; rw [hmj, hj]
          exact Nat.pow_dvd_pow 2 (by omega)
        exact Nat.mod_eq_zero_of_dvd this
      rw [hmod, Nat.mul_zero, if_pos hk]
      omega

theorem toInt_round (d : Int) : toInt (roundNum d) = 0 ↔ roundNat d.natAbs < one := by
  have hpos : 0 < one := Nat.two_pow_pos _
  have hol : one ≤ limit := Nat.pow_le_pow_right (by decide) (by decide)
  unfold roundNum
  split
  · rename_i h
    constructor
    · intro h; simp [toInt] at h
    · intro h'; omega
  · have key : ∀ r : Nat, ∀ x : Int, x.natAbs = r → (toInt (.fin x) = 0 ↔ r < one) := by
      intro r x hx
      simp only [toInt]
      rw [hx]
      constructor
      · intro h
        split at h
        · have : r / one = 0 := by split at h <;> omega
          exact (Nat.div_eq_zero_iff_lt hpos).1 this
        · simp at h
      · intro h
        have : r / one = 0 := (Nat.div_eq_zero_iff_lt hpos).2 h
        rw [this, if_pos (by decide)]
        split <;> simp
    exact key _ _ (by split <;> simp)

theorem one_eq : one = 2 * 2 ^ 1073 := by unfold one; rw [← Nat.pow_succ']

/-! ### C38 -/

/-- `x == s` for a number and a string. -/
theorem loose_num_str (c : Ctx) (x : Num) (s : List UInt8) :
    looseOp c (.num x) (.str s) = (toInt (sub x (c.strtod (cstr s))) == 0) ∧
    looseOp c (.str s) (.num x) = (toInt (sub (c.strtod (cstr s)) x) == 0) := by
  constructor
  · simp [looseOp, looseEq, vt, toPrim, toNum]
  · simp [looseOp, looseEq, vt, toPrim, toNum]

theorem natAbs_sub_comm (a b : Int) : (a - b).natAbs = (b - a).natAbs := by omega

/-- **C38**, one half: a number and a string that denotes a number at distance 1 or more are never equal, in either
order. -/
theorem C38_far_not_equal (c : Ctx) (a b : Int) (s : List UInt8) (hs : c.strtod (cstr s) = .fin b)
    (h : one ≤ (a - b).natAbs) :
    looseOp c (.num (.fin a)) (.str s) = false ∧ looseOp c (.str s) (.num (.fin a)) = false := by
  obtain ⟨h1, h2⟩ := loose_num_str c (.fin a) s
  rw [h1, h2, hs]
  have key : ∀ d : Int, one ≤ d.natAbs → toInt (roundNum d) ≠ 0 := by
    intro d hd h0
    have := (toInt_round d).1 h0
    have := roundNat_ge d.natAbs 1074 hd
    unfold one at *
    omega
  constructor
  · simp only [sub, beq_eq_false_iff_ne]; exact key _ h
  · simp only [sub, beq_eq_false_iff_ne]; exact key _ (by rw [natAbs_sub_comm]; exact h)

/-- **C38 refuted**, in general: a number and a string that denotes a number at distance 1/2 or less are always
equal, whatever the numbers. -/
theorem C38_close_refuted (c : Ctx) (a b : Int) (s : List UInt8) (hs : c.strtod (cstr s) = .fin b)
    (h : 2 * (a - b).natAbs ≤ one) :
    looseOp c (.num (.fin a)) (.str s) = true ∧ looseOp c (.str s) (.num (.fin a)) = true := by
  obtain ⟨h1, h2⟩ := loose_num_str c (.fin a) s
  rw [h1, h2, hs]
  have key : ∀ d : Int, 2 * d.natAbs ≤ one → toInt (roundNum d) = 0 := by
    intro d hd
    rw [toInt_round]
    rw [one_eq] at hd ⊢
    have := roundNat_le d.natAbs 1073 (by omega)
    have hp : 0 < 2 ^ 1073 := Nat.two_pow_pos 1073
    omega
  constructor
  · simp only [sub, beq_iff_eq]; exact key _ h
  · simp only [sub, beq_iff_eq]; exact key _ (by rw [natAbs_sub_comm]; exact h)

/-- **C38 refuted**, an instance: `0 == "0.5"`, for any `strtod` that reads "0.5" right. -/
theorem C38_refuted (c : Ctx) (hs : c.strtod (asc "0.5") = .fin (2 ^ 1073 : Nat)) :
    looseOp c (.num (.fin 0)) (.str (asc "0.5")) = true ∧ (.fin 0 : Num) ≠ c.strtod (asc "0.5") := by
  have e : cstr (asc "0.5") = asc "0.5" := by decide +kernel
  constructor
  · refine (C38_close_refuted c 0 (2 ^ 1073 : Nat) _ (by rw [e]; exact hs) ?_).1
    rw [one_eq]
    have : ((0 : Int) - (2 ^ 1073 : Nat)).natAbs = 2 ^ 1073 := by
      generalize (2 ^ 1073 : Nat) = y
      omega
    omega
  · rw [hs]
    intro h
    have h' : (0 : Int) = ((2 ^ 1073 : Nat) : Int) := by injection h
    have hp : 0 < 2 ^ 1073 := Nat.two_pow_pos 1073
    generalize (2 ^ 1073 : Nat) = y at h' hp
    omega

/-- **C38**, the part that holds: whole numbers.  Missing: numbers with fractions, infinities. -/
theorem C38_whole_partial (c : Ctx) (i j : Int) (s : List UInt8)
    (hs : c.strtod (cstr s) = .fin (j * one)) :
    (looseOp c (.num (.fin (i * one))) (.str s) = true ↔ i = j) ∧
    (looseOp c (.str s) (.num (.fin (i * one))) = true ↔ i = j) := by
  by_cases hij : i = j
  · subst hij
    have := C38_close_refuted c (i * one) (i * one) s hs (by simp)
    simp [this.1, this.2]
  · have hd : one ≤ (i * one - j * one : Int).natAbs := by
      have : (i * one - j * one : Int) = (i - j) * one := by rw [Int.sub_mul]
      rw [this, Int.natAbs_mul]
      have h1 : 1 ≤ (i - j).natAbs := by omega
      have : (one : Int).natAbs = one := by simp
      rw [this]
      calc one = 1 * one := by simp
        _ ≤ _ := Nat.mul_le_mul_right _ h1
    have := C38_far_not_equal c (i * one) (j * one) s hs hd
    simp [this.1, this.2, hij]

/-- **C38 refuted**: infinity is not `==` to a string that denotes it. -/
theorem C38_inf_refuted (c : Ctx) (neg : Bool) (s : List UInt8) (hs : c.strtod (cstr s) = .inf neg) :
    looseOp c (.num (.inf neg)) (.str s) = false := by
  rw [(loose_num_str c _ s).1, hs]
  simp [sub, toInt]

/-- A context in which the hypotheses hold: "0.5" is a half, "7" is 7, "inf" is infinity. -/
def demoStrtod (s : List UInt8) : Num :=
  if s = asc "0.5" then .fin (2 ^ 1073 : Nat) else if s = asc "7" then .fin ((7 : Int) * one)
  else if s = asc "inf" then .inf false else .nan

def demoToStr (v : Val) : List UInt8 := if v = .num (.fin ((10 : Int) * one)) then asc "10" else asc "?"

def demoKind (i : Nat) : OKind :=
  if i = 0 then .other else if i = 1 then .num .nan else if i = 2 then .bool false else .str (asc "a")

def demoCtx : Ctx := ⟨demoKind, demoStrtod, demoToStr⟩

theorem demoCtx_strtod (s : List UInt8) : demoCtx.strtod s = demoStrtod s := rfl

theorem demoCtx_toStr (v : Val) : demoCtx.toStr v = demoToStr v := rfl

example : demoCtx.strtod (asc "0.5") = .fin (2 ^ 1073 : Nat) := by
  rw [demoCtx_strtod]
  unfold demoStrtod; rw [if_pos rfl]

example : demoCtx.strtod (cstr (asc "7")) = .fin ((7 : Int) * one) := by
  have e : cstr (asc "7") = asc "7" := by decide +kernel
  rw [e]
  rw [demoCtx_strtod]
  unfold demoStrtod
  rw [if_neg (by decide +kernel), if_pos rfl]

/-! ### C39 -/

theorem numEq_symm (a b : Num) : numEq a b = numEq b a := by
  cases a <;> cases b <;> simp only [numEq]
  all_goals exact BEq.comm

theorem numEq_iff (a b : Num) : numEq a b = true ↔ a = b ∧ a ≠ .nan := by
  cases a <;> cases b <;> simp [numEq]

theorem strcmpL_self (a : List UInt8) : strcmpL a a = 0 := by
  induction a with
  | nil => rfl
  | cons x a ih => simp [strcmpL, ih]

theorem strcmpL_zero : ∀ (a b : List UInt8), strcmpL a b = 0 ↔ a = b := by
  intro a
  induction a with
  | nil => intro b; cases b <;> simp [strcmpL]
  | cons x a ih =>
    intro b
    cases b with
    | nil => simp [strcmpL]
    | cons y b =>
      simp only [strcmpL]
      split
      · rename_i h
        constructor
        · intro h0; omega
        · intro e; injection e with e1 e2; subst e1; exact absurd h (UInt8.lt_irrefl x)
      · rename_i h1
        split
        · rename_i h
          constructor
          · intro h0; omega
          · intro e; injection e with e1 e2; subst e1; exact absurd h (UInt8.lt_irrefl x)
        · rename_i h2
          have : x = y := UInt8.le_antisymm (UInt8.not_lt.1 h2) (UInt8.not_lt.1 h1)
          rw [ih]; simp [this]

theorem strcmp_zero (a b : List UInt8) : strcmp a b = 0 ↔ cstr a = cstr b := strcmpL_zero _ _

/-- What strict equality means, case by case. -/
theorem isEqual_iff (c : Ctx) (v w : Val) : isEqual c v w = true ↔
    (∃ i, v = .obj i ∧ w = .obj i) ∨ (v = .null ∧ w = .null) ∨ (v = .undef ∧ w = .undef) ∨
    (∃ b, asBool c v = some b ∧ asBool c w = some b) ∨
    (∃ n, asNum c v = some n ∧ asNum c w = some n ∧ n ≠ .nan) ∨
    (∃ s t, asStr c v = some s ∧ asStr c w = some t ∧ s.length = t.length ∧ cstr s = cstr t) := by
  unfold isEqual
  by_cases h1 : sameObj v w = true
  · rw [if_pos h1]
    simp only [true_iff]
    left
    cases v <;> cases w <;> simp_all [sameObj]
  rw [if_neg h1]
  have h1' : ¬ ∃ i, v = .obj i ∧ w = .obj i := by
    rintro ⟨i, rfl, rfl⟩; simp [sameObj] at h1
  by_cases h2 : v = .null ∧ w = .null
  · rw [if_pos h2]; simp [h2]
  rw [if_neg h2]
  by_cases h3 : v = .undef ∧ w = .undef
  · rw [if_pos h3]; simp [h3]
  rw [if_neg h3]
  simp only [h1', h2, h3, false_or]
  have noBN : ∀ v b, asBool c v = some b → asNum c v = none ∧ asStr c v = none := by
    intro v b hv
    cases v with
    | obj i =>
      simp only [asBool, asNum, asStr] at *
      cases hk : c.kind i <;> rw [hk] at hv <;> simp_all
    | _ => simp_all [asBool, asNum, asStr]
  have noNS : ∀ v b, asNum c v = some b → asStr c v = none := by
    intro v b hv
    cases v with
    | obj i =>
      simp only [asNum, asStr] at *
      cases hk : c.kind i <;> rw [hk] at hv <;> simp_all
    | _ => simp_all [asNum, asStr]
  have third : both (asStr c v) (asStr c w) (fun a b => a.length == b.length && strcmp a b == 0) false = true ↔
      (∃ s t, asStr c v = some s ∧ asStr c w = some t ∧ s.length = t.length ∧ cstr s = cstr t) := by
    cases hv : asStr c v with
    | none => simp [both]
    | some s =>
      cases hw : asStr c w with
      | none => simp [both]
      | some t => simp [both, strcmp_zero]
  have second : both (asNum c v) (asNum c w) numEq
      (both (asStr c v) (asStr c w) (fun a b => a.length == b.length && strcmp a b == 0) false) = true ↔
      (∃ n, asNum c v = some n ∧ asNum c w = some n ∧ n ≠ .nan) ∨
      (∃ s t, asStr c v = some s ∧ asStr c w = some t ∧ s.length = t.length ∧ cstr s = cstr t) := by
    cases hv : asNum c v with
    | none => simpa [both] using third
    | some s =>
      cases hw : asNum c w with
      | none => simpa [both] using third
      | some t =>
        have := noNS v s hv
        simp only [both, numEq_iff, this]
        simp
        intro _
        exact eq_comm
  cases hv : asBool c v with
  | none => simpa [both] using second
  | some s =>
    cases hw : asBool c w with
    | none => simpa [both] using second
    | some t =>
      have := noBN v s hv
      simp only [both, this.1, this.2]
      simp
      exact eq_comm

/-- A value that is NaN, or is an object that wraps NaN. -/
def IsNaN (v : Val) : Prop := v = .num .nan

/-- **C39**, reflexive except on NaN. -/
theorem C39_refl (c : Ctx) (v : Val) : isEqual c v v = true ↔ ¬ IsNaN v := by
  rw [isEqual_iff]
  unfold IsNaN
  cases v with
  | undef => simp
  | null => simp
  | bool b => simp [asBool]
  | num n => simp [asBool, asNum, asStr]
  | str s => simp [asBool, asNum, asStr]
  | obj i => simp

/-- **C39**, symmetric. -/
theorem C39_symm (c : Ctx) (v w : Val) : isEqual c v w = isEqual c w v := by
  have key : ∀ v w, isEqual c v w = true → isEqual c w v = true := by
    intro v w h
    rw [isEqual_iff] at h ⊢
    rcases h with ⟨i, h, h'⟩ | h | h | ⟨b, h, h'⟩ | ⟨n, h, h', h2⟩ | ⟨s, t, h, h', h2, h3⟩
    · exact Or.inl ⟨i, h', h⟩
    · exact Or.inr (Or.inl h.symm)
    · exact Or.inr (Or.inr (Or.inl h.symm))
    · exact Or.inr (Or.inr (Or.inr (Or.inl ⟨b, h', h⟩)))
    · exact Or.inr (Or.inr (Or.inr (Or.inr (Or.inl ⟨n, h', h, h2⟩))))
    · exact Or.inr (Or.inr (Or.inr (Or.inr (Or.inr ⟨t, s, h', h, h2.symm, h3.symm⟩))))
  cases h1 : isEqual c v w with
  | true => exact (key v w h1).symm
  | false =>
    cases h2 : isEqual c w v with
    | false => rfl
    | true => rw [key w v h2] at h1; exact absurd h1 (by simp)

/-- **C39**, transitive. -/
theorem C39_trans (c : Ctx) (u v w : Val) (h1 : isEqual c u v = true) (h2 : isEqual c v w = true) :
    isEqual c u w = true := by
  have same : ∀ a b, (∃ i, a = Val.obj i ∧ b = Val.obj i) → a = b := by
    rintro a b ⟨i, rfl, rfl⟩; rfl
  have h1' := (isEqual_iff c u v).1 h1
  have h2' := (isEqual_iff c v w).1 h2
  rcases h2' with h | h | h | ⟨b, h, h'⟩ | ⟨n, h, h', hn⟩ | ⟨s, t, h, h', hl, hc⟩
  · rw [← same _ _ h]; exact h1
  · rw [h.2, ← h.1]; exact h1
  · rw [h.2, ← h.1]; exact h1
  · rw [isEqual_iff]
    rcases h1' with g | g | g | ⟨b2, g, g'⟩ | ⟨n, g, g', _⟩ | ⟨s, t, g, g', _⟩
    · rw [same _ _ g]; exact Or.inr (Or.inr (Or.inr (Or.inl ⟨b, h, h'⟩)))
    · rw [g.2] at h; simp [asBool] at h
    · rw [g.2] at h; simp [asBool] at h
    · rw [h, Option.some.injEq] at g'
      exact Or.inr (Or.inr (Or.inr (Or.inl ⟨b, by rw [g, g'], h'⟩)))
    · exfalso
      cases v with
      | obj i => simp only [asBool, asNum] at h g'; cases hk : c.kind i <;> rw [hk] at h g' <;> simp_all
      | _ => simp_all [asBool, asNum]
    · exfalso
      cases v with
      | obj i => simp only [asBool, asStr] at h g'; cases hk : c.kind i <;> rw [hk] at h g' <;> simp_all
      | _ => simp_all [asBool, asStr]
  · rw [isEqual_iff]
    rcases h1' with g | g | g | ⟨b2, g, g'⟩ | ⟨n2, g, g', _⟩ | ⟨s, t, g, g', _⟩
    · rw [same _ _ g]; exact Or.inr (Or.inr (Or.inr (Or.inr (Or.inl ⟨n, h, h', hn⟩))))
    · rw [g.2] at h; simp [asNum] at h
    · rw [g.2] at h; simp [asNum] at h
    · exfalso
      cases v with
      | obj i => simp only [asBool, asNum] at h g'; cases hk : c.kind i <;> rw [hk] at h g' <;> simp_all
      | _ => simp_all [asBool, asNum]
    · rw [h, Option.some.injEq] at g'
      exact Or.inr (Or.inr (Or.inr (Or.inr (Or.inl ⟨n, by rw [g, g'], h', hn⟩))))
    · exfalso
      cases v with
      | obj i => simp only [asNum, asStr] at h g'; cases hk : c.kind i <;> rw [hk] at h g' <;> simp_all
      | _ => simp_all [asNum, asStr]
  · rw [isEqual_iff]
    rcases h1' with g | g | g | ⟨b2, g, g'⟩ | ⟨n2, g, g', _⟩ | ⟨s2, t2, g, g', gl, gc⟩
    · rw [same _ _ g]; exact Or.inr (Or.inr (Or.inr (Or.inr (Or.inr ⟨s, t, h, h', hl, hc⟩))))
    · rw [g.2] at h; simp [asStr] at h
    · rw [g.2] at h; simp [asStr] at h
    · exfalso
      cases v with
      | obj i => simp only [asBool, asStr] at h g'; cases hk : c.kind i <;> rw [hk] at h g' <;> simp_all
      | _ => simp_all [asBool, asStr]
    · exfalso
      cases v with
      | obj i => simp only [asNum, asStr] at h g'; cases hk : c.kind i <;> rw [hk] at h g' <;> simp_all
      | _ => simp_all [asNum, asStr]
    · rw [h, Option.some.injEq] at g'
      subst g'
      exact Or.inr (Or.inr (Or.inr (Or.inr (Or.inr ⟨s2, t, g, h', by rw [gl, hl], by rw [gc, hc]⟩))))

/-- The operator `===` without type checking is that relation. -/
theorem C39_operator (c : Ctx) (v w : Val) : strictOp c false v w = some (isEqual c v w) := by
  unfold strictOp
  rw [if_neg (by simp), C39_symm]

/-- **C39 refuted** for the operator with type checking (the default): `1 === undefined` is false but
`undefined === 1` is an error. -/
theorem C39_checked_refuted (c : Ctx) : strictOp c true (.num (.fin one)) .undef = some false ∧
    strictOp c true .undef (.num (.fin one)) = none := by
  constructor
  · unfold strictOp
    rw [if_neg (by simp)]
    rfl
  · unfold strictOp
    rw [if_pos (by simp)]

/-- Three values to which the theorems apply in a non-trivial way: two objects and a string. -/
example : isEqual demoCtx (.obj 3) (.str (asc "a")) = true ∧ isEqual demoCtx (.str (asc "a")) (.obj 4) = true ∧
    isEqual demoCtx (.obj 3) (.obj 4) = true ∧ isEqual demoCtx (.obj 1) (.obj 1) = true ∧
    isEqual demoCtx (.obj 1) (.num .nan) = false := by decide +kernel

/-! ### C49 -/

theorem cstr_of_noNul {s : List UInt8} (h : (0 : UInt8) ∉ s) : cstr s = s := by
  unfold cstr
  rw [List.takeWhile_eq_self_iff]
  intro x hx
  simp only [ne_eq, decide_not, Bool.not_eq_eq_eq_not, Bool.not_true, decide_eq_false_iff_not]
  intro e; subst e; exact h hx

/-- **C49**, the part that holds: `===` on strings without NUL bytes says that they are the same. -/
theorem C49_strings_partial (c : Ctx) (s t : List UInt8) (hs : (0 : UInt8) ∉ s) (ht : (0 : UInt8) ∉ t) :
    isEqual c (.str s) (.str t) = true ↔ s = t := by
  rw [isEqual_iff]
  simp only [asBool, asNum, asStr]
  simp
  rw [cstr_of_noNul hs, cstr_of_noNul ht]
  constructor
  · exact fun h => h.2
  · rintro rfl; exact ⟨rfl, rfl⟩

/-- **C49 refuted**: what follows a NUL byte is not compared. -/
theorem C49_nul_refuted (c : Ctx) (p u v : List UInt8) (h : u.length = v.length) :
    isEqual c (.str (p ++ 0 :: u)) (.str (p ++ 0 :: v)) = true := by
  rw [isEqual_iff]
  right; right; right; right; right
  refine ⟨_, _, rfl, rfl, by simp [h], ?_⟩
  unfold cstr
  induction p with
  | nil => simp
  | cons x p ih =>
    simp only [List.cons_append, List.takeWhile_cons]
    split
    · rw [ih]
    · rfl

example : ([97] ++ 0 :: [98] : List UInt8) ≠ [97] ++ 0 :: [99] := by decide

/-! ### C47 -/

/-- **C47 refuted**: every object that is not a wrapper is `==` to `undefined` and to `null`. -/
theorem C47_object_refuted (c : Ctx) (i : Nat) (h : c.kind i = .other) :
    looseOp c (.obj i) .null = true ∧ looseOp c (.obj i) .undef = true := by
  constructor <;> simp [looseOp, looseEq, vt, toPrim, h, sameType]

/-- **C47**, exactly what is `==` to undefined: undefined, null and every object that is not a wrapper. -/
theorem C47_undefined (c : Ctx) (v : Val) : looseOp c v .undef = true ↔
    v = .undef ∨ v = .null ∨ ∃ i, v = .obj i ∧ c.kind i = .other := by
  have hnan : ∀ n, toInt (sub n .nan) = -2147483648 := by intro n; cases n <;> simp [sub, toInt]
  cases v with
  | undef => simp [looseOp, looseEq, vt, sameType]
  | null => simp [looseOp, looseEq, vt, toPrim]
  | bool b => simp [looseOp, looseEq, vt, toPrim, toNum, hnan]
  | num n => simp [looseOp, looseEq, vt, toPrim, toNum, hnan]
  | str s => simp [looseOp, looseEq, vt, toPrim, toNum, hnan]
  | obj i =>
    cases hk : c.kind i with
    | bool b => simp [looseOp, looseEq, vt, toPrim, toNum, hnan, hk]
    | num n => simp [looseOp, looseEq, vt, toPrim, toNum, hnan, hk]
    | str s => simp [looseOp, looseEq, vt, toPrim, toNum, hnan, hk]
    | other => simp [looseOp, looseEq, vt, toPrim, hk, sameType]

/-- **C47 refuted**: `null` is also `==` to false and to 0. -/
theorem C47_null_refuted (c : Ctx) : looseOp c (.bool false) .null = true ∧ looseOp c (.num (.fin 0)) .null = true := by
  have h0 : toInt (sub (.fin 0) (.fin 0)) = 0 := by
    have := (toInt_round 0).2 (by
      have : roundNat 0 = 0 := by decide
      simp only [Int.natAbs_zero, this]; exact Nat.two_pow_pos _)
    simpa [sub] using this
  constructor <;> simp [looseOp, looseEq, vt, toPrim, toNum, h0]

example : demoCtx.kind 0 = .other := rfl

/-! ### C48 -/

/-- **C48**, numbers: the four operators are those of arithmetic. -/
theorem C48_numbers (c : Ctx) (check : Bool) (a b : Int) :
    opLess c check (.num (.fin a)) (.num (.fin b)) = .bool (decide (a < b)) ∧
    opGreater c check (.num (.fin a)) (.num (.fin b)) = .bool (decide (b < a)) ∧
    opLessEq c check (.num (.fin a)) (.num (.fin b)) = .bool (decide (a ≤ b)) ∧
    opGreaterEq c check (.num (.fin a)) (.num (.fin b)) = .bool (decide (b ≤ a)) := by
  simp [opLess, opGreater, opLessEq, opGreaterEq, less, asStr, toNum, numLt, Rel.neg, ← Int.not_lt]

/-- The order of the numbers with the two infinities (specification). -/
inductive Below : Num → Num → Prop
  | fin {a b : Int} (h : a < b) : Below (.fin a) (.fin b)
  | neg {b : Num} (h : b ≠ .inf true) (h' : b ≠ .nan) : Below (.inf true) b
  | pos {a : Num} (h : a ≠ .inf false) (h' : a ≠ .nan) : Below a (.inf false)

theorem numLt_iff (x y : Num) : numLt x y = true ↔ Below x y := by
  constructor
  · intro h
    cases x with
    | nan => simp [numLt] at h
    | inf a =>
      cases y with
      | nan => simp [numLt] at h
      | inf b => cases a <;> cases b <;> simp [numLt] at h; exact .neg (by simp) (by simp)
      | fin b => cases a <;> simp [numLt] at h; exact .neg (by simp) (by simp)
    | fin a =>
      cases y with
      | nan => simp [numLt] at h
      | inf b => cases b <;> simp [numLt] at h; exact .pos (by simp) (by simp)
      | fin b => exact .fin (by simpa [numLt] using h)
  · intro h
    cases h with
    | fin h => simpa [numLt] using h
    | neg h h' => cases y <;> simp_all [numLt]
    | pos h h' => cases x <;> simp_all [numLt]

/-- **C48**, all numbers but NaN, the infinities included. -/
theorem C48_extended (c : Ctx) (check : Bool) (x y : Num) (hx : x ≠ .nan) (hy : y ≠ .nan) :
    (Below x y → opLess c check (.num x) (.num y) = .bool true ∧ opGreater c check (.num y) (.num x) = .bool true ∧
      opGreaterEq c check (.num x) (.num y) = .bool false ∧ opLessEq c check (.num y) (.num x) = .bool false) ∧
    (¬ Below x y → opLess c check (.num x) (.num y) = .bool false ∧ opGreater c check (.num y) (.num x) = .bool false ∧
      opGreaterEq c check (.num x) (.num y) = .bool true ∧ opLessEq c check (.num y) (.num x) = .bool true) := by
  have e : less c check (.num x) (.num y) = .bool (numLt x y) := by
    simp [less, asStr, toNum, hx, hy]
  constructor
  · intro h
    rw [← numLt_iff] at h
    simp [opLess, opGreater, opGreaterEq, opLessEq, e, h, Rel.neg]
  · intro h
    rw [← numLt_iff, Bool.not_eq_true] at h
    simp [opLess, opGreater, opGreaterEq, opLessEq, e, h, Rel.neg]

example : Below (.inf true) (.fin 3) ∧ ¬ Below (.inf true) (.inf true) :=
  ⟨.neg (by simp) (by simp), fun h => by cases h <;> simp_all⟩

theorem strcmpL_lt : ∀ (a b : List UInt8), strcmpL a b < 0 ↔ a < b := by
  intro a
  induction a with
  | nil => intro b; cases b <;> simp [strcmpL]
  | cons x a ih =>
    intro b
    cases b with
    | nil => simp [strcmpL]
    | cons y b =>
      simp only [strcmpL, List.cons_lt_cons_iff]
      split
      · rename_i h; simp [h]
      · rename_i h
        split
        · rename_i h2
          constructor
          · intro h0; omega
          · rintro (h0 | ⟨rfl, _⟩)
            · exact absurd h0 h
            · exact absurd h2 (UInt8.lt_irrefl x)
        · rename_i h2
          have : x = y := UInt8.le_antisymm (UInt8.not_lt.1 h2) (UInt8.not_lt.1 h)
          rw [ih]; simp [this, UInt8.lt_irrefl]

theorem strcmpL_neg : ∀ (a b : List UInt8), strcmpL b a = -strcmpL a b := by
  intro a
  induction a with
  | nil => intro b; cases b <;> simp [strcmpL]
  | cons x a ih =>
    intro b
    cases b with
    | nil => simp [strcmpL]
    | cons y b =>
      simp only [strcmpL]
      rcases Nat.lt_trichotomy x.toNat y.toNat with h | h | h
      · have h1 : x < y := h
        have h2 : ¬ y < x := fun h' => absurd (UInt8.lt_trans h1 h') (UInt8.lt_irrefl x)
        simp [h1, h2]
      · have : x = y := UInt8.toNat_inj.1 h
        subst this
        simp [UInt8.lt_irrefl, ih]
      · have h1 : y < x := h
        have h2 : ¬ x < y := fun h' => absurd (UInt8.lt_trans h1 h') (UInt8.lt_irrefl y)
        simp [h1, h2]

/-- **C48**, strings without NUL bytes: the four operators are the lexicographic order of the bytes. -/
theorem C48_strings (c : Ctx) (check : Bool) (s t : List UInt8) (hs : (0 : UInt8) ∉ s) (ht : (0 : UInt8) ∉ t) :
    opLess c check (.str s) (.str t) = .bool (decide (s < t)) ∧
    opGreater c check (.str s) (.str t) = .bool (decide (t < s)) ∧
    opLessEq c check (.str s) (.str t) = .bool (decide (¬ t < s)) ∧
    opGreaterEq c check (.str s) (.str t) = .bool (decide (¬ s < t)) := by
  have key : ∀ s t : List UInt8, (0 : UInt8) ∉ s → (0 : UInt8) ∉ t →
      less c check (.str s) (.str t) = .bool (decide (s < t)) := by
    intro s t hs ht
    unfold less
    rw [if_neg (by simp)]
    simp only [asStr, Option.getD_some, strcmp, cstr_of_noNul hs, cstr_of_noNul ht]
    congr 1
    by_cases h1 : s < t
    · have := (strcmpL_lt s t).2 h1
      rw [if_neg (by omega), if_pos this]; simp [h1]
    · have h2 : ¬ strcmpL s t < 0 := fun h => h1 ((strcmpL_lt s t).1 h)
      by_cases h3 : strcmpL s t > 0
      · rw [if_pos h3]; simp [h1]
      · rw [if_neg h3, if_neg h2]
        have : strcmpL s t = 0 := by omega
        rw [strcmpL_zero] at this
        subst this; simp [h1]
  simp only [opLess, opGreater, opLessEq, opGreaterEq, key s t hs ht, key t s ht hs, Rel.neg, decide_not]
  simp

/-- **C48**: of two numbers or two strings (without NUL bytes), exactly one of `<`, `==`, `>` holds. -/
theorem C48_trichotomy (c : Ctx) (check : Bool) (v w : Val)
    (h : (∃ a b, v = .num (.fin a) ∧ w = .num (.fin b)) ∨
      (∃ s t, v = .str s ∧ w = .str t ∧ (0 : UInt8) ∉ s ∧ (0 : UInt8) ∉ t)) :
    (opLess c check v w = .bool true ∧ looseOp c v w = false ∧ opGreater c check v w = .bool false) ∨
    (opLess c check v w = .bool false ∧ looseOp c v w = true ∧ opGreater c check v w = .bool false) ∨
    (opLess c check v w = .bool false ∧ looseOp c v w = false ∧ opGreater c check v w = .bool true) := by
  rcases h with ⟨a, b, rfl, rfl⟩ | ⟨s, t, rfl, rfl, hs, ht⟩
  · obtain ⟨h1, h2, _, _⟩ := C48_numbers c check a b
    rw [h1, h2]
    simp only [looseOp, looseEq, vt, if_true, sameType, numEq, beq_eq_false_iff_ne, ne_eq, Num.fin.injEq,
      Rel.bool.injEq, decide_eq_true_eq, decide_eq_false_iff_not, beq_iff_eq]
    omega
  · obtain ⟨h1, h2, _, _⟩ := C48_strings c check s t hs ht
    rw [h1, h2]
    have e : looseOp c (.str s) (.str t) = (strcmpL s t == 0) := by
      simp only [looseOp, looseEq, vt, if_true, sameType, strcmp, cstr_of_noNul hs, cstr_of_noNul ht]
    rw [e]
    have g1 := strcmpL_lt s t
    have g2 := strcmpL_lt t s
    have g3 := strcmpL_neg s t
    rcases Int.lt_trichotomy (strcmpL s t) 0 with h | h | h
    · left
      refine ⟨by simp [g1.1 h], by simp; omega, ?_⟩
      have : ¬ t < s := fun x => by have := g2.2 x; omega
      simp [this]
    · right; left
      refine ⟨?_, by simp [h], ?_⟩
      · have : ¬ s < t := fun x => by have := g1.2 x; omega
        simp [this]
      · have : ¬ t < s := fun x => by have := g2.2 x; omega
        simp [this]
    · right; right
      refine ⟨?_, by simp; omega, ?_⟩
      · have : ¬ s < t := fun x => by have := g1.2 x; omega
        simp [this]
      · have : t < s := g2.1 (by omega)
        simp [this]

/-- **C48 refuted** for a number and a numeric string: they are compared as text, `10 < "9"`. -/
theorem C48_mixed_refuted (c : Ctx) (check : Bool) (h : c.toStr (.num (.fin ((10 : Int) * one))) = asc "10") :
    opLess c check (.num (.fin ((10 : Int) * one))) (.str (asc "9")) = .bool true := by
  unfold opLess less
  rw [if_neg (by simp)]
  simp only [asStr, Option.getD_none, Option.getD_some, h]
  decide +kernel

example : demoCtx.toStr (.num (.fin ((10 : Int) * one))) = asc "10" := by
  rw [demoCtx_toStr]
  unfold demoToStr; rw [if_pos rfl]

end Verif.Value
