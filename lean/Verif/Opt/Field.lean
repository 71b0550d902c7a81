import Verif.Opt.Model
import Mathlib.Tactic.Ring
import Mathlib.Tactic.Positivity

/-!
C123 (integer options) and C124 (an option is set without touching the rest of the record).
-/

namespace Verif.Opt

open Verif.Value (Num roundNum one)

/-! ### Memory -/

theorem leBytes_length : ∀ n v, (leBytes n v).length = n
  | 0, _ => rfl
  | n + 1, v => by simp [leBytes, leBytes_length n]

/-- Reading depends only on the bytes read. -/
theorem peek_congr {m m' : Nat → UInt8} : ∀ (n a : Nat), (∀ i, a ≤ i → i < a + n → m i = m' i) → peek m a n = peek m' a n
  | 0, _, _ => rfl
  | n + 1, a, h => by
    rw [peek, peek, h a (by omega) (by omega), peek_congr n (a + 1) (fun i h1 h2 => h i (by omega) (by omega))]

theorem poke_out {m : Nat → UInt8} {a i : Nat} {b : List UInt8} (h : i < a ∨ a + b.length ≤ i) : poke m a b i = m i := by
  unfold poke; rw [if_neg (by omega)]

theorem poke_in {m : Nat → UInt8} {a j : Nat} {b : List UInt8} (h : j < b.length) : poke m a b (a + j) = b.getD j 0 := by
  unfold poke; rw [if_pos (by omega)]; simp

theorem poke_cons (m : Nat → UInt8) (a : Nat) (x : UInt8) (b : List UInt8) (i : Nat) (h : a + 1 ≤ i) :
    poke m a (x :: b) i = poke m (a + 1) b i := by
  unfold poke
  have e : i - a = (i - (a + 1)) + 1 := by omega
  rw [List.length_cons, e, List.getD_cons_succ]
  by_cases h2 : i < a + 1 + b.length
  · rw [if_pos (by omega), if_pos (by omega)]
  · rw [if_neg (by omega), if_neg (by omega)]

/-- What is written is read. -/
theorem peek_poke (m : Nat → UInt8) : ∀ (n a v : Nat), peek (poke m a (leBytes n v)) a n = v % 256 ^ n
  | 0, _, v => by simp [peek, Nat.mod_one]
  | n + 1, a, v => by
    rw [peek]
    have h0 : poke m a (leBytes (n + 1) v) a = UInt8.ofNat (v % 256) := by
      have := poke_in (m := m) (a := a) (j := 0) (b := leBytes (n + 1) v) (by simp [leBytes])
      simpa [leBytes] using this
    have h1 : peek (poke m a (leBytes (n + 1) v)) (a + 1) n = peek (poke m (a + 1) (leBytes n (v / 256))) (a + 1) n := by
      apply peek_congr
      intro i h1 _
      exact poke_cons m a _ _ i h1
    rw [h0, h1, peek_poke m n (a + 1) (v / 256)]
    have h2 : (UInt8.ofNat (v % 256)).toNat = v % 256 := by simp [UInt8.toNat_ofNat']
    rw [h2, Nat.pow_succ, Nat.mul_comm (256 ^ n) 256, Nat.mod_mul]

theorem pow8 (n : Nat) : 2 ^ (8 * n) = 256 ^ n := by rw [Nat.pow_mul]

theorem wrapU_lt (n : Nat) (z : Int) : wrapU n z < 2 ^ (8 * n) := by
  unfold wrapU
  have hp : (0 : Int) < ((2 ^ (8 * n) : Nat) : Int) := by exact_mod_cast Nat.two_pow_pos _
  have h1 := Int.emod_nonneg z (ne_of_gt hp)
  have h2 := Int.emod_lt_of_pos z hp
  omega

/-- Reading back what was written: the cast of it. -/
theorem load_store (sg : Bool) (n : Nat) (r : Rec) (a : Nat) (z : Int) : loadI sg n (storeI n r a z) a = cast sg n z := by
  unfold loadI cast storeI
  simp only [peek_poke]
  rw [← pow8, Nat.mod_eq_of_lt (wrapU_lt n z)]

/-! ### C123 -/

/-- The integers an integer type holds. -/
def InRange (signed : Bool) (size : Nat) (w : Int) : Prop :=
  if signed then -(2 ^ (8 * size - 1)) ≤ w ∧ w < 2 ^ (8 * size - 1) else 0 ≤ w ∧ w < 2 ^ (8 * size)

/-- The sizes of the C types. -/
def Size (n : Nat) : Prop := n = 1 ∨ n = 2 ∨ n = 4 ∨ n = 8

/-- A number that exists as a `double`. -/
def IsDouble : Num → Prop
  | .fin m => roundNum m = .fin m
  | _ => True

/-- The number is the integer `w`. -/
def IsInt (x : Num) (w : Int) : Prop := x = .fin (w * (one : Int))

theorem cast_fix {sg : Bool} {n : Nat} {w : Int} (hn : Size n) (hw : InRange sg n w) : cast sg n w = w := by
  unfold cast wrapU asS
  unfold InRange at hw
  rcases hn with rfl | rfl | rfl | rfl <;> cases sg <;> simp at hw ⊢ <;> omega

theorem cast_range (sg : Bool) {n : Nat} (w : Int) (hn : Size n) : InRange sg n (cast sg n w) := by
  unfold cast wrapU asS InRange
  rcases hn with rfl | rfl | rfl | rfl <;> cases sg <;> simp <;> omega

/-- The test of the code: exactly the range of the type, apart from the unsigned 64 bit types. -/
theorem accept_iff {sg : Bool} {n : Nat} {w : Int} (hn : Size n) (h8 : ¬ (sg = false ∧ n = 8)) (hw : InRange true 8 w) :
    cast true 8 (cast sg n w) = w ↔ InRange sg n w := by
  constructor
  · intro h
    have h1 := cast_range sg w hn
    have h2 : cast true 8 (cast sg n w) = cast sg n w := by
      apply cast_fix (Or.inr (Or.inr (Or.inr rfl)))
      unfold InRange at h1 ⊢
      rcases hn with rfl | rfl | rfl | rfl <;> cases sg <;> simp at h1 h8 ⊢ <;> omega
    rw [h2] at h
    rw [← h]; exact h1
  · intro h
    rw [cast_fix hn h, cast_fix (Or.inr (Or.inr (Or.inr rfl))) hw]

theorem one_pos : 0 < one := by unfold one; exact Nat.two_pow_pos _

theorem toWide_int {x : Num} {w : Int} (h : IsInt x w) : toWide x = w ∨ (¬ InRange true 8 w ∧ toWide x = -(2 ^ 63)) := by
  unfold IsInt at h
  subst h
  have e : (w * (one : Int)).natAbs / one = w.natAbs := by
    rw [Int.natAbs_mul, Int.natAbs_natCast, Nat.mul_div_cancel _ one_pos]
  simp only [toWide]
  rw [e]
  have hs : (w * (one : Int) < 0) ↔ w < 0 := by
    have := one_pos
    constructor
    · intro h
      rcases Int.lt_or_le w 0 with h2 | h2
      · exact h2
      · have := Int.mul_nonneg h2 (Int.natCast_nonneg one); omega
    · intro h; exact Int.mul_neg_of_neg_of_pos h (by exact_mod_cast this)
  by_cases hb : w.natAbs < 2 ^ 63
  · rw [if_pos hb]
    left
    by_cases hn : w < 0
    · rw [if_pos (hs.2 hn)]; omega
    · rw [if_neg (fun h => hn (hs.1 h))]; omega
  · rw [if_neg hb]
    by_cases he : w = -(2 ^ 63)
    · left; exact he.symm
    · right
      refine ⟨?_, rfl⟩
      unfold InRange
      simp
      omega

/-- C123: an integer option accepts exactly the integers that its type holds; a number accepted is the number read; one
that is refused leaves the record as it was.  For whole numbers, and, in 64 bits, for signed types and numbers in
range (see the refutations). -/
theorem C123_int_partial (c : Call) (sg : Bool) (n a : Nat) (x : Num) (w : Int) (r : Rec) (hc : c.incr = false)
    (hn : Size n) (hx : IsInt x w) (hd : IsDouble x) (h8 : n = 8 → sg = true ∧ InRange true 8 w) :
    ((setOpt c (.int sg n) a (.num x) r).2 = .ok ↔ InRange sg n w) ∧
    ((setOpt c (.int sg n) a (.num x) r).2 = .ok →
      getOpt (.int sg n) a (setOpt c (.int sg n) a (.num x) r).1 = some (.num x)) ∧
    ((setOpt c (.int sg n) a (.num x) r).2 ≠ .ok → (setOpt c (.int sg n) a (.num x) r) = (r, .err)) := by
  have e : setOpt c (.int sg n) a (.num x) r = setInt c sg n a (toWide x) r := by simp [setOpt, setLeaf]
  rw [e]
  have key : cast true 8 (cast sg n (toWide x)) = toWide x ↔ InRange sg n w := by
    rcases toWide_int hx with h | ⟨h, h2⟩
    · rw [h]
      by_cases hw : InRange true 8 w
      · exact accept_iff hn (fun hh => by have := (h8 hh.2).1; rw [hh.1] at this; cases this) hw
      · have hn8 : n ≠ 8 := fun hh => hw (h8 hh).2
        have : ¬ InRange sg n w := by
          intro hh
          apply hw
          unfold InRange at hh ⊢
          rcases hn with rfl | rfl | rfl | rfl <;> cases sg <;> simp at hh hn8 ⊢ <;> omega
        have h3 : toWide x = w := h
        constructor
        · intro hh
          exact absurd (by rw [← hh]; exact cast_range true (n := 8) _ (Or.inr (Or.inr (Or.inr rfl)))) hw
        · intro hh; exact absurd hh this
    · have hn8 : n ≠ 8 := fun hh => h (h8 hh).2
      have h3 : ¬ InRange sg n w := by
        intro hh
        apply h
        unfold InRange at hh ⊢
        rcases hn with rfl | rfl | rfl | rfl <;> cases sg <;> simp at hh hn8 ⊢ <;> omega
      have h4 : ¬ InRange sg n (-(2 ^ 63)) := by
        unfold InRange
        rcases hn with rfl | rfl | rfl | rfl <;> cases sg <;> simp at hn8 ⊢
      rw [h2, accept_iff hn (fun hh => hn8 hh.2) (by unfold InRange; decide)]
      exact ⟨fun hh => absurd hh h4, fun hh => absurd hh h3⟩
  unfold setInt
  rw [if_neg (by rw [hc]; simp)]
  by_cases hk : cast true 8 (cast sg n (toWide x)) = toWide x
  · rw [if_pos hk]
    have hr := key.1 hk
    refine ⟨⟨fun _ => hr, fun _ => rfl⟩, fun _ => ?_, fun h => absurd rfl h⟩
    simp only [getOpt]
    rw [load_store]
    have hw : toWide x = w := by
      rcases toWide_int hx with h | ⟨h, h2⟩
      · exact h
      · exfalso
        apply h
        unfold InRange at hr ⊢
        by_cases hn8 : n = 8
        · have := (h8 hn8).2; unfold InRange at this; exact this
        · rcases hn with rfl | rfl | rfl | rfl <;> cases sg <;> simp at hr hn8 ⊢ <;> omega
    rw [hw, cast_fix hn hr]
    unfold IsInt at hx
    unfold ofInt
    subst hx
    unfold IsDouble at hd
    rw [hd]
  · rw [if_neg hk]
    exact ⟨⟨(fun h => by cases h), (fun h => absurd (key.2 h) hk)⟩, (fun h => by cases h), (fun _ => rfl)⟩

/-- Something other than a number is refused. -/
theorem C123_int_type (c : Call) (sg : Bool) (n a : Nat) (v : V) (r : Rec) (hv : ∀ x, v ≠ .num x) :
    setOpt c (.int sg n) a v r = (r, .err) := by
  cases v <;> simp_all [setOpt, setLeaf]

/-- The empty record. -/
def rec0 : Rec := ⟨fun _ => 0, fun _ => .fin 0, fun _ => none⟩

/-- A fraction is accepted and cut off: 1.5 is set as 1. -/
theorem C123_fraction_refuted :
    ∃ x : Num, IsDouble x ∧ (∀ w, ¬ IsInt x w) ∧ (setOpt {} (.int true 4) 0 (.num x) rec0).2 = .ok ∧
      getOpt (.int true 4) 0 (setOpt {} (.int true 4) 0 (.num x) rec0).1 = some (.num (.fin one)) := by
  refine ⟨.fin (3 * 2 ^ 1073), ?_, ?_, ?_, ?_⟩
  · show roundNum _ = _
    decide +kernel
  · intro w h
    unfold IsInt one at h
    injection h with h
    have e : (3 : Int) * 2 ^ 1073 = (w * 2) * 2 ^ 1073 := by
      have e2 : ((2 ^ 1074 : Nat) : Int) = 2 * 2 ^ 1073 := by decide +kernel
      rw [h, e2, Int.mul_assoc]
    have h2 : (3 : Int) = w * 2 := Int.eq_of_mul_eq_mul_right (a := 2 ^ 1073) (by positivity) e
    omega
  · decide +kernel
  · have e : ofInt 1 = .fin one := by decide +kernel
    have e2 : loadI true 4 (setOpt {} (.int true 4) 0 (.num (.fin (3 * 2 ^ 1073))) rec0).1 0 = 1 := by decide +kernel
    simp only [getOpt]
    rw [e2, e]

/-- An unsigned 64 bit option takes -1, and shows 2^64. -/
theorem C123_unsigned_refuted :
    ∃ x : Num, IsInt x (-1) ∧ (setOpt {} (.int false 8) 0 (.num x) rec0).2 = .ok ∧
      getOpt (.int false 8) 0 (setOpt {} (.int false 8) 0 (.num x) rec0).1 = some (.num (.fin (2 ^ 64 * one))) := by
  refine ⟨.fin ((-1) * (one : Int)), rfl, ?_, ?_⟩
  · decide +kernel
  · have e2 : loadI false 8 (setOpt {} (.int false 8) 0 (.num (.fin ((-1) * (one : Int)))) rec0).1 0 = 2 ^ 64 - 1 := by
      decide +kernel
    have e : ofInt (2 ^ 64 - 1) = .fin (2 ^ 64 * one) := by decide +kernel
    simp only [getOpt]
    rw [e2, e]

/-- A signed 64 bit option takes every number: the infinite ones, NaN and 2^70 become -2^63. -/
theorem C123_huge_refuted (x : Num) (h : x = .nan ∨ x = .inf true ∨ x = .inf false ∨ IsInt x (2 ^ 70)) :
    (setOpt {} (.int true 8) 0 (.num x) rec0).2 = .ok ∧
      loadI true 8 (setOpt {} (.int true 8) 0 (.num x) rec0).1 0 = -(2 ^ 63) := by
  rcases h with rfl | rfl | rfl | h
  · decide +kernel
  · decide +kernel
  · decide +kernel
  · unfold IsInt at h; subst h; decide +kernel

/-- The hypotheses of `C123_int_partial` are met: 200 in a byte, signed and not. -/
example : (setOpt {} (.int false 1) 3 (.num (.fin (200 * (one : Int)))) rec0).2 = .ok ∧
    (setOpt {} (.int true 1) 3 (.num (.fin (200 * (one : Int)))) rec0).2 = .err ∧
    IsDouble (.fin (200 * (one : Int))) ∧ InRange false 1 200 ∧ ¬ InRange true 1 200 := by
  refine ⟨by decide +kernel, by decide +kernel, ?_, ?_, ?_⟩
  · show roundNum _ = _
    decide +kernel
  · unfold InRange; decide
  · unfold InRange; decide

end Verif.Opt
