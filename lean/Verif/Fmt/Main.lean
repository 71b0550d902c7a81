import Verif.Fmt.Read

/-! From directives to whole formats. -/

namespace Verif.Fmt
open Verif Verif.Utf8

theorem isFlag_toNat : ∀ n < 256, isFlag (UInt8.ofNat n).toNat = isFlagB (UInt8.ofNat n) := by decide +kernel

theorem isFlag_u8 (b : UInt8) : isFlag b.toNat = isFlagB b :=
  u8_all (P := fun b => isFlag b.toNat = isFlagB b) isFlag_toNat b

theorem flagB_ascii (b : UInt8) (h : isFlagB b = true) : b < 0x80 :=
  u8_all (P := fun b => isFlagB b = true → b < 0x80) (by decide +kernel) b h

theorem flagB_facts (b : UInt8) (h : isFlagB b = true) :
    UInt8.ofNat b.toNat = b ∧ (b.toNat == 45) = (b == 45) ∧ (b.toNat == 48) = (b == 48) :=
  u8_all (P := fun b => isFlagB b = true →
    UInt8.ofNat b.toNat = b ∧ (b.toNat == 45) = (b == 45) ∧ (b.toNat == 48) = (b == 48)) (by decide +kernel) b h

theorem bcomm (a b : UInt8) : (a == b) = (b == a) :=
  Bool.eq_iff_iff.2 (by rw [beq_iff_eq, beq_iff_eq]; exact eq_comm)

/-- The flag loop reads exactly the flags. -/
theorem flagLoop_flags (R : List UInt8) (hR : isFlag (peek R).1 = false) (fl : List UInt8) :
    ∀ (n : Nat) (spec : List UInt8) (minus : Bool) (pad : UInt8), (∀ x ∈ fl, isFlagB x = true) →
    spec.length + fl.length ≤ 90 → fl.length < n →
    flagLoop n ⟨spec, minus, pad, fl ++ R⟩ =
      some ⟨spec ++ fl, minus || fl.contains 45, if fl.contains 48 then 48 else pad, R⟩ := by
  induction fl with
  | nil =>
    intro n spec minus pad _ _ hn
    cases n with
    | zero => simp at hn
    | succ n => simp [flagLoop, hR]
  | cons b fl ih =>
    intro n spec minus pad hf hl hn
    cases n with
    | zero => simp at hn
    | succ n =>
      have hb := hf b (by simp)
      have hp := peek_ascii b (fl ++ R) (flagB_ascii b hb)
      obtain ⟨f1, f2, f3⟩ := flagB_facts b hb
      simp only [List.length_cons] at hl hn
      simp only [flagLoop, List.cons_append, hp, isFlag_u8, hb, if_true, f1, f2, f3]
      rw [if_neg (by simp; omega)]
      simp only [List.drop_succ_cons, List.drop_zero]
      rw [ih n _ _ _ (fun x h => hf x (by simp [h])) (by simp; omega) (by omega)]
      have e1 : spec ++ [b] ++ fl = spec ++ b :: fl := by simp
      have e2 : (minus || b == 45 || fl.contains 45) = (minus || (b :: fl).contains 45) := by
        rw [List.contains_cons, Bool.or_assoc]
        rw [bcomm b 45]
      have e3 : (if fl.contains 48 = true then (48 : UInt8) else if (b == 48) = true then 48 else pad) =
          if (b :: fl).contains 48 = true then 48 else pad := by
        rw [List.contains_cons]
        rw [bcomm 48 b]
        cases fl.contains 48 <;> cases b == 48 <;> rfl
      rw [e1, e2, e3]

theorem strtoul_any (n : Nat) (r : List UInt8) (hr : ∀ c t, r = c :: t → isDig c = false) :
    strtoul (digits 10 false n ++ r) = (min n (2^64 - 1), r) := by
  have h := takeWhile_run (p := isDig) (digits 10 false n) r (digits_all n) hr
  simp only [strtoul, h.1, h.2, val10_digits]

/-- The bytes that can follow a width: `.`, a length modifier, a conversion. -/
def after : List UInt8 := asc ".hldiuoxXsSqcCaAeEfgG"

theorem after_facts : ∀ b ∈ after, b < 0x80 ∧ isFlag b.toNat = false ∧ isDigN b.toNat = false ∧ isDig b = false ∧
    (b.toNat == 42) = false := by decide

theorem tail_head (d : Dir) (hd : d.Ok) (R : List UInt8) : ∃ b t, d.mod ++ d.conv :: R = b :: t ∧ b ∈ after ∧ b ≠ 46 := by
  have hc := hd.conv
  have key : ∀ c ∈ asc "diuoxXsSqcCaAeEfgG", c ∈ after ∧ c ≠ 46 := by decide
  have hm := hd.mod
  simp only [List.mem_cons, List.not_mem_nil, or_false] at hm
  rcases hm with h | h | h | h <;> rw [h]
  · exact ⟨_, _, rfl, key _ hc⟩
  · exact ⟨104, _, rfl, by decide, by decide⟩
  · exact ⟨108, _, rfl, by decide, by decide⟩
  · exact ⟨108, _, rfl, by decide, by decide⟩

theorem ptail_head (d : Dir) (hd : d.Ok) (R : List UInt8) :
    ∃ b t, precText d.prec ++ (d.mod ++ d.conv :: R) = b :: t ∧ b ∈ after := by
  cases h : d.prec with
  | none => obtain ⟨b, t, e, h1, _⟩ := tail_head d hd R; exact ⟨b, t, e, h1⟩
  | lit n => exact ⟨46, _, rfl, by decide⟩
  | star => exact ⟨46, _, rfl, by decide⟩

theorem lenMod_tail (d : Dir) (hd : d.Ok) (R : List UInt8) : lenMod (d.mod ++ d.conv :: R) = d.conv :: R := by
  have key : ∀ c ∈ asc "diuoxXsSqcCaAeEfgG", c < 0x80 ∧ (c.toNat == 104) = false ∧ (c.toNat == 108) = false := by decide
  obtain ⟨k1, k2, k3⟩ := key _ hd.conv
  have hp := peek_ascii d.conv R k1
  have hm := hd.mod
  have e1 : asc "h" = [104] := by decide
  have e2 : asc "l" = [108] := by decide
  have e3 : asc "ll" = [108, 108] := by decide
  rw [e1, e2, e3] at hm
  simp only [List.mem_cons, List.not_mem_nil, or_false] at hm
  have p1 := peek_ascii 104 (d.conv :: R) (by decide)
  have p2 := peek_ascii 108 (d.conv :: R) (by decide)
  have p3 := peek_ascii 108 (108 :: d.conv :: R) (by decide)
  rcases hm with h | h | h | h <;> rw [h]
  · simp [lenMod, hp, k2, k3]
  · simp [lenMod, p1]
  · simp [lenMod, p2, hp, k3]
  · simp [lenMod, p3, p2]

/-- Reading the width. -/
theorem widthStep_text {F} (E : Env F) (hE : LibcOk E) (A : List (Arg F)) (d : Dir) (hd : d.Ok) (ai : Nat)
    (spec : List UInt8) (minus : Bool) (pad : UInt8) (R : List UInt8) (hR : ∃ b t, R = b :: t ∧ b ∈ after) :
    match widthOf E d.width (A.drop ai) with
    | none => widthStep E A ⟨spec, minus, pad, d.width.text ++ R⟩ ai = .err
    | some (w, l) => ∃ ai', l = A.drop ai' ∧ (d.width ≠ .star → ai' = ai) ∧ (d.width = .star → l ≠ []) ∧
        ((w < 0 → d.width = .star)) ∧
        ∃ w', (w.natAbs ≤ 10^9 → w' = (w.natAbs : Int)) ∧
        widthStep E A ⟨spec, minus, pad, d.width.text ++ R⟩ ai =
        .ok ⟨w', spec ++ (if decide (w < 0) && !minus then [45] else []), minus || decide (w < 0), R, ai'⟩ := by
  obtain ⟨b, t, e, hb⟩ := hR
  obtain ⟨b1, b2, b3, b4, b5⟩ := after_facts b hb
  have hp := peek_ascii b t b1
  cases hw : d.width with
  | none =>
    simp only [widthOf]
    refine ⟨ai, rfl, fun _ => rfl, fun h => by simp at h, fun h => by omega, 0, fun _ => rfl, ?_⟩
    subst e
    simp [widthStep, Num0.text, hp, b3, b5]
  | lit n =>
    simp only [widthOf]
    refine ⟨ai, rfl, fun _ => rfl, fun h => by simp at h, fun h => by omega, toLong (min n (2^64-1) : Nat), fun h => ?_, ?_⟩
    · simp only [Int.natAbs_natCast] at h ⊢
      rw [toLong_id _ (by omega) (by omega)]; omega
    · obtain ⟨c, t', e', hc⟩ := digits_head n (hd.width n hw)
      have hcf : ∀ c ∈ asc "123456789", c < 0x80 ∧ isDigN c.toNat = true := by decide
      have hs := strtoul_any n R (fun c' t'' e'' => by rw [e] at e''; cases e''; exact b4)
      have hpk : peek (digits 10 false n ++ R) = (c.toNat, 1) := by
        rw [e']; exact peek_ascii c _ (hcf c hc).1
      have hlt : ¬ ((n : Int) < 0) := by omega
      simp only [widthStep, Num0.text, hpk, (hcf c hc).2, if_true, hs, hlt, decide_false, Bool.or_false, Bool.false_and,
        Bool.false_eq_true, if_false, List.append_nil]
  | star =>
    have hp2 := peek_ascii 42 R (by decide)
    have f1 : isDigN (42 : UInt8).toNat = false := by decide
    have f2 : ((42 : UInt8).toNat == 42) = true := by decide
    have hlen : (A.drop ai).length = A.length - ai := List.length_drop
    have hget : A[ai]? = (A.drop ai)[0]? := by simp
    have hstep : widthStep E A ⟨spec, minus, pad, Num0.star.text ++ R⟩ ai =
        if ai + 1 ≥ A.length then .err
        else (getLong E A ai).bind fun w =>
          if w < 0 then
            .ok ⟨toLong (-w), if minus then spec else spec ++ [45], true, R, ai + 1⟩
          else .ok ⟨w, spec, minus, R, ai + 1⟩ := by
      simp only [widthStep, Num0.text, List.cons_append, List.nil_append, hp2, f1, f2, Bool.false_eq_true, if_false, if_true,
        List.drop_succ_cons, List.drop_zero]
    rw [hstep]
    have hd1 : A.drop (ai + 1) = (A.drop ai).drop 1 := by rw [List.drop_drop]
    unfold getLong
    rw [hget]
    generalize hL : A.drop ai = L at *
    match L with
    | [] => simp only [widthOf]; rw [if_pos (by simp at hlen; omega)]
    | [v] =>
      have : widthOf E .star [v] = none := by cases v <;> rfl
      simp only [this]
      rw [if_pos (by simp at hlen; omega)]
    | .str b :: v :: l =>
      simp only [widthOf]
      rw [if_neg (by simp at hlen; omega)]; rfl
    | .other j t :: v :: l =>
      simp only [widthOf]
      rw [if_neg (by simp at hlen; omega)]; rfl
    | .num x :: v :: l =>
      simp only [widthOf]
      rw [if_neg (by simp at hlen; omega)]
      have hr := hE.wide x
      simp only [List.getElem?_cons_zero, Fmt.R.bind]
      rw [toLong_id _ hr.1 hr.2]
      by_cases hx : E.wide x < 0
      · rw [if_pos hx]
        refine ⟨ai + 1, by rw [hd1]; rfl, fun h => absurd rfl h, fun _ => by simp, fun _ => trivial, toLong (-(E.wide x)), fun h => ?_, ?_⟩
        · rw [toLong_id _ (by omega) (by omega)]; omega
        · simp only [hx, decide_true, Bool.or_true, Bool.true_and]
          cases minus <;> simp
      · rw [if_neg hx]
        refine ⟨ai + 1, by rw [hd1]; rfl, fun h => absurd rfl h, fun _ => by simp, fun h => absurd h hx, E.wide x, fun h => by omega, ?_⟩
        simp [hx]

/-- Reading the precision. -/
theorem precStep_text {F} (E : Env F) (hE : LibcOk E) (A : List (Arg F)) (d : Dir) (hd : d.Ok) (ai : Nat)
    (R : List UInt8) (hR : ∃ b t, R = b :: t ∧ b ∈ after ∧ b ≠ 46) :
    let r := precText d.prec ++ R
    match precOf E d.prec (A.drop ai) with
    | none => precStep E A (dotStep r).2 ai = .err
    | some (p, l) => ∃ ai', l = A.drop ai' ∧ (d.prec ≠ .star → ai' = ai) ∧ (d.prec = .star → l ≠ []) ∧
        (d.prec = .none → p = none) ∧ (dotStep r).1 = p.isSome ∧
        ∃ p', (p.getD 0 ≤ 10^9 → p' = (p.getD 0 : Int)) ∧ precStep E A (dotStep r).2 ai = .ok ⟨p', R, ai'⟩ := by
  intro r
  obtain ⟨b, t, e, hb, hb46⟩ := hR
  obtain ⟨b1, b2, b3, b4, b5⟩ := after_facts b hb
  have hp := peek_ascii b t b1
  have hb46' : (b.toNat == 46) = false :=
    u8_all (P := fun b => b ≠ 46 → (b.toNat == 46) = false) (by decide +kernel) b hb46
  have dotp : ∀ s, dotStep (46 :: s) = (true, s) := by
    intro s
    have := peek_ascii 46 s (by decide)
    simp [dotStep, this]
  cases hw : d.prec with
  | none =>
    have er : r = R := by simp [r, hw, precText]
    have ed : dotStep r = (false, R) := by rw [er, e]; simp [dotStep, hp, hb46']
    simp only [precOf, ed]
    refine ⟨ai, rfl, fun _ => rfl, fun h => by simp at h, fun _ => trivial, rfl, 0, fun _ => rfl, ?_⟩
    subst e
    simp [precStep, hp, b3, b5]
  | lit n =>
    have er : r = 46 :: (digits 10 false n ++ R) := by simp [r, hw, precText, Num0.text]
    have ed : dotStep r = (true, digits 10 false n ++ R) := by rw [er]; exact dotp _
    simp only [precOf, ed]
    refine ⟨ai, rfl, fun _ => rfl, fun h => by simp at h, fun h => by simp at h, rfl, toLong (min n (2^64-1) : Nat), fun h => ?_, ?_⟩
    · simp only [Option.getD_some] at h ⊢
      rw [toLong_id _ (by omega) (by omega)]; omega
    · have hcf : ∀ n < 256, isDig (UInt8.ofNat n) = true → UInt8.ofNat n < 0x80 ∧ isDigN (UInt8.ofNat n).toNat = true := by decide +kernel
      have hs := strtoul_any n R (fun c' t'' e'' => by rw [e] at e''; cases e''; exact b4)
      obtain ⟨c, t', e'⟩ := List.exists_cons_of_ne_nil (digits_ne_nil 10 false n)
      have hc := u8_all (P := fun b => isDig b = true → b < 0x80 ∧ isDigN b.toNat = true) hcf c (digits_all n c (by rw [e']; simp))
      have hpk : peek (digits 10 false n ++ R) = (c.toNat, 1) := by
        rw [e']; exact peek_ascii c _ hc.1
      simp only [precStep, hpk, hc.2, if_true, hs]
  | star =>
    have er : r = 46 :: 42 :: R := by simp [r, hw, precText, Num0.text]
    have ed : dotStep r = (true, 42 :: R) := by rw [er]; exact dotp _
    have hp2 := peek_ascii 42 R (by decide)
    have f1 : isDigN (42 : UInt8).toNat = false := by decide
    have f2 : ((42 : UInt8).toNat == 42) = true := by decide
    have hlen : (A.drop ai).length = A.length - ai := List.length_drop
    have hget : A[ai]? = (A.drop ai)[0]? := by simp
    have hstep : precStep E A (42 :: R) ai =
        if ai + 1 ≥ A.length then .err
        else (getLong E A ai).bind fun p => .ok ⟨if p < 0 then 0 else p, R, ai + 1⟩ := by
      simp only [precStep, hp2, f1, f2, Bool.false_eq_true, if_false, if_true,
        List.drop_succ_cons, List.drop_zero]
    rw [ed]
    simp only []
    rw [hstep]
    have hd1 : A.drop (ai + 1) = (A.drop ai).drop 1 := by rw [List.drop_drop]
    unfold getLong
    rw [hget]
    generalize hL : A.drop ai = L at *
    match L with
    | [] => simp only [precOf]; rw [if_pos (by simp at hlen; omega)]
    | [v] =>
      have : precOf E .star [v] = none := by cases v <;> rfl
      simp only [this]
      rw [if_pos (by simp at hlen; omega)]
    | .str b :: v :: l =>
      simp only [precOf]
      rw [if_neg (by simp at hlen; omega)]; rfl
    | .other j t :: v :: l =>
      simp only [precOf]
      rw [if_neg (by simp at hlen; omega)]; rfl
    | .num x :: v :: l =>
      simp only [precOf]
      rw [if_neg (by simp at hlen; omega)]
      have hr := hE.wide x
      simp only [List.getElem?_cons_zero, Fmt.R.bind]
      rw [toLong_id _ hr.1 hr.2]
      refine ⟨ai + 1, by rw [hd1]; rfl, fun h => absurd rfl h, fun _ => by simp, fun h => by simp at h, rfl, _, fun h => ?_, rfl⟩
      simp only [Option.getD_some] at h ⊢
      split <;> omega

end Verif.Fmt
