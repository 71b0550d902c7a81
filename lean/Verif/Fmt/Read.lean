import Verif.Fmt.Conv

/-! Reading a directive. -/

namespace Verif.Fmt
open Verif Verif.Utf8

/-- Where `format` keeps to the specification: no `0` flag together with left justification for the
text conversions, and no precision for `q`. -/
structure Dir.Tame (d : Dir) : Prop where
  zero : d.conv ∈ asc "sSqcC" → 48 ∈ d.flags → 45 ∉ d.flags ∧ d.width ≠ .star
  q : d.conv = 113 → d.prec = .none

/-- No string argument contains a NUL (only the conversions `S` and `q` need this). -/
def NoNulStr {F} (d : Dir) (v : Arg F) : Prop := d.conv ∈ asc "Sq" → ∀ b, v = .str b → 0 ∉ b

theorem takeWhile_nonul (b : List UInt8) (h : 0 ∉ b) : b.takeWhile (· ≠ 0) = b := by
  have := takeWhile_run (p := fun x => decide (x ≠ 0)) b [] (fun c hc => by
    have : c ≠ 0 := fun e => h (e ▸ hc)
    simpa using this) (fun c t e => by cases e)
  simpa using this.1

/-- The conversion characters, one by one. -/
theorem conv_cases {c : UInt8} (h : c ∈ asc "diuoxXsSqcCaAeEfgG") :
    c ∈ asc "diuoxX" ∨ c ∈ asc "aAeEfgG" ∨ c = 115 ∨ c = 83 ∨ c = 113 ∨ c = 99 ∨ c = 67 :=
  (by decide : ∀ c ∈ asc "diuoxXsSqcCaAeEfgG",
    c ∈ asc "diuoxX" ∨ c ∈ asc "aAeEfgG" ∨ c = 115 ∨ c = 83 ∨ c = 113 ∨ c = 99 ∨ c = 67) c h

theorem convert_int {F} (E : Env F) (c : UInt8) (hc : c ∈ asc "diuoxX") (v : Arg F) (spec : List UInt8) (w : Int)
    (got : Bool) (p : Int) (buf : Int) :
    convert E c.toNat v spec w got p buf =
      convNum E false (if c ∈ asc "i" then 100 else c) v spec w got p buf := by
  have h : c = 100 ∨ c = 105 ∨ c = 117 ∨ c = 111 ∨ c = 120 ∨ c = 88 := by
    have e : asc "diuoxX" = [100, 105, 117, 111, 120, 88] := by decide
    rw [e] at hc; simpa using hc
  rcases h with h | h | h | h | h | h <;> subst h <;> rfl

theorem convert_dbl {F} (E : Env F) (c : UInt8) (hc : c ∈ asc "aAeEfgG") (v : Arg F) (spec : List UInt8) (w : Int)
    (got : Bool) (p : Int) (buf : Int) :
    convert E c.toNat v spec w got p buf = convNum E true c v spec w got p buf := by
  have h : c = 97 ∨ c = 65 ∨ c = 101 ∨ c = 69 ∨ c = 102 ∨ c = 103 ∨ c = 71 := by
    have e : asc "aAeEfgG" = [97, 65, 101, 69, 102, 103, 71] := by decide
    rw [e] at hc; simpa using hc
  rcases h with h | h | h | h | h | h | h <;> subst h <;> rfl

theorem convert_agree {F} (E : Env F) (hE : LibcOk E) (d : Dir) (hd : d.Ok) (am : Bool) (W : Nat) (P : Option Nat)
    (v : Arg F) (hv : NoNulStr d v) (buf : Int) (hb : 100 ≤ buf) (hW : W ≤ 10^9) (hP : P.getD 0 ≤ 10^9)
    (minus : Bool) (hm : minus = (d.flags.contains 45 || am)) (ham : am = true → d.flags.contains 45 = false)
    (hz : d.conv ∈ asc "sSqcC" → minus = true → d.flags.contains 48 = false)
    (hq : d.conv = 113 → P = none) :
    Agree (conv1 E d minus W P v) minus (if d.flags.contains 48 then 48 else 32) W
      (convert E d.conv.toNat v (37 :: d.flags ++ (if am then [45] else [])) W P.isSome (P.getD 0 : Nat) buf) := by
  have hfB : ∀ x ∈ d.flags, isFlagB x = true := fun x h => (flag_mem' x).1 (hd.flags x h)
  rcases conv_cases hd.conv with hc | hc | hc | hc | hc | hc | hc
  · rw [convert_int E d.conv hc]
    have n1 : ∀ c ∈ asc "diuoxX", c ∉ asc "s" ∧ c ∉ asc "S" ∧ c ∉ asc "q" ∧ c ∉ asc "cC" := by decide
    obtain ⟨a1, a2, a3, a4⟩ := n1 _ hc
    unfold conv1
    simp only [if_neg a1, if_neg a2, if_neg a3, if_neg a4, if_pos hc]
    cases v with
    | num x => exact convNum_int E hE d.flags am W P _ x buf hb hfB hd.few hW hP _ minus hm
    | str b => exact convNum_err E d.flags am W P _ false (.str b) (fun x e => by cases e) buf hd.few hW hP
    | other a b => exact convNum_err E d.flags am W P _ false (.other a b) (fun x e => by cases e) buf hd.few hW hP
  · rw [convert_dbl E d.conv hc]
    have n1 : ∀ c ∈ asc "aAeEfgG", c ∉ asc "s" ∧ c ∉ asc "S" ∧ c ∉ asc "q" ∧ c ∉ asc "cC" ∧ c ∉ asc "diuoxX" := by decide
    obtain ⟨a1, a2, a3, a4, a5⟩ := n1 _ hc
    unfold conv1
    simp only [if_neg a1, if_neg a2, if_neg a3, if_neg a4, if_neg a5]
    have e : (minus && !d.flags.contains 45) = am := by
      rw [hm]
      cases h1 : d.flags.contains 45 <;> cases h2 : am <;> simp_all
    rw [e]
    cases v with
    | num x => exact convNum_dbl E hE d.flags am W P _ x buf hb hd.flags hd.few hc hW hP _ minus
    | str b => exact convNum_err E d.flags am W P _ true (.str b) (fun x e => by cases e) buf hd.few hW hP
    | other a b => exact convNum_err E d.flags am W P _ true (.other a b) (fun x e => by cases e) buf hd.few hW hP
  · have hz' := hz (by rw [hc]; decide)
    have i1 : d.conv ∈ asc "s" := by rw [hc]; decide
    simp only [conv1, if_pos i1]
    rw [hc]
    cases v with
    | str b => exact agree_field hb hz' hP
    | num x => rfl
    | other a b => rfl
  · have hz' := hz (by rw [hc]; decide)
    have n1 : d.conv ∉ asc "s" := by rw [hc]; decide
    have i1 : d.conv ∈ asc "S" := by rw [hc]; decide
    simp only [conv1, if_neg n1, if_pos i1]
    have hn : ∀ b, v = .str b → b.takeWhile (· ≠ 0) = b := fun b e =>
      takeWhile_nonul b (hv (by rw [hc]; decide) b e)
    rw [hc]
    cases v with
    | str b =>
      have := agree_field (W := W) (b := b) hb hz' hP
      rw [show convert E (83 : UInt8).toNat (.str b) (37 :: d.flags ++ (if am then [45] else [])) W P.isSome (P.getD 0 : Nat) buf =
        doPrec P.isSome (P.getD 0 : Nat) (b.takeWhile (· ≠ 0)) buf from rfl, hn b rfl]
      exact this
    | num x => exact agree_field hb hz' hP
    | other a b => exact agree_field hb hz' hP
  · have hz' := hz (by rw [hc]; decide)
    have hP0 := hq hc
    subst hP0
    have n1 : d.conv ∉ asc "s" := by rw [hc]; decide
    have n2 : d.conv ∉ asc "S" := by rw [hc]; decide
    have i1 : d.conv ∈ asc "q" := by rw [hc]; decide
    simp only [conv1, if_neg n1, if_neg n2, if_pos i1]
    have hn : ∀ b, v = .str b → b.takeWhile (· ≠ 0) = b := fun b e =>
      takeWhile_nonul b (hv (by rw [hc]; decide) b e)
    rw [hc]
    cases v with
    | str b =>
      have := agree_field (W := W) (b := b) hb hz' hP
      rw [show convert E (113 : UInt8).toNat (.str b) (37 :: d.flags ++ (if am then [45] else [])) W (none : Option Nat).isSome ((none : Option Nat).getD 0 : Nat) buf =
        doPrec (none : Option Nat).isSome ((none : Option Nat).getD 0 : Nat) (b.takeWhile (· ≠ 0)) buf from rfl, hn b rfl]
      exact this
    | num x =>
      have := agree_field (W := W) (P := none) (b := E.json x) hb hz' hP
      rw [show convert E (113 : UInt8).toNat (.num x) (37 :: d.flags ++ (if am then [45] else [])) W (none : Option Nat).isSome ((none : Option Nat).getD 0 : Nat) buf =
        doPrecSelf false (0 : Nat) (E.json x) buf from rfl, doPrecSelf_none]
      exact this
    | other a b =>
      have := agree_field (W := W) (P := none) (b := a) hb hz' hP
      rw [show convert E (113 : UInt8).toNat (.other a b) (37 :: d.flags ++ (if am then [45] else [])) W (none : Option Nat).isSome ((none : Option Nat).getD 0 : Nat) buf =
        doPrecSelf false (0 : Nat) a buf from rfl, doPrecSelf_none]
      exact this
  · have hz' := hz (by rw [hc]; decide)
    have n1 : d.conv ∉ asc "s" := by rw [hc]; decide
    have n2 : d.conv ∉ asc "S" := by rw [hc]; decide
    have n3 : d.conv ∉ asc "q" := by rw [hc]; decide
    have i1 : d.conv ∈ asc "cC" := by rw [hc]; decide
    have i2 : d.conv ∉ asc "C" := by rw [hc]; decide
    simp only [conv1, if_neg n1, if_neg n2, if_neg n3, if_pos i1, if_neg i2]
    rw [hc]
    cases v with
    | str b =>
      match b with
      | [] => rfl
      | [b] => exact ⟨_, rfl, padOut_field1 minus _ W [b] buf hz', hb⟩
      | _ :: _ :: _ => rfl
    | num x =>
      rw [show convert E (99 : UInt8).toNat (.num x) (37 :: d.flags ++ (if am then [45] else [])) W P.isSome (P.getD 0 : Nat) buf =
        (if E.wide x < 0 ∨ E.wide x > 255 then .err else .ok ⟨[UInt8.ofNat (E.wide x).toNat], 1, buf⟩) from rfl]
      simp only []
      by_cases h : 0 ≤ E.wide x ∧ E.wide x ≤ 255
      · rw [if_pos h, if_neg (show ¬ (E.wide x < 0 ∨ E.wide x > 255) by omega)]
        exact ⟨_, rfl, padOut_field1 minus _ W _ buf hz', hb⟩
      · rw [if_neg h, if_pos (show E.wide x < 0 ∨ E.wide x > 255 by omega)]; rfl
    | other a b => rfl
  · have hz' := hz (by rw [hc]; decide)
    have n1 : d.conv ∉ asc "s" := by rw [hc]; decide
    have n2 : d.conv ∉ asc "S" := by rw [hc]; decide
    have n3 : d.conv ∉ asc "q" := by rw [hc]; decide
    have i1 : d.conv ∈ asc "cC" := by rw [hc]; decide
    have i2 : d.conv ∈ asc "C" := by rw [hc]; decide
    simp only [conv1, if_neg n1, if_neg n2, if_neg n3, if_pos i1, if_pos i2]
    rw [hc]
    cases v with
    | str b =>
      match b with
      | [] => rfl
      | [b] => exact ⟨_, rfl, padOut_field1 minus _ W [b] buf hz', hb⟩
      | _ :: _ :: _ => rfl
    | num x =>
      rw [show convert E (67 : UInt8).toNat (.num x) (37 :: d.flags ++ (if am then [45] else [])) W P.isSome (P.getD 0 : Nat) buf =
        (if E.wide x < 0 ∨ E.wide x > 255 then .err else .ok ⟨uniCharToUtf (E.wide x).toNat, 1, buf⟩) from rfl]
      simp only []
      by_cases h : 0 ≤ E.wide x ∧ E.wide x ≤ 255
      · rw [if_pos h, if_neg (show ¬ (E.wide x < 0 ∨ E.wide x > 255) by omega)]
        have h3 := C06_encode_is_utf8 (Char.ofNat (E.wide x).toNat)
        rw [charOfNat _ (by omega)] at h3
        rw [h3]
        exact ⟨_, rfl, padOut_field1 minus _ W _ buf hz', hb⟩
      · rw [if_neg h, if_pos (show E.wide x < 0 ∨ E.wide x > 255 by omega)]; rfl
    | other a b => rfl

end Verif.Fmt
