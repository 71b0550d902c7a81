import Verif.Web.SsiSpec

/-! Finding the first occurrence of a string. -/

namespace Verif.Web

theorem cut_some {p : Str} (s a b : Str) (h : cut p s = some (a, b)) :
    s = a ++ (p ++ b) ∧ ∀ a' b', s = a' ++ (p ++ b') → a.length ≤ a'.length := by
  induction s generalizing a b with
  | nil =>
    unfold cut at h
    split at h
    · rename_i hp
      cases h
      subst hp
      exact ⟨rfl, fun _ _ _ => Nat.zero_le _⟩
    · cases h
  | cons c s ih =>
    unfold cut at h
    split at h
    · rename_i hp
      cases h
      obtain ⟨r, hr⟩ := List.isPrefixOf_iff_prefix.mp hp
      refine ⟨?_, fun _ _ _ => Nat.zero_le _⟩
      rw [← hr]
      simp
    · rename_i hp
      split at h
      · rename_i a0 b0 h0
        cases h
        obtain ⟨e, m⟩ := ih a0 b h0
        refine ⟨by rw [e]; rfl, ?_⟩
        intro a' b' e'
        cases a' with
        | nil => exact absurd (List.isPrefixOf_iff_prefix.mpr ⟨b', e'.symm⟩) hp
        | cons c' a' =>
          simp only [List.cons_append, List.cons.injEq] at e'
          have := m a' b' e'.2
          simp only [List.length_cons]
          omega
      · cases h

theorem cut_none {p : Str} (s : Str) (h : cut p s = none) : ∀ a b, s ≠ a ++ (p ++ b) := by
  induction s with
  | nil =>
    intro a b e
    unfold cut at h
    split at h
    · cases h
    · rename_i hp
      have := congrArg List.length e
      simp only [List.length_nil, List.length_append] at this
      exact hp (List.eq_nil_of_length_eq_zero (by omega))
  | cons c s ih =>
    intro a b e
    unfold cut at h
    split at h
    · cases h
    · rename_i hp
      split at h
      · cases h
      · rename_i h0
        cases a with
        | nil => exact hp (List.isPrefixOf_iff_prefix.mpr ⟨b, e.symm⟩)
        | cons c' a =>
          simp only [List.cons_append, List.cons.injEq] at e
          exact ih h0 a b e.2

theorem cut_free {p s : Str} (h : Free p s) : cut p s = none := by
  cases e : cut p s with
  | none => rfl
  | some x => exact absurd ⟨x.1, x.2, by rw [(cut_some s x.1 x.2 e).1]; simp⟩ h

theorem cut_first {q : Str} {z : UInt8} (hz : z ∉ q) {t x : Str} (hf : Free (q ++ [z]) t) :
    cut (q ++ [z]) (t ++ (q ++ [z] ++ x)) = some (t, x) := by
  cases e : cut (q ++ [z]) (t ++ (q ++ [z] ++ x)) with
  | none => exact absurd rfl (cut_none _ e t x)
  | some r =>
    obtain ⟨a, b⟩ := r
    obtain ⟨h, m⟩ := cut_some _ a b e
    have hl := m t x rfl
    by_cases heq : a.length = t.length
    · have := List.append_inj h heq.symm
      have h2 := List.append_cancel_left this.2
      rw [this.1, h2]
    · exfalso
      have hlt : a.length < t.length := by omega
      by_cases hfit : a.length + q.length < t.length
      · apply hf
        refine ⟨a, (t.drop (a.length + q.length + 1)), ?_⟩
        have h1 := congrArg (List.take t.length) h
        rw [List.take_left' rfl, ← List.append_assoc, List.take_append] at h1
        have h2 : List.take t.length (a ++ (q ++ [z])) = a ++ (q ++ [z]) := by
          apply List.take_of_length_le
          simp only [List.length_append, List.length_cons, List.length_nil]
          omega
        rw [h2] at h1
        conv => lhs; rw [h1]
        congr 1
        have h3 := congrArg (List.drop (a.length + q.length + 1)) h1
        rw [h3, List.drop_left']
        simp only [List.length_append, List.length_cons, List.length_nil]
        omega
      · have h1 := congrArg (fun s => s[a.length + q.length]?) h
        have h3 : (a ++ (q ++ [z] ++ b))[a.length + q.length]? = some z := by simp [List.getElem?_append_right]
        rw [h3, List.getElem?_append_right (by omega), List.append_assoc, List.getElem?_append_left (by omega)] at h1
        exact hz (List.mem_of_getElem? h1)

theorem cut_opening {t x : Str} (h : Free opening t) : cut opening (t ++ (opening ++ x)) = some (t, x) :=
  cut_first (q := [60, 33, 45, 45]) (z := 35) (by decide) h

theorem cut_closing {t x : Str} (h : Free closing t) : cut closing (t ++ (closing ++ x)) = some (t, x) :=
  cut_first (q := [45, 45]) (z := 62) (by decide) h

theorem cut_dollar {t x : Str} (h : Free [36, 123] t) : cut [36, 123] (t ++ (36 :: 123 :: x)) = some (t, x) :=
  cut_first (q := [36]) (z := 123) (by decide) h

theorem cut_char {c : UInt8} {t x : Str} (h : c ∉ t) : cut [c] (t ++ c :: x) = some (t, x) := by
  refine cut_first (q := []) (z := c) (by simp) ?_
  rintro ⟨a, b, e⟩
  apply h
  rw [e]
  simp

end Verif.Web
