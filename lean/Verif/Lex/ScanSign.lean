import Verif.Lex.Scan
/-! Operators: the longest one is found. -/
namespace Verif.Lex

theorem signs_order : signs.Pairwise (fun a b => ¬ a <+: b) := by decide +kernel

theorem operators_signs : ∀ o ∈ operators, asc o ∈ signs := by decide +kernel

theorem signs_operators : ∀ s ∈ signs, ∃ o ∈ operators, asc o = s := by decide +kernel

theorem signs_nl : ∀ s ∈ signs, (10 : UInt8) ∉ s := by decide +kernel

/-- The sign that is found. -/
theorem find_sign {s p : List UInt8} (hs : s ∈ signs) (hx : ∀ c, p.head? = some c → ¬ ∃ t ∈ signs, (s ++ [c]) <+: t) :
    signs.find? (·.isPrefixOf (s ++ p)) = some s := by
  obtain ⟨as, bs, e⟩ := List.append_of_mem hs
  rw [List.find?_eq_some_iff_append]
  refine ⟨by simp, as, bs, e, ?_⟩
  intro a ha
  simp only [Bool.not_eq_true', Bool.eq_false_iff, ne_eq, List.isPrefixOf_iff_prefix]
  intro hp
  have hor := signs_order
  rw [e] at hor
  have hna : ¬ a <+: s := (List.pairwise_append.mp hor).2.2 a ha s (by simp)
  rcases List.prefix_or_prefix_of_prefix hp (List.prefix_append s p) with h | h
  · exact hna h
  · obtain ⟨t, rfl⟩ := h
    cases t with
    | nil => exact hna (by simp)
    | cons c t =>
      have hc : p.head? = some c := by
        have := (List.prefix_append_right_inj s).mp hp
        obtain ⟨u, hu⟩ := this
        rw [← hu]; rfl
      exact hx c hc ⟨s ++ c :: t, by rw [e]; simp [ha], ⟨t, by simp⟩⟩

theorem find_punct {d : UInt8} {p : List UInt8} (hx : ∀ c, p.head? = some c → ¬ ∃ t ∈ signs, [d, c] <+: t) :
    signs.find? (·.isPrefixOf (d :: p)) = none := by
  rw [List.find?_eq_none]
  intro t ht
  simp only [List.isPrefixOf_iff_prefix]
  intro hp
  have hl := sign_len t ht
  match t, hl with
  | a :: b :: u, _ =>
    obtain ⟨h1, h2⟩ := List.cons_prefix_cons.mp hp
    subst h1
    cases p with
    | nil => simp at h2
    | cons c q =>
      obtain ⟨h3, h4⟩ := List.cons_prefix_cons.mp h2
      subst h3
      exact hx b rfl ⟨a :: b :: u, ht, ⟨u, rfl⟩⟩

/-- The backslash does not come right before a newline near the beginning. -/
def NoBs (r : List UInt8) : Prop := ∀ p q, r = p ++ 10 :: q → 10 ∉ p → p.length ≤ 2 → p.getLast? ≠ some 92

/-- What the sign `s` is, in front of the text `r`. -/
theorem doSign_at {s r : List UInt8} {K : Int} {l : L} (h : At false 3 K l (s ++ r)) (h1 : s.length ≤ 4) (hne : s ≠ []) (h10 : 10 ∉ s)
    (hs : (s ∈ signs ∧ ∀ c, r.head? = some c → ¬ ∃ t ∈ signs, (s ++ [c]) <+: t) ∨
      (∃ d, s = [d] ∧ ∀ c, r.head? = some c → ¬ ∃ t ∈ signs, [d, c] <+: t)) :
    (doSign l).1 = (if s ∈ signs then .op s else .char (s.headD 0)) ∧
    (NoBs r → At false 3 K (doSign l).2 r ∨
      ∃ p q, r = p ++ 10 :: q ∧ 10 ∉ p ∧ p.length ≤ 2 ∧ At false 3 K (doSign l).2 (p ++ q)) := by
  have hr := readSign_spec 4 h.inv h.str (by have := h.inv.len; omega)
  have hv := h.vw
  have hspos : 0 < s.length := List.length_pos_iff.mpr hne
  -- the sign is among the characters read
  have hW : ∃ p, (readSign 4 l).1 = s ++ p ∧
      (r = p ++ view (readSign 4 l).2 ∨ (r = p ++ 10 :: view (readSign 4 l).2 ∧ p.length ≤ 2)) := by
    rcases hr.src with ⟨_, e, hl⟩ | ⟨_, _, _, e, hl⟩
    · rw [hv] at e
      rcases List.append_eq_append_iff.mp e with ⟨a, e1, e2⟩ | ⟨a, e1, e2⟩
      · exact ⟨a, e1, Or.inr ⟨e2, by rw [e1] at hl; simp at hl; omega⟩⟩
      · cases a with
        | nil => exact ⟨[], by simpa using e1.symm, Or.inr ⟨by simpa using e2.symm, by simp⟩⟩
        | cons x y =>
          exfalso
          simp only [List.cons_append, List.cons.injEq] at e2
          apply h10; rw [e1, e2.1]; simp
    · rw [hv] at e
      rcases List.append_eq_append_iff.mp e with ⟨a, e1, e2⟩ | ⟨a, e1, e2⟩
      · exact ⟨a, e1, Or.inl e2⟩
      · rcases hl with hl | hl
        · have : a = [] := by
            apply List.length_eq_zero_iff.mp
            rw [e1] at h1; simp at h1; omega
          subst this
          exact ⟨[], by simpa using e1.symm, Or.inl (by simpa using e2.symm)⟩
        · rw [hl] at e2
          have : a = [] := (List.append_eq_nil_iff.mp e2.symm).1
          subst this
          exact ⟨[], by simpa using e1.symm, Or.inl (by rw [hl]; simpa using e2.symm)⟩
  obtain ⟨p, hp, hrp⟩ := hW
  have hhead : ∀ c, p.head? = some c → r.head? = some c := by
    intro c hc
    cases p with
    | nil => simp at hc
    | cons x y => rcases hrp with e | ⟨e, _⟩ <;> rw [e] <;> exact hc
  have hp10 : 10 ∉ p := fun hm => hr.nonl (by rw [hp]; simp [hm])
  -- the characters behind the sign are pushed back
  obtain ⟨i1, i2, i3, i4⟩ := ungetAll_spec h.inv hr (by omega) p (by rw [hp]; exact List.suffix_append _ _)
  have hpl : p.length ≤ 3 := by have := hr.len; rw [hp] at this; simp at this; omega
  have hbs2 : NoBs r → (ungetAll p (readSign 4 l).2).unch.getLast? ≠ some 92 := by
    intro hbs
    rcases i4 with e | e | ⟨e1, e2, e3⟩
    · rw [e]; simp
    · rw [e]; exact h.bs
    · rw [e3]
      refine hbs p (view (readSign 4 l).2) ?_ hp10 (by rw [hp] at e1; simp at e1; omega)
      rw [hv, hp, List.append_assoc] at e2
      exact List.append_cancel_left e2
  have hat : NoBs r → At false 3 K (ungetAll p (readSign 4 l).2) (p ++ view (readSign 4 l).2) := fun hbs => ⟨i1.mono hpl, i2, i3, hbs2 hbs⟩
  have hfin : NoBs r → At false 3 K (ungetAll p (readSign 4 l).2) r ∨
      ∃ p' q, r = p' ++ 10 :: q ∧ 10 ∉ p' ∧ p'.length ≤ 2 ∧ At false 3 K (ungetAll p (readSign 4 l).2) (p' ++ q) := by
    intro hbs
    have hat := hat hbs
    rcases hrp with e | ⟨e, e'⟩
    · left; rw [e]; exact hat
    · right; exact ⟨p, _, e, hp10, e', hat⟩
  unfold doSign
  simp only [hp]
  rcases hs with ⟨hs, hx⟩ | ⟨d, hs, hx⟩
  · have hf := find_sign hs (p := p) (fun c hc => hx c (hhead c hc))
    obtain ⟨c, b, e⟩ : ∃ c b, s = c :: b := by
      cases s with
      | nil => exact absurd rfl hne
      | cons c b => exact ⟨c, b, rfl⟩
    rw [if_pos hs]
    rw [hf]
    have hd : (s ++ p).drop s.length = p := by simp
    subst e
    simp only [List.cons_append] at hd ⊢
    rw [hd]
    exact ⟨trivial, hfin⟩
  · subst hs
    have hf := find_punct (p := p) (fun c hc => hx c (hhead c hc))
    have hns : [d] ∉ signs := fun hm => by have := (sign_len _ hm).1; simp at this
    rw [if_neg hns]
    simp only [List.cons_append, List.nil_append] at hf ⊢
    rw [hf]
    exact ⟨rfl, hfin⟩

end Verif.Lex
