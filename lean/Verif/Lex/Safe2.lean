import Verif.Lex.Safe
/-! The functions of the lexer keep the invariant. -/
namespace Verif.Lex

theorem eq_nil_of_view {l : L} (h : view l = []) : l.unch = [] := (List.append_eq_nil_iff.mp h).1

theorem get_plain {l : L} (hs : l.inStr = false) : getchar l = ((take l).1, count (take l).1 (take l).2) := by
  unfold getchar
  rw [getcharF]
  have : (take l).2.inStr = false := by
    rcases take_spec l with ⟨_, ht⟩ | ⟨c, t, _, _, _, _, h4, _⟩
    · rw [ht]; exact hs
    · rw [h4]; exact hs
  rw [if_neg (by rw [this]; simp)]

/-- What reading does outside of strings. -/
theorem get_cases {l : L} (hs : l.inStr = false) :
    (view l = [] ∧ getchar l = (0, l)) ∨
    (∃ c t, view l = c :: t ∧ (getchar l).1 = c ∧ view (getchar l).2 = t ∧
      ((∃ u, l.unch = c :: u ∧ (getchar l).2.unch = u ∧ (getchar l).2.before = l.before) ∨
       (l.unch = [] ∧ (getchar l).2.unch = [] ∧ (getchar l).2.before = c :: l.before))) := by
  rw [get_plain hs]
  obtain ⟨c1, c2, c3, c4, c5, c6⟩ := count_fields (take l).1 (take l).2
  rcases take_spec l with ⟨hv, ht⟩ | ⟨c, t, hv, h1, h2, h3, h4, h5, h6⟩
  · left
    rw [ht]
    exact ⟨hv, by simp [count]⟩
  · right
    refine ⟨c, t, hv, h1, by rw [c3]; exact h2, ?_⟩
    simp only [c1, c2]
    exact h6

theorem get_zero_iff {n : Nat} {K : Int} {l : L} (h : Inv n K l) (hs : l.inStr = false) :
    (getchar l).1 = 0 ↔ view l = [] := by
  rcases get_cases hs with ⟨hv, e⟩ | ⟨c, t, hv, e, _⟩
  · simp [hv, e]
  · rw [e, hv]
    simp only [reduceCtorEq, iff_false]
    intro h0
    apply h.nz; rw [hv]; simp [h0]

/-- Reading a character and pushing it back changes nothing. -/
theorem unget_get_same {n : Nat} {K : Int} {l : L} (h : Inv n K l) (hs : l.inStr = false) (hn : n < 99) :
    (ungetc (getchar l).1 (getchar l).2).unch = l.unch ∧ (ungetc (getchar l).1 (getchar l).2).before = l.before := by
  have hg := get_spec h
  rcases get_cases hs with ⟨hv, e⟩ | ⟨d, t, hv, e1, e2, e3⟩
  · rw [e]
    have : ungetc 0 l = l := by rw [ungetc, if_pos rfl]
    simp only [this, and_self]
  · have h0 : (getchar l).1 ≠ 0 := by intro e; apply h.nz; rw [hv, ← e1, e]; simp
    obtain ⟨v, i, o, li, hc⟩ := unget_view (l := (getchar l).2) (getchar l).1 h0 (by have := hg.inv.len; omega)
    rcases e3 with ⟨u, f1, f2, f3⟩ | ⟨f1, f2, f3⟩
    · have hm : l.before.head? = some 10 := h.bef (by simp [f1])
      have hd : d ≠ 10 := by intro e; apply h.nonl; rw [f1, e]; simp
      rcases hc with ⟨g1, g2, g3, g4⟩ | ⟨g1, g2, g3⟩
      · exfalso
        rw [f3, hm, e1] at g4
        injection g4 with g4
        exact hd g4.symm
      · rw [g1, g2, f3, f2, e1, f1]; exact ⟨rfl, rfl⟩
    · rcases hc with ⟨g1, g2, g3, g4⟩ | ⟨g1, g2, g3⟩
      · rw [g1, g3, f3, f2, f1]; exact ⟨rfl, rfl⟩
      · exfalso; exact g3 ⟨f2, by rw [f3, e1]; rfl⟩

/-- It does not harm the characters before it. -/
theorem unget_get_src {n : Nat} {K : Int} {l : L} (h : Inv n K l) (hs : l.inStr = false) (hn : n < 99) {c : UInt8}
    (hb : l.before.head? = some 10 ∨ l.unch = [] ∧ l.before.head? = some c) :
    (ungetc (getchar l).1 (getchar l).2).before.head? = some 10 ∨
    (ungetc (getchar l).1 (getchar l).2).unch = [] ∧ (ungetc (getchar l).1 (getchar l).2).before.head? = some c := by
  obtain ⟨a, b⟩ := unget_get_same h hs hn
  rw [a, b]; exact hb

/-- What reading the characters of a sign does. -/
structure SignSpec (k : Nat) (K : Int) (l : L) (r : List UInt8 × L) : Prop where
  inv : Inv 0 K r.2
  inStr : r.2.inStr = false
  nonl : 10 ∉ r.1
  nz : 0 ∉ r.1
  len : r.1.length ≤ k
  size : size r.2 + r.1.length ≤ size l
  nil : 0 < k → r.1 = [] → view l = [] ∨ (view l).head? = some 10
  src : (r.2.before.head? = some 10 ∧ view l = r.1 ++ 10 :: view r.2 ∧ r.1.length < k) ∨
    (∃ q, r.1 = l.unch ++ q ∧ r.2.before = q.reverse ++ l.before ∧ view l = r.1 ++ view r.2 ∧ (r.1.length = k ∨ view r.2 = []))

theorem readSign_spec (k : Nat) : ∀ {n : Nat} {K : Int} {l : L}, Inv n K l → l.inStr = false → l.unch.length ≤ k →
    SignSpec k K l (readSign k l) := by
  induction k with
  | zero =>
    intro n K l h hs hk
    have hu : l.unch = [] := List.length_eq_zero_iff.mp (by omega)
    exact ⟨⟨by simp [readSign, hu], h.nonl, h.nz, h.bef, h.oob, h.line⟩, hs, by simp [readSign], by simp [readSign],
      by simp [readSign], by simp [readSign], by simp, Or.inr ⟨[], by simp [readSign, hu], by simp [readSign], rfl, Or.inl rfl⟩⟩
  | succ k ih =>
    intro n K l h hs hk
    have hg := get_spec h
    rw [readSign]
    simp only []
    split
    · next hc =>
      have hu : (getchar l).2.unch = [] := by
        rcases hc with hc | hc
        · exact eq_nil_of_view (hg.zero hc)
        · exact (hg.newline hc).1
      refine ⟨?_, hg.inStr.trans hs, by simp, by simp, by simp, by simpa using hg.le, ?_, ?_⟩
      · have hi := hg.inv
        exact ⟨by simp [hu], hi.nonl, hi.nz, hi.bef, hi.oob, hi.line⟩
      · intro _ _
        rcases hc with hc | hc
        · exact Or.inl ((get_zero_iff h hs).mp hc)
        · right
          rcases get_cases hs with ⟨_, e⟩ | ⟨c, t, hv', e, _⟩
          · rw [e] at hc; exact absurd hc (show ¬ (0 : UInt8) = 10 by decide)
          · rw [hv', ← e, hc]; rfl
      · rcases hc with hc | hc
        · have hv := (get_zero_iff h hs).mp hc
          right
          refine ⟨[], by simp [eq_nil_of_view hv], ?_, by rw [hv, hg.zero hc]; rfl, Or.inr (hg.zero hc)⟩
          rcases get_cases hs with ⟨_, e⟩ | ⟨c, t, hv', _⟩
          · rw [e]; simp
          · rw [hv] at hv'; cases hv'
        · left
          refine ⟨(hg.newline hc).2, ?_, by simp⟩
          rcases get_cases hs with ⟨_, e⟩ | ⟨c, t, hv', e, e', _⟩
          · rw [e] at hc; exact absurd hc (show ¬ (0 : UInt8) = 10 by decide)
          · rw [hv', ← e, hc, e']; rfl
    · next hc =>
      have hc0 : (getchar l).1 ≠ 0 := fun e => hc (Or.inl e)
      have hc1 : (getchar l).1 ≠ 10 := fun e => hc (Or.inr e)
      rcases get_cases hs with ⟨_, e⟩ | ⟨c, t, hv, e, e', e3⟩
      · exact absurd (by rw [e]) hc0
      have hk2 : (getchar l).2.unch.length ≤ k := by
        rcases e3 with ⟨u, f1, f2, f3⟩ | ⟨f1, f2, f3⟩
        · rw [f2]; rw [f1] at hk; simpa using hk
        · rw [f2]; simp
      have h2 := ih hg.inv (hg.inStr.trans hs) hk2
      refine ⟨h2.inv, h2.inStr, ?_, ?_, ?_, ?_, by simp, ?_⟩
      · simp; exact ⟨fun e => hc1 e.symm, h2.nonl⟩
      · simp; exact ⟨fun e => hc0 e.symm, h2.nz⟩
      · have := h2.len; simp; omega
      · have := h2.size; have := hg.less hc0; simp; omega
      · rcases h2.src with ⟨hm, hw, hl⟩ | ⟨q, h3, h4, hw, hl⟩
        · left
          exact ⟨hm, by rw [hv, ← e, ← e', hw]; rfl, by simp; omega⟩
        · right
          have hw' : view l = ((getchar l).1 :: (readSign k (getchar l).2).1) ++ view (readSign k (getchar l).2).2 := by
            rw [hv, ← e, ← e', hw]; rfl
          have hl' : ((getchar l).1 :: (readSign k (getchar l).2).1).length = k + 1 ∨ view (readSign k (getchar l).2).2 = [] := by
            rcases hl with hl | hl
            · left; simp [hl]
            · exact Or.inr hl
          rcases e3 with ⟨u, f1, f2, f3⟩ | ⟨f1, f2, f3⟩
          · exact ⟨q, by simp only [h3, f1, f2, e]; rfl, by simp only [h4, f3], hw', hl'⟩
          · refine ⟨(getchar l).1 :: q, by simp only [h3, f1, f2]; rfl, ?_, hw', hl'⟩
            simp only [h4, f3, e]; simp

/-- Pushing back characters that came from the text. -/
theorem ungetAll_rest (q : List UInt8) : ∀ {K : Int} {l : L} {p : List UInt8}, Inv 0 K l → 10 ∉ q → 0 ∉ q → l.before = q.reverse ++ p →
    Inv 0 K (ungetAll q l) ∧ (ungetAll q l).inStr = l.inStr ∧ view (ungetAll q l) = q ++ view l ∧
    (ungetAll q l).unch = [] ∧ (ungetAll q l).before = p := by
  induction q with
  | nil =>
    intro K l p h _ _ hp
    exact ⟨h, rfl, rfl, List.length_eq_zero_iff.mp (by have := h.len; simp only [ungetAll]; omega), by simpa [ungetAll] using hp⟩
  | cons c b ih =>
    intro K l p h h10 h0 hp
    simp only [List.mem_cons, not_or] at h10 h0
    rw [List.reverse_cons, List.append_assoc] at hp
    obtain ⟨i1, i2, i3, i4, i5⟩ := ih h h10.2 h0.2 hp
    rw [ungetAll]
    have hc0 : c ≠ 0 := fun e => h0.1 e.symm
    have hc10 : c ≠ 10 := fun e => h10.1 e.symm
    obtain ⟨v, i, o, li, hc⟩ := unget_view (l := ungetAll b l) c hc0 (by have := i1.len; omega)
    have hi := unget_inv i1 hc0 hc10 (by omega) (Or.inr ⟨i4, by rw [i5]; rfl⟩)
    rcases hc with ⟨e1, e2, e3, e4⟩ | ⟨e1, e2, e3⟩
    · refine ⟨⟨by rw [e1, e2]; simp, hi.nonl, hi.nz, hi.bef, hi.oob, hi.line⟩, i.trans i2, by rw [v, i3]; rfl, e1.trans e2, ?_⟩
      rw [e3, i5]; rfl
    · exact absurd ⟨i4, by rw [i5]; rfl⟩ e3

/-- Pushing back characters behind a newline that is lost. -/
theorem ungetAll_unch (u : List UInt8) : ∀ {n : Nat} {K : Int} {l : L}, Inv n K l → 10 ∉ u → 0 ∉ u → n + u.length < 99 →
    l.before.head? = some 10 →
    Inv (n + u.length) K (ungetAll u l) ∧ (ungetAll u l).inStr = l.inStr ∧ view (ungetAll u l) = u ++ view l ∧
    (ungetAll u l).unch = u ++ l.unch ∧ (ungetAll u l).before = l.before := by
  induction u with
  | nil => intro n K l h _ _ _ _; exact ⟨h, rfl, rfl, rfl, rfl⟩
  | cons c b ih =>
    intro n K l h h10 h0 hn hp
    simp only [List.mem_cons, not_or] at h10 h0
    simp only [List.length_cons] at hn
    obtain ⟨i1, i2, i3, i4, i5⟩ := ih h h10.2 h0.2 (by omega) hp
    rw [ungetAll]
    have hc0 : c ≠ 0 := fun e => h0.1 e.symm
    have hc10 : c ≠ 10 := fun e => h10.1 e.symm
    obtain ⟨v, i, o, li, hc⟩ := unget_view (l := ungetAll b l) c hc0 (by have := i1.len; omega)
    have hi := unget_inv i1 hc0 hc10 (by omega) (Or.inl (by rw [i5]; exact hp))
    rcases hc with ⟨e1, e2, e3, e4⟩ | ⟨e1, e2, e3⟩
    · exfalso
      rw [i5, hp] at e4
      injection e4 with e4
      exact hc10 e4.symm
    · exact ⟨by simpa [Nat.add_assoc] using hi, i.trans i2, by rw [v, i3]; rfl, by rw [e1, i4]; rfl, e2.trans i5⟩

theorem ungetAll_append (u q : List UInt8) (l : L) : ungetAll (u ++ q) l = ungetAll u (ungetAll q l) := by
  induction u with
  | nil => rfl
  | cons c b ih => simp only [List.cons_append, ungetAll, ih]

/-- Pushing back an end of what was read. -/
theorem ungetAll_spec {k : Nat} {K : Int} {l : L} {r : List UInt8 × L} {n : Nat} (h : Inv n K l) (hr : SignSpec k K l r) (hk : k ≤ 9)
    (bs : List UInt8) (hsuf : bs <:+ r.1) :
    Inv bs.length K (ungetAll bs r.2) ∧ (ungetAll bs r.2).inStr = false ∧ view (ungetAll bs r.2) = bs ++ view r.2 ∧
    ((ungetAll bs r.2).unch = [] ∨
      (ungetAll bs r.2).unch.getLast? = l.unch.getLast? ∨
      (r.1.length < k ∧ view l = r.1 ++ 10 :: view r.2 ∧ (ungetAll bs r.2).unch = bs)) := by
  obtain ⟨p, hp⟩ := hsuf
  have hlen := hr.len
  have hbl : bs.length ≤ r.1.length := by rw [← hp]; simp
  have hnl : 10 ∉ bs := fun hm => hr.nonl (by rw [← hp]; simp [hm])
  have hnz : 0 ∉ bs := fun hm => hr.nz (by rw [← hp]; simp [hm])
  rcases hr.src with ⟨hsrc, hvw, hlk⟩ | ⟨q, h1, h2, hvw, hlk⟩
  · obtain ⟨a, b, c, d, e⟩ := ungetAll_unch bs hr.inv hnl hnz (by omega) hsrc
    have hu : r.2.unch = [] := List.length_eq_zero_iff.mp (by have := hr.inv.len; omega)
    exact ⟨by simpa using a, b.trans hr.inStr, c, Or.inr (Or.inr ⟨hlk, hvw, by rw [d, hu]; simp⟩)⟩
  · rw [h1] at hp
    rcases List.append_eq_append_iff.mp hp with ⟨a', e1, e2⟩ | ⟨c', e1, e2⟩
    · -- a part of what was pushed back before
      subst e2
      simp only [List.mem_append, not_or] at hnl hnz
      simp only [List.length_append] at hbl
      obtain ⟨a, b, c, d, e⟩ := ungetAll_rest q hr.inv hnl.2 hnz.2 h2
      by_cases ha : a' = []
      · subst ha
        simp only [List.nil_append]
        exact ⟨a.mono (by omega), b.trans hr.inStr, c, Or.inl d⟩
      · have hlu : l.unch ≠ [] := by rw [e1]; simp [ha]
        rw [ungetAll_append]
        obtain ⟨a2, b2, c2, d2, e2⟩ := ungetAll_unch a' a hnl.1 hnz.1 (by omega) (by rw [e]; exact h.bef hlu)
        refine ⟨a2.mono (by simp), by rw [b2, b, hr.inStr], by rw [c2, c, List.append_assoc], Or.inr (Or.inl ?_)⟩
        rw [d2, d, e1, List.append_nil, List.getLast?_append]
        cases hx : a'.getLast? with
        | none => exact absurd (List.getLast?_eq_none_iff.mp hx) ha
        | some x => rfl
    · -- only of the text
      have h2' : r.2.before = bs.reverse ++ (c'.reverse ++ l.before) := by rw [h2, e2]; simp
      obtain ⟨a, b, c, d, e⟩ := ungetAll_rest bs hr.inv hnl hnz h2'
      exact ⟨a.mono (by omega), b.trans hr.inStr, c, Or.inl d⟩

end Verif.Lex
