import Verif.Lex.Token
/-! Tokens, blanks and comments one after another. -/
namespace Verif.Lex

theorem sign_facts : ∀ t ∈ signs, t.headD 0 ∈ ([33, 37, 38, 42, 43, 45, 47, 60, 61, 62, 94, 124] : List UInt8) ∧ 2 ≤ t.length ∧ t.length ≤ 4 ∧
    (t.headD 0 = 47 → t = [47, 61]) ∧ 10 ∉ t := by decide +kernel

theorem sign_start : ∀ c ∈ ([33, 37, 38, 42, 43, 45, 47, 60, 61, 62, 94, 124] : List UInt8), isdigit c = false ∧
    (isalpha c || decide (c = 95) || decide (c = 36)) = false ∧ c ∉ ([34, 39, 96, 32, 9, 10, 13, 92, 0, 46] : List UInt8) := by decide +kernel

theorem asc_slash : ∀ o ∈ operators, asc o = [47, 61] → o = "/=" := by decide +kernel

theorem yylex1_tok (sd : List UInt8 → Bool) (hsd : ∀ ip fp ex, (Num.dec ip fp ex).Ok → sd (Num.dec ip fp ex).text = true) (last : Tok)
    {tk : STok} {r : List UInt8} (hok : tk.Ok last) (hf : tk.Fits r) {K : Int} {l : L} (h : At false 3 K l (tk.text ++ r)) :
    (yylex1 sd last l).1.2 = tk.val ∧ (NoBs r → Behind K (yylex1 sd last l).2 r) := by
  cases tk with
  | word w => exact (yylex1_word sd last hok hf h).imp id (fun h _ => Or.inl h)
  | num m =>
    refine (yylex1_num sd last hok.1 hok.2 hf ?_ h).imp id (fun h _ => Or.inl h)
    rintro ip fp ex rfl; exact hsd _ _ _ hok.1
  | str q ps => exact (yylex1_str sd last hok h).imp id (fun h _ => Or.inl h)
  | regex ps fl => exact (yylex1_regex sd last hok hf h).imp id (fun h _ => Or.inl h)
  | op s =>
    obtain ⟨hmem, hre⟩ := hok
    have hs := operators_signs s hmem
    obtain ⟨a1, a2, a3, a4, a5⟩ := sign_facts _ hs
    have hat : At false 3 K l (asc s ++ r) := h
    have hfit : ∀ d, r.head? = some d → ¬ ∃ t ∈ signs, (asc s ++ [d]) <+: t := by
      rintro d hd ⟨t, ht, hp⟩
      obtain ⟨o, ho, rfl⟩ := signs_operators t ht
      exact hf d hd ⟨o, ho, hp⟩
    have hre' : asc s = [47, 61] → ¬ ReAfter last := fun e => hre (asc_slash s hmem e)
    simp only [STok.val]
    generalize asc s = w at *
    cases w with
    | nil => simp at a2
    | cons c w =>
      simp only [List.headD_cons] at a1 a4
      obtain ⟨b1, b2, b3⟩ := sign_start c a1
      simp only [List.mem_cons, List.not_mem_nil, or_false, not_or] at b3
      obtain ⟨d1, d2, d3, d4, d5, d6, d7, d8, d9, d10⟩ := b3
      have hns : ¬ NameStart c := fun e => by
        have := (wordStart_iff c).mpr e
        rw [this] at b2; cases b2
      have := yylex1_sign sd last (c := c) (s := w) (r := r) b1 (by rintro (e | e | e); exact d1 e; exact d2 e; exact d3 e) hns
        (by rintro (e | e | e | e); exact d4 e; exact d5 e; exact d6 e; exact d7 e) d8 d9 (fun e => absurd e d10)
        (by
          intro e
          have e4 := a4 e
          injection e4 with _ e5
          refine ⟨hre' (a4 e), ?_, ?_⟩ <;> rw [e5] <;> simp)
        (by simp at a3; omega) (fun hm => a5 (by simp [hm])) (Or.inl ⟨hs, hfit⟩) hat
      rw [if_pos hs] at this
      exact this
  | punct c =>
    obtain ⟨h1, h2, h3, h4, h5, h6⟩ := hok
    have hns : [c] ∉ signs := fun hm => by have := (sign_facts _ hm).2.1; simp at this
    have := yylex1_sign sd last (c := c) (s := []) (r := r)
      (by rw [Bool.eq_false_iff]; intro e; exact h3 (Or.inr ((isdigit_iff c).mp e))) h4 (fun e => h3 (Or.inl e))
      (by rintro (rfl | rfl | rfl | rfl) <;> exact absurd h1 (by decide)) h5 (by rintro rfl; exact absurd h1 (by decide))
      (by
        rintro rfl
        rw [Bool.eq_false_iff]
        intro e
        cases r with
        | nil => exact absurd e (by decide)
        | cons d r => exact hf d rfl (Or.inr (Or.inl ⟨rfl, (isdigit_iff d).mp e⟩)))
      (by
        rintro rfl
        refine ⟨h6 rfl, ?_, ?_⟩
        · intro e
          cases r with
          | nil => exact absurd e (by decide)
          | cons d r => exact hf d rfl (Or.inr (Or.inr ⟨rfl, Or.inl e⟩))
        · intro e
          cases r with
          | nil => exact absurd e (by decide)
          | cons d r => exact hf d rfl (Or.inr (Or.inr ⟨rfl, Or.inr e⟩)))
      (by simp) (by simp)
      (Or.inr ⟨rfl, by
        rintro d hd ⟨t, ht, hp⟩
        obtain ⟨o, ho, rfl⟩ := signs_operators t ht
        exact hf d hd (Or.inl ⟨o, ho, hp⟩)⟩) h
    rw [if_neg hns] at this
    exact this

/-- The line a token gets. -/
theorem yylex1_line (sd : List UInt8 → Bool) (last : Tok) (l : L) : (yylex1 sd last l).1.1 = (skipWs (size l) l).2.line := by
  unfold yylex1
  simp only []
  split
  · rfl
  · split
    · rfl
    · split
      · rfl
      · split
        · split
          · rfl
          · split
            · rfl
            · split <;> rfl
        · rfl

theorem yylex1_line_at (sd : List UInt8 → Bool) (last : Tok) {c : UInt8} (hc : ¬ Blank c) {K : Int} {l : L} {t : List UInt8}
    (h : At false 3 K l (c :: t)) : (yylex1 sd last l).1.1 = K - nl (c :: t) := by
  rw [yylex1_line, skipWs_none hc h, h.get.2.1.ln, nl_cons, if_neg (fun e => hc (by simp [Blank, e]))]
  omega

theorem yylex1_blank (sd : List UInt8 → Bool) (last : Tok) {c : UInt8} (hc : Blank c) {K : Int} {l : L} {t : List UInt8}
    (h : At false 3 K l (c :: t)) : yylex1 sd last l = yylex1 sd last (getchar l).2 := by
  have hg := h.get
  have : skipWs (size l) l = skipWs (size (getchar l).2) (getchar l).2 := by
    have hs := h.sz
    obtain ⟨f, hf⟩ : ∃ f, size l = f + 1 := ⟨t.length, by rw [hs]; simp⟩
    rw [hf, skipWs]
    rw [if_pos (by rw [hg.1]; exact hc)]
    have hs2 := hg.2.1.sz
    simp at hs
    exact skipWs_fuel _ _ hg.2.1.inv (by omega) (by omega)
  unfold yylex1
  rw [this]

/-- A comment. -/
theorem yylex1_line_comment (sd : List UInt8 → Bool) (last : Tok) {K : Int} {l : L} {b r : List UInt8} {e : UInt8} (h10 : 10 ∉ b) (h13 : 13 ∉ b)
    (he : e = 10 ∨ e = 13) (h : At false 3 K l (47 :: 47 :: (b ++ e :: r))) :
    (yylex1 sd last l).1.2 = .comment ∧ At false 3 K (yylex1 sd last l).2 r := by
  obtain ⟨g1, g2, _⟩ := h.get
  obtain ⟨k1, k2, _⟩ := g2.get
  unfold yylex1
  rw [skipWs_none (by unfold Blank; decide) h]
  simp only [g1, show point 47 (getchar l).2 = ([], 47, (getchar l).2) from by rw [point, if_neg (by decide)]]
  rw [if_neg (by decide), if_neg (by decide), if_neg (by decide), if_pos trivial, if_pos k1]
  exact ⟨rfl, (eatLine_at b _ e h10 h13 he (by rw [k2.sz]; omega) k2).mono (by omega)⟩

theorem yylex1_line_end (sd : List UInt8 → Bool) (last : Tok) {K : Int} {l : L} {b : List UInt8} (h10 : 10 ∉ b) (h13 : 13 ∉ b)
    (h : At false 3 K l (47 :: 47 :: b)) :
    (yylex1 sd last l).1.2 = .comment ∧ At false 3 K (yylex1 sd last l).2 [] := by
  obtain ⟨g1, g2, _⟩ := h.get
  obtain ⟨k1, k2, _⟩ := g2.get
  unfold yylex1
  rw [skipWs_none (by unfold Blank; decide) h]
  simp only [g1, show point 47 (getchar l).2 = ([], 47, (getchar l).2) from by rw [point, if_neg (by decide)]]
  rw [if_neg (by decide), if_neg (by decide), if_neg (by decide), if_pos trivial, if_pos k1]
  exact ⟨rfl, (eatLine_end b _ h10 h13 (by rw [k2.sz]; omega) k2).mono (by omega)⟩

theorem yylex1_block (sd : List UInt8 → Bool) (last : Tok) {K : Int} {l : L} {b r : List UInt8} (hb : ¬ [42, 47] <:+: b)
    (h : At false 3 K l (47 :: 42 :: (b ++ 42 :: 47 :: r))) :
    (yylex1 sd last l).1.2 = .comment ∧ At false 3 K (yylex1 sd last l).2 r := by
  obtain ⟨g1, g2, _⟩ := h.get
  obtain ⟨k1, k2, _⟩ := g2.get
  unfold yylex1
  rw [skipWs_none (by unfold Blank; decide) h]
  simp only [g1, show point 47 (getchar l).2 = ([], 47, (getchar l).2) from by rw [point, if_neg (by decide)]]
  rw [if_neg (by decide), if_neg (by decide), if_neg (by decide), if_pos trivial, if_neg (by rw [k1]; decide), if_pos k1]
  exact ⟨rfl, (eatComment_at b _ hb (by omega) (by rw [k2.sz]; omega) k2).mono (by omega)⟩

theorem yylex1_eof (sd : List UInt8 → Bool) (last : Tok) {K : Int} {l : L} (h : At false 3 K l []) :
    (yylex1 sd last l).1.2 = .eof := by
  have hg := h.getNil
  have hw : skipWs (size l) l = (0, l) := by
    rw [h.sz]; exact hg
  unfold yylex1
  rw [hw]
  simp only [show point 0 l = ([], 0, l) from by rw [point, if_neg (by decide)]]
  rw [if_neg (by decide), if_neg (by decide), if_neg (by decide), if_neg (by decide)]
  have : ungetc 0 l = l := by unfold ungetc; simp
  rw [this]
  simp [doSign, readSign, hg]

theorem yylex_of (sd : List UInt8 → Bool) (last : Tok) (f : Nat) {l : L} (h : isComment (yylex1 sd last l).1.2 = false) :
    yylex sd last f l = yylex1 sd last l := by
  cases f with
  | zero => rfl
  | succ f => rw [yylex]; simp only [h]; simp

theorem yylex_comment (sd : List UInt8 → Bool) (last : Tok) {K : Int} {l : L} (h : At false 3 K l t) (hc : (yylex1 sd last l).1.2 = .comment) :
    yylex sd last (size l + 1) l = yylex sd last (size (yylex1 sd last l).2 + 1) (yylex1 sd last l).2 := by
  rw [yylex]
  simp only [hc]
  rw [if_pos (by decide)]
  obtain ⟨st, hlt, _⟩ := yylex1_step sd last h.inv h.str
  have := hlt (by rw [hc]; simp)
  exact yylex_fuel sd last _ _ st.inv st.inStr (by omega) (by omega)

/-- Blanks and comments are skipped. -/
theorem yylex_sep (sd : List UInt8 → Bool) (last : Tok) {s : List UInt8} (hs : Sep s) : ∀ {t : List UInt8} {K : Int} {l : L}, At false 3 K l (s ++ t) →
    ∃ l', At false 3 K l' t ∧ yylex sd last (size l + 1) l = yylex sd last (size l' + 1) l' := by
  induction hs with
  | nil => intro t K l h; exact ⟨l, h, rfl⟩
  | blank c s hc _ ih =>
    intro t K l h
    have hg := h.get
    have hy := yylex1_blank sd last hc h
    obtain ⟨l', h1, h2⟩ := ih (hg.2.1.mono (by omega))
    refine ⟨l', h1, ?_⟩
    rw [← h2]
    have hsz := h.sz
    have hsz2 := hg.2.1.sz
    simp at hsz hsz2
    have e1 := yylex_fuel sd last (size (getchar l).2 + 1) (size l + 1) (hg.2.1.inv.mono (show 3 - 1 ≤ 3 by omega)) hg.2.1.str (by omega) (by omega)
    rw [e1, yylex, yylex, hy]
  | line b e s hb h10 h13 he _ ih =>
    intro t K l h
    have h' : At false 3 K l (47 :: 47 :: (b ++ e :: (s ++ t))) := by simpa using h
    obtain ⟨a, c⟩ := yylex1_line_comment sd last h10 h13 he h'
    obtain ⟨l', h1, h2⟩ := ih c
    exact ⟨l', h1, (yylex_comment sd last h' a).trans h2⟩
  | block b s hb _ ih =>
    intro t K l h
    have h' : At false 3 K l (47 :: 42 :: (b ++ 42 :: 47 :: (s ++ t))) := by simpa using h
    obtain ⟨a, c⟩ := yylex1_block sd last hb h'
    obtain ⟨l', h1, h2⟩ := ih c
    exact ⟨l', h1, (yylex_comment sd last h' a).trans h2⟩

theorem yylex_tail (sd : List UInt8 → Bool) (last : Tok) {t : List UInt8} (ht : Tail t) {K : Int} {l : L} (h : At false 3 K l t) :
    (yylex sd last (size l + 1) l).1.2 = .eof := by
  rcases ht with rfl | ⟨b, rfl, h10, h13⟩
  · have := yylex1_eof sd last h
    rw [yylex_of _ _ _ (by rw [this]; rfl), this]
  · obtain ⟨a, c⟩ := yylex1_line_end sd last h10 h13 h
    rw [yylex_comment sd last h a]
    have := yylex1_eof sd last c
    rw [yylex_of _ _ _ (by rw [this]; rfl), this]

end Verif.Lex
