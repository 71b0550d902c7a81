import Verif.Lex.Text
/-! The characters the lexer sees are those of the text. -/
namespace Verif.Lex

/-- All characters left have the property. -/
def W (X : UInt8 → Prop) (l : L) : Prop := (∀ c ∈ l.unch, X c) ∧ ∀ c ∈ l.rest, X c

variable {X : UInt8 → Prop}

theorem count_w {c : UInt8} {l : L} (h : W X l) : W X (count c l) := by unfold count; split <;> exact h

theorem checkBuf_w {a b c : Nat} {l : L} (h : W X l) : W X (checkBuf a b c l) := by unfold checkBuf; split <;> exact h

theorem take_w (h0 : X 0) {l : L} (h : W X l) : X (take l).1 ∧ W X (take l).2 := by
  obtain ⟨h1, h2⟩ := h
  unfold take
  split
  · next c u e => rw [e] at h1; exact ⟨h1 c (by simp), fun c hc => h1 c (by simp [hc]), h2⟩
  · split
    · exact ⟨h0, h1, h2⟩
    · next c r e => rw [e] at h2; exact ⟨h2 c (by simp), by simp [W]; exact fun c hc => h2 c (by simp [hc])⟩

theorem getcharF_w (h0 : X 0) (n : Nat) : ∀ {l : L}, W X l → X (getcharF n l).1 ∧ W X (getcharF n l).2 := by
  induction n with
  | zero => intro l h; exact ⟨(take_w h0 h).1, count_w (take_w h0 h).2⟩
  | succ n ih =>
    intro l h
    obtain ⟨a, b⟩ := take_w h0 h
    rw [getcharF]
    split
    · split
      · exact ⟨a, count_w b⟩
      · split
        · exact ih b
        · exact ⟨a, count_w b⟩
    · exact ⟨a, count_w b⟩

theorem getchar_w (h0 : X 0) {l : L} (h : W X l) : X (getchar l).1 ∧ W X (getchar l).2 := getcharF_w h0 _ h

theorem ungetc_w {c : UInt8} {l : L} (hc : X c) (h : W X l) : W X (ungetc c l) := by
  unfold ungetc
  split
  · exact h
  · have h' : W X (uncount c l) := by unfold uncount; split <;> exact h
    obtain ⟨h1, h2⟩ := h'
    generalize uncount c l = m at *
    have cons : ∀ t : List UInt8, (∀ x ∈ t, X x) → ∀ x ∈ c :: t, X x := by
      intro t ht x hx
      rcases List.mem_cons.mp hx with e | hx
      · rw [e]; exact hc
      · exact ht x hx
    unfold pushback
    split
    · split
      · exact ⟨by simp, cons _ h2⟩
      · exact ⟨cons [] (by simp), h2⟩
    · split
      · exact ⟨cons _ h1, h2⟩
      · exact ⟨h1, h2⟩

theorem readSign_w (h0 : X 0) (n : Nat) : ∀ {l : L}, W X l → (∀ c ∈ (readSign n l).1, X c) ∧ W X (readSign n l).2 := by
  induction n with
  | zero => intro l h; exact ⟨by simp [readSign], h⟩
  | succ n ih =>
    intro l h
    obtain ⟨a, b⟩ := getchar_w h0 h
    rw [readSign]
    split
    · exact ⟨by simp, b⟩
    · obtain ⟨i, j⟩ := ih b
      refine ⟨?_, j⟩
      intro c hc
      rcases List.mem_cons.mp hc with e | hc
      · rw [e]; exact a
      · exact i c hc

theorem ungetAll_w {b : List UInt8} {l : L} (hb : ∀ c ∈ b, X c) (h : W X l) : W X (ungetAll b l) := by
  induction b with
  | nil => exact h
  | cons c b ih => exact ungetc_w (hb c (by simp)) (ih (fun x hx => hb x (by simp [hx])))

theorem doSign_w (h0 : X 0) {l : L} (h : W X l) : W X (doSign l).2 ∧ ∀ c, (doSign l).1 = .char c → X c := by
  obtain ⟨a, b⟩ := readSign_w h0 4 h
  unfold doSign
  simp only []
  split
  · exact ⟨b, by simp⟩
  · next c t e =>
    split
    · exact ⟨ungetAll_w (fun c hc => a c (List.mem_of_mem_drop hc)) b, by simp⟩
    · rw [e] at a
      refine ⟨ungetAll_w (fun c hc => a c (by simp [hc])) b, ?_⟩
      intro d hd
      injection hd with hd
      rw [← hd]; exact a c (by simp)

theorem getN_w (h0 : X 0) (n : Nat) : ∀ {l : L}, W X l → W X (getN n l).2 := by
  induction n with
  | zero => intro l h; exact h
  | succ n ih => intro l h; exact ih (getchar_w h0 h).2

theorem strLoop_w (h0 : X 0) (e : UInt8) (n : Nat) : ∀ {l : L} (buf : List UInt8) (bsiz : Nat), W X l → W X (strLoop e n buf bsiz l).2 := by
  induction n with
  | zero => intro l buf bsiz h; exact h
  | succ n ih =>
    intro l buf bsiz h
    have a := (getchar_w h0 h).2
    have b := (getchar_w h0 a).2
    have c := getN_w h0 4 b
    rw [strLoop]
    simp only []
    split
    · exact checkBuf_w a
    · split
      · split
        · split
          · exact checkBuf_w c
          · exact ih _ _ (checkBuf_w c)
        · split
          · exact checkBuf_w b
          · exact ih _ _ (checkBuf_w b)
      · split
        · exact checkBuf_w a
        · exact ih _ _ (checkBuf_w a)

theorem doString_w (h0 : X 0) {l : L} (h : W X l) : W X (doString l).2 ∧ ∀ c, (doString l).1 ≠ .char c := by
  have h' : W X (setInStr true l) := h
  have a := (getchar_w h0 h').2
  have b := strLoop_w h0 (getchar (setInStr true l)).1 (size (getchar (setInStr true l)).2 + 1) [] 8192 a
  unfold doString
  simp only []
  split
  · exact ⟨b, by simp⟩
  · exact ⟨b, by simp⟩

theorem flagLoop_w (h0 : X 0) (n : Nat) : ∀ {l : L} (buf : List UInt8) (bsiz : Nat), W X l →
    W X (flagLoop n buf bsiz l).2 ∧ ∀ s c, (flagLoop n buf bsiz l).1 = some (s, c) → X c := by
  induction n with
  | zero => intro l buf bsiz h; exact ⟨h, by simp [flagLoop]⟩
  | succ n ih =>
    intro l buf bsiz h
    obtain ⟨a, b⟩ := getchar_w h0 h
    rw [flagLoop]
    split
    · exact ⟨checkBuf_w h, by simp⟩
    · simp only []
      split
      · exact ih _ _ (checkBuf_w b)
      · refine ⟨checkBuf_w b, ?_⟩
        intro s c e
        simp only [Option.some.injEq, Prod.mk.injEq] at e
        rw [← e.2]; exact a

theorem regexLoop_w (h0 : X 0) (n : Nat) : ∀ {l : L} (buf : List UInt8) (bsiz : Nat), W X l → W X (regexLoop n buf bsiz l).2 := by
  induction n with
  | zero => intro l buf bsiz h; exact h
  | succ n ih =>
    intro l buf bsiz h
    have a := (getchar_w h0 h).2
    have b := (getchar_w h0 a).2
    rw [regexLoop]
    simp only []
    split
    · exact checkBuf_w a
    · split
      · split
        · exact checkBuf_w b
        · exact ih _ _ (checkBuf_w b)
      · split
        · obtain ⟨f1, f2⟩ := flagLoop_w h0 (size (getchar l).2 + 1) (buf ++ [47]) (grow buf.length bsiz)
            (checkBuf_w (a := buf.length) (b := 1) (c := grow buf.length bsiz) a)
          split
          · exact f1
          · next s c e => exact ungetc_w (f2 s c e) f1
        · exact ih _ _ (checkBuf_w a)

theorem doRegex_w (h0 : X 0) {l : L} (h : W X l) : W X (doRegex l).2 ∧ ∀ c, (doRegex l).1 ≠ .char c := by
  have a := (getchar_w h0 h).2
  have b := regexLoop_w h0 (size (getchar l).2 + 1) [(getchar l).1] 8192 a
  unfold doRegex
  simp only []
  split
  · exact ⟨b, by simp⟩
  · exact ⟨b, by simp⟩

theorem eatComment_w (h0 : X 0) (n : Nat) : ∀ {l : L}, W X l → W X (eatComment n l) := by
  induction n with
  | zero => intro l h; exact h
  | succ n ih =>
    intro l h
    have a := (getchar_w h0 h).2
    obtain ⟨b1, b⟩ := getchar_w h0 a
    rw [eatComment]
    simp only []
    split
    · exact a
    · split
      · split
        · exact b
        · exact ih (ungetc_w b1 b)
      · exact ih a

theorem eatLine_w (h0 : X 0) (n : Nat) : ∀ {l : L}, W X l → W X (eatLine n l) := by
  induction n with
  | zero => intro l h; exact h
  | succ n ih =>
    intro l h
    have a := (getchar_w h0 h).2
    rw [eatLine]
    split
    · exact a
    · exact ih a

theorem skipWs_w (h0 : X 0) (n : Nat) : ∀ {l : L}, W X l → X (skipWs n l).1 ∧ W X (skipWs n l).2 := by
  induction n with
  | zero => intro l h; exact getchar_w h0 h
  | succ n ih =>
    intro l h
    have a := getchar_w h0 h
    rw [skipWs]
    split
    · exact ih a.2
    · exact a

theorem numLoop_w (h0 : X 0) (n : Nat) : ∀ {l : L} (w : List UInt8) (b : Bool) (d : Nat) (p : UInt8), W X l → W X (numLoop n w b d p l).2 := by
  induction n with
  | zero => intro l w b d p h; exact h
  | succ n ih =>
    intro l w b d p h
    have a := getchar_w h0 h
    rw [numLoop]
    split
    · exact ih _ _ _ _ a.2
    · exact ungetc_w a.1 a.2

theorem numTok_char (sd : List UInt8 → Bool) (w : List UInt8) (b : Bool) (d : Nat) : ∀ c, numTok sd w b d ≠ .char c := by
  intro c
  have hi : ∀ base, intTok base w ≠ .char c := by intro base; unfold intTok; split <;> simp
  unfold numTok
  split
  · exact hi _
  · split
    · exact hi _
    · split <;> simp

theorem doNumber_w (h0 : X 0) (sd : List UInt8 → Bool) (w : List UInt8) (c : UInt8) {l : L} (h : W X l) :
    W X (doNumber sd w c l).2 ∧ ∀ d, (doNumber sd w c l).1 = .char d → X d := by
  unfold doNumber
  exact ⟨numLoop_w h0 _ _ _ _ _ h, fun d e => absurd e (numTok_char _ _ _ _ d)⟩

theorem wordLoop_w (h0 : X 0) (n : Nat) : ∀ {l : L} (w : List UInt8) (c : UInt8), W X l → X c →
    X (wordLoop n w c l).2.1 ∧ W X (wordLoop n w c l).2.2 := by
  induction n with
  | zero => intro l w c h hc; exact ⟨hc, h⟩
  | succ n ih =>
    intro l w c h hc
    have a := getchar_w h0 h
    rw [wordLoop]
    split
    · exact ih _ _ a.2 a.1
    · exact a

theorem doWord_w (h0 : X 0) {l : L} {c : UInt8} (hc : X c) (h : W X l) : W X (doWord c l).2 ∧ ∀ d, (doWord c l).1 ≠ .char d := by
  have a := wordLoop_w h0 1020 [] c h hc
  unfold doWord
  refine ⟨ungetc_w a.1 a.2, ?_⟩
  intro d
  simp only []
  split <;> simp

theorem point_w (h0 : X 0) {l : L} {c : UInt8} (hc : X c) (h : W X l) : X (point c l).2.1 ∧ W X (point c l).2.2 := by
  have a := getchar_w h0 h
  unfold point
  split
  · simp only []
    split
    · exact a
    · exact ⟨hc, ungetc_w a.1 a.2⟩
  · exact ⟨hc, h⟩

theorem yylex1_w (h0 : X 0) (sd : List UInt8 → Bool) (last : Tok) {l : L} (h : W X l) :
    W X (yylex1 sd last l).2 ∧ ∀ c, (yylex1 sd last l).1.2 = .char c → X c := by
  obtain ⟨s1, s2⟩ := skipWs_w h0 (size l) h
  obtain ⟨p1, p2⟩ := point_w h0 s1 s2
  unfold yylex1
  simp only []
  generalize point (skipWs (size l) l).1 (skipWs (size l) l).2 = p at *
  generalize (skipWs (size l) l).2.line = ln at *
  have d := getchar_w h0 p2
  have u := ungetc_w p1 (ungetc_w d.1 d.2)
  split
  · exact doNumber_w h0 sd _ _ p2
  · split
    · have := doString_w h0 (ungetc_w p1 p2)
      exact ⟨this.1, fun c e => absurd e (this.2 c)⟩
    · split
      · have := doWord_w h0 p1 (ungetc_w p1 p2)
        exact ⟨this.1, fun c e => absurd e (this.2 c)⟩
      · split
        · split
          · exact ⟨eatLine_w h0 _ d.2, by simp⟩
          · split
            · exact ⟨eatComment_w h0 _ d.2, by simp⟩
            · split
              · have := doRegex_w h0 u
                exact ⟨this.1, fun c e => absurd e (this.2 c)⟩
              · exact doSign_w h0 u
        · exact doSign_w h0 (ungetc_w p1 p2)

theorem yylex_w (h0 : X 0) (sd : List UInt8 → Bool) (last : Tok) (n : Nat) : ∀ {l : L}, W X l →
    W X (yylex sd last n l).2 ∧ ∀ c, (yylex sd last n l).1.2 = .char c → X c := by
  induction n with
  | zero => intro l h; exact yylex1_w h0 sd last h
  | succ n ih =>
    intro l h
    have a := yylex1_w h0 sd last h
    rw [yylex]
    split
    · exact ih a.1
    · exact a

theorem lexF_w (h0 : X 0) (sd : List UInt8 → Bool) (n : Nat) : ∀ {l : L} (last : Tok), W X l →
    ∀ x ∈ (lexF sd n last l).1, ∀ c, x.2 = .char c → X c := by
  induction n with
  | zero => intro l last h x hx; simp [lexF] at hx
  | succ n ih =>
    intro l last h x hx
    have a := yylex_w h0 sd last (size l + 1) h
    rw [lexF] at hx
    simp only [] at hx
    split at hx
    · rw [List.mem_singleton] at hx; rw [hx]; exact a.2
    · rcases List.mem_cons.mp hx with e | hx
      · rw [e]; exact a.2
      · exact ih _ a.1 x hx

end Verif.Lex
