import Verif.Lex.ScanNum
import Verif.Lex.ScanSign
/-! Every token is read as it is written. -/
namespace Verif.Lex

theorem keywords_eq (w : List UInt8) : w ∈ keywords ↔ w ∈ reserved.map asc := by
  have h1 : ∀ w ∈ keywords, w ∈ reserved.map asc := by decide +kernel
  have h2 : ∀ w ∈ reserved.map asc, w ∈ keywords := by decide +kernel
  exact ⟨h1 w, h2 w⟩

theorem regexAllowed_iff (last : Tok) : regexAllowed last = true ↔ ReAfter last := by
  simp only [regexAllowed, Bool.or_eq_true, decide_eq_true_eq, ReAfter]
  constructor
  · rintro (((((((h | h) | h) | h) | h) | h) | h) | h)
    · exact Or.inr ⟨_, h, by simp⟩
    · exact Or.inr ⟨_, h, by simp⟩
    · exact Or.inr ⟨_, h, by simp⟩
    · exact Or.inr ⟨_, h, by simp⟩
    · exact Or.inr ⟨_, h, by simp⟩
    · exact Or.inl h
    · exact Or.inr ⟨_, h, by simp⟩
    · exact Or.inr ⟨_, h, by simp⟩
  · rintro (h | ⟨c, h, hc⟩)
    · simp [h]
    · rcases hc with rfl | rfl | rfl | rfl | rfl | rfl | rfl <;> simp [h]

theorem skipWs_none {c : UInt8} (hc : ¬ Blank c) {n : Nat} {K : Int} {l : L} {t : List UInt8} (h : At false n K l (c :: t)) (f : Nat) :
    skipWs f l = getchar l := by
  cases f with
  | zero => rfl
  | succ f =>
    rw [skipWs]
    rw [if_neg (by rw [h.get.1]; exact hc)]

/-- The text behind a token, perhaps without one newline near its beginning. -/
def Behind (K : Int) (l : L) (r : List UInt8) : Prop :=
  At false 3 K l r ∨ ∃ p q, r = p ++ 10 :: q ∧ 10 ∉ p ∧ p.length ≤ 2 ∧ At false 3 K l (p ++ q)

/-- The first character of a number: its dispatch. -/
theorem yylex1_num (sd : List UInt8 → Bool) (last : Tok) {m : Num} {r : List UInt8} (hok : m.Ok) (hlen : m.text.length < 1020)
    (hf : (STok.num m).Fits r) (hsd : ∀ ip fp ex, m = .dec ip fp ex → sd m.text = true) {K : Int} {l : L} (h : At false 3 K l (m.text ++ r)) :
    (yylex1 sd last l).1.2 = .num m.val ∧ At false 3 K (yylex1 sd last l).2 r := by
  -- a number that begins with a digit
  have start : ∀ (c : UInt8) (w : List UInt8), m.text = c :: w → isdigit c = true → Cont [c] 0 w →
      numTok sd m.text (w.any (fun c => c = 88 || c = 120)) (1 + w.countP isxdigit) = .num m.val →
      (yylex1 sd last l).1.2 = .num m.val ∧ At false 3 K (yylex1 sd last l).2 r := by
    intro c w ht hc hco hv
    have hb : ¬ Blank c := by
      rw [isdigit_iff] at hc
      rintro (rfl | rfl | rfl | rfl) <;> exact absurd hc (by unfold Digit; decide)
    rw [ht] at h
    have hg := h.get
    have hp : point c (getchar l).2 = ([], c, (getchar l).2) := by
      rw [point, if_neg]; rintro rfl; exact absurd hc (by decide)
    unfold yylex1
    rw [skipWs_none hb h]
    simp only [hg.1, hp]
    rw [if_pos hc]
    obtain ⟨a, b⟩ := doNumber_run (sd := sd) (pre := []) (c := c) (w := w) hf (by simpa using ht) hlen (by simpa using hco) (by omega) hg.2.1
    exact ⟨by simp only [a]; exact hv, b.mono (by omega)⟩
  cases m with
  | dec ip fp ex =>
    have hok' := hok
    obtain ⟨h1, h2, h3, h4, h5⟩ := hok
    have hx : ∀ w, w <:+ (Num.dec ip fp ex).text → w.any (fun c => decide (c = 88) || decide (c = 120)) = false := by
      intro w hw
      rw [List.any_eq_false]
      intro c hc
      have := dec_chars hok' c (hw.mem hc)
      simp [this.1, this.2]
    have hflow : Flow (fracText fp ++ expText ex) := fun acc p => cont_append _ _ acc p (flow_frac h2 acc p) (flow_exp h3)
    cases ip with
    | cons c ip =>
      have ht : (Num.dec (c :: ip) fp ex).text = c :: (ip ++ (fracText fp ++ expText ex)) := rfl
      refine start c _ ht ((isdigit_iff c).mpr (h1 c (by simp))) ?_ ?_
      · exact cont_append _ _ _ _ (cont_hex ip (fun x hx => hex_of_digit (h1 x (by simp [hx]))) _ _) hflow
      · rw [hx _ (by rw [ht]; exact List.suffix_cons _ _)]
        refine numTok_dec hok' (hsd _ _ _ rfl) ?_ ?_
        · intro e; rw [ht] at e
          injection e with _ e
          rw [e]; rfl
        · intro w e; rw [ht] at e
          injection e with _ e
          rw [e, List.countP_cons_of_neg (by decide)]
          have := List.countP_le_length (p := isxdigit) (l := w)
          omega
    | nil =>
      obtain ⟨f, e, hne⟩ := h4 rfl
      subst e
      cases f with
      | nil => exact absurd rfl hne
      | cons d f =>
        have ht : (Num.dec [] (some (d :: f)) ex).text = ([46] ++ [d]) ++ (f ++ expText ex) := by simp [Num.text, fracText]
        have hd : isdigit d = true := (isdigit_iff d).mpr (h2 _ rfl d (by simp))
        have hh : At false 3 K l (46 :: d :: ((f ++ expText ex) ++ r)) := by rw [ht] at h; simpa using h
        have hg := hh.get
        have hg2 := hg.2.1.get
        have hp : point 46 (getchar l).2 = ([46], d, (getchar (getchar l).2).2) := by
          rw [point, if_pos rfl]; simp only [hg2.1]; rw [if_pos hd]
        unfold yylex1
        rw [skipWs_none (by unfold Blank; decide) hh]
        simp only [hg.1, hp]
        rw [if_pos hd]
        have hfl : Cont ([46] ++ [d]) 0 (f ++ expText ex) :=
          cont_append _ _ _ _ (cont_hex f (fun x hx => hex_of_digit (h2 _ rfl x (by simp [hx]))) _ _) (flow_exp h3)
        obtain ⟨a, b⟩ := doNumber_run (sd := sd) (pre := [46]) (c := d) (w := f ++ expText ex) hf ht hlen hfl (by omega) hg2.2.1
        refine ⟨?_, b.mono (by omega)⟩
        simp only [a]
        rw [hx _ (by rw [ht]; exact List.suffix_append _ _)]
        refine numTok_dec hok' (hsd _ _ _ rfl) ?_ ?_
        · intro e; rw [ht] at e; simp at e
        · intro w e; rw [ht] at e; simp at e
  | hex x ds =>
    have hok' := hok
    obtain ⟨h1, h2, h3, h4⟩ := hok
    refine start 48 (x :: ds) rfl (by decide) ⟨?_, cont_hex ds (fun c hc => (isxdigit_iff c).mpr (h3 c hc)) _ _⟩ ?_
    · rcases h1 with e | e <;> subst e <;> decide
    · have hb : (x :: ds).any (fun c => decide (c = 88) || decide (c = 120)) = true := by
        rcases h1 with e | e <;> subst e <;> simp
      have hct : (x :: ds).countP isxdigit = ds.length := by
        rw [List.countP_cons_of_neg (by rcases h1 with e | e <;> subst e <;> decide)]
        exact List.countP_eq_length.mpr (fun c hc => (isxdigit_iff c).mpr (h3 c hc))
      rw [hb, hct]
      exact numTok_hex hok'
  | oct ds =>
    have hok' := hok
    obtain ⟨h1, h2, h3⟩ := hok
    refine start 48 ds rfl (by decide) (cont_hex ds (fun c hc => (octVal_eq (h2 c hc)).1) _ _) ?_
    have hb : ds.any (fun c => decide (c = 88) || decide (c = 120)) = false := by
      rw [List.any_eq_false]
      intro c hc
      have := h2 c hc
      have h88 : c ≠ 88 := by rintro rfl; exact absurd this (by decide)
      have h120 : c ≠ 120 := by rintro rfl; exact absurd this (by decide)
      simp [h88, h120]
    rw [hb]
    exact numTok_oct hok'

theorem name_facts_all : ∀ n < 256, (isalpha (UInt8.ofNat n) || decide (UInt8.ofNat n = 95) || decide (UInt8.ofNat n = 36)) = true →
    isdigit (UInt8.ofNat n) = false ∧ n ∉ [46, 34, 39, 96, 32, 9, 10, 13, 92, 0] := by decide +kernel

theorem name_facts {c : UInt8} (h : NameStart c) : isdigit c = false ∧ c ≠ 46 ∧ ¬ (c = 34 ∨ c = 39 ∨ c = 96) ∧ ¬ Blank c ∧ c ≠ 92 ∧ c ≠ 0 ∧ c ≠ 10 := by
  have := name_facts_all c.toNat c.toNat_lt
  rw [UInt8.ofNat_toNat] at this
  obtain ⟨h1, hm⟩ := this ((wordStart_iff c).mpr h)
  simp only [List.mem_cons, List.not_mem_nil, or_false, not_or] at hm
  obtain ⟨h2, h3, h4, h5, h6, h7, h8, h9, h10, h11⟩ := hm
  have ne : ∀ k : UInt8, c.toNat ≠ k.toNat → c ≠ k := fun k hk e => hk (by rw [e])
  refine ⟨h1, ne 46 h2, ?_, ?_, ne 92 h10, ne 0 h11, ne 10 h8⟩
  · rintro (e | e | e)
    · exact ne 34 h3 e
    · exact ne 39 h4 e
    · exact ne 96 h5 e
  · rintro (e | e | e | e)
    · exact ne 32 h6 e
    · exact ne 9 h7 e
    · exact ne 10 h8 e
    · exact ne 13 h9 e

theorem yylex1_word (sd : List UInt8 → Bool) (last : Tok) {w r : List UInt8} (hok : (STok.word w).Ok last) (hf : (STok.word w).Fits r)
    {K : Int} {l : L} (h : At false 3 K l (w ++ r)) :
    (yylex1 sd last l).1.2 = (STok.word w).val ∧ At false 3 K (yylex1 sd last l).2 r := by
  obtain ⟨⟨c, hc, hcs⟩, hw, hlen⟩ := hok
  obtain ⟨v, rfl⟩ : ∃ v, w = c :: v := by
    cases w with
    | nil => simp at hc
    | cons x v => simp at hc; exact ⟨v, by rw [hc]⟩
  obtain ⟨f1, f2, f3, f4, f5, f6, f7⟩ := name_facts hcs
  obtain ⟨g1, g2, g3⟩ := h.get
  have hp : point c (getchar l).2 = ([], c, (getchar l).2) := by rw [point, if_neg f2]
  have hback := g2.unget (by omega) f6 f7 f5 g3
  have hr : wordChar (r.headD 0) = false := by
    cases r with
    | nil => decide
    | cons d r =>
      have := hf d rfl
      rw [Bool.eq_false_iff]
      intro e
      exact this ((wordChar_iff d).mp e)
  obtain ⟨a, b⟩ := wordLoop_at (c :: v) 1020 [] c (fun x hx => (wordChar_iff x).mpr (hw x hx)) hr (by omega) (by omega) hback
  unfold yylex1
  rw [skipWs_none f4 h]
  simp only [g1, hp]
  rw [if_neg (by rw [f1]; simp), if_neg f3, if_pos ((wordStart_iff c).mpr hcs)]
  simp only [doWord, a, List.nil_append]
  refine ⟨?_, b⟩
  simp only [STok.val, keywords_eq]

theorem yylex1_str (sd : List UInt8 → Bool) (last : Tok) {q : UInt8} {ps : List Piece} {r : List UInt8} (hok : (STok.str q ps).Ok last)
    {K : Int} {l : L} (h : At false 3 K l ((STok.str q ps).text ++ r)) :
    (yylex1 sd last l).1.2 = (STok.str q ps).val ∧ At false 3 K (yylex1 sd last l).2 r := by
  obtain ⟨hq, hps⟩ := hok
  have h' : At false 3 K l (q :: (ptext ps ++ q :: r)) := by simpa [STok.text] using h
  obtain ⟨g1, g2, g3⟩ := h'.get
  have hp : point q (getchar l).2 = ([], q, (getchar l).2) := by
    rw [point, if_neg]; rcases hq with rfl | rfl | rfl <;> decide
  have hback := g2.unget (by omega) (by rcases hq with rfl | rfl | rfl <;> decide) (by rcases hq with rfl | rfl | rfl <;> decide)
    (by rcases hq with rfl | rfl | rfl <;> decide) g3
  obtain ⟨a, b⟩ := doString_at hq hps hback
  unfold yylex1
  rw [skipWs_none (by rcases hq with rfl | rfl | rfl <;> (unfold Blank; decide)) h']
  simp only [g1, hp]
  rw [if_neg (by rcases hq with rfl | rfl | rfl <;> decide), if_pos (show q = 34 ∨ q = 39 ∨ q = 96 from hq)]
  exact ⟨a, b⟩

theorem yylex1_regex (sd : List UInt8 → Bool) (last : Tok) {ps : List RePiece} {fl r : List UInt8} (hok : (STok.regex ps fl).Ok last)
    (hf : (STok.regex ps fl).Fits r) {K : Int} {l : L} (h : At false 3 K l ((STok.regex ps fl).text ++ r)) :
    (yylex1 sd last l).1.2 = (STok.regex ps fl).val ∧ At false 3 K (yylex1 sd last l).2 r := by
  obtain ⟨hre, hps, hfl, ⟨c, hc, hc42⟩, hlen⟩ := hok
  have h' : At false 3 K l (47 :: (retext ps ++ 47 :: (fl ++ r))) := by simpa [STok.text] using h
  obtain ⟨g1, g2, g3⟩ := h'.get
  have hp : point 47 (getchar l).2 = ([], 47, (getchar l).2) := by rw [point, if_neg (by decide)]
  have hc47 : c ≠ 47 := by
    cases ps with
    | nil => simp [retext] at hc
    | cons p ps =>
      have := hps p (by simp)
      cases p with
      | raw d => simp [retext, RePiece.text] at hc; rw [← hc]; exact this.1
      | esc d => simp [retext, RePiece.text] at hc; rw [← hc]; decide
  have hd : (getchar (getchar l).2).1 = c := by
    rw [g2.get'.1]
    cases hx : retext ps with
    | nil => rw [hx] at hc; simp at hc
    | cons x y => rw [hx] at hc; simp at hc; simp [hc]
  obtain ⟨k1, k2, k3⟩ := g2.back (by omega)
  have hback := k1.unget (c := 47) (by omega) (by decide) (by decide) (by decide) (by rw [k2, k3]; exact g3)
  have hr : isalnum (r.headD 0) = false := by
    cases r with
    | nil => decide
    | cons d r =>
      rw [Bool.eq_false_iff]
      intro e
      exact hf d rfl ((isalnum_iff d).mp e)
  obtain ⟨a, b⟩ := doRegex_at hps (fun x hx => (isalnum_iff x).mpr (hfl x hx)) hr (by omega) hlen hback
  unfold yylex1
  rw [skipWs_none (by unfold Blank; decide) h']
  simp only [g1, hp]
  rw [if_neg (by decide), if_neg (by decide), if_neg (by decide), if_pos trivial, if_neg (by rw [hd]; exact hc47),
    if_neg (by rw [hd]; exact hc42), if_pos ((regexAllowed_iff last).mpr hre)]
  exact ⟨a, b⟩

/-- Signs. -/
theorem yylex1_sign (sd : List UInt8 → Bool) (last : Tok) {c : UInt8} {s r : List UInt8}
    (h1 : isdigit c = false) (h2 : ¬ Quote c) (h3 : ¬ NameStart c) (h4 : ¬ Blank c) (h5 : c ≠ 92) (h0 : c ≠ 0)
    (hpt : c = 46 → isdigit ((s ++ r).headD 0) = false)
    (hsl : c = 47 → ¬ ReAfter last ∧ (s ++ r).headD 0 ≠ 47 ∧ (s ++ r).headD 0 ≠ 42)
    (hl : s.length ≤ 3) (h10 : 10 ∉ s)
    (hs : (c :: s ∈ signs ∧ ∀ d, r.head? = some d → ¬ ∃ t ∈ signs, ((c :: s) ++ [d]) <+: t) ∨
      (s = [] ∧ ∀ d, r.head? = some d → ¬ ∃ t ∈ signs, [c, d] <+: t))
    {K : Int} {l : L} (h : At false 3 K l ((c :: s) ++ r)) :
    (yylex1 sd last l).1.2 = (if c :: s ∈ signs then .op (c :: s) else .char c) ∧ (NoBs r → Behind K (yylex1 sd last l).2 r) := by
  have hc10 : c ≠ 10 := fun e => h4 (by simp [Blank, e])
  obtain ⟨g1, g2, g3⟩ := h.get
  have key : ∀ l2, At false 3 K (ungetc c l2) ((c :: s) ++ r) →
      (doSign (ungetc c l2)).1 = (if c :: s ∈ signs then .op (c :: s) else .char c) ∧ (NoBs r → Behind K (doSign (ungetc c l2)).2 r) := by
    intro l2 hat
    exact doSign_at hat (by simp; omega) (by simp) (by simp; exact ⟨Ne.symm hc10, h10⟩)
      (by
        rcases hs with hs | ⟨e, hs⟩
        · exact Or.inl hs
        · exact Or.inr ⟨c, by rw [e], hs⟩)
  have hpoint : ∃ l1, point c (getchar l).2 = ([], c, l1) ∧ At false 2 K l1 (s ++ r) ∧
      (l1.before.head? = some 10 ∨ l1.unch = [] ∧ l1.before.head? = some c) := by
    by_cases hp : c = 46
    · obtain ⟨k1, k2, k3⟩ := g2.back (by omega)
      refine ⟨ungetc (getchar (getchar l).2).1 (getchar (getchar l).2).2, ?_, k1, by rw [k2, k3]; exact g3⟩
      rw [point, if_pos hp]
      simp only []
      rw [if_neg]
      rw [g2.get'.1]
      have := hpt hp
      simp only [List.append_eq] at this ⊢
      rw [this]; simp
    · exact ⟨_, by rw [point, if_neg hp], g2, g3⟩
  obtain ⟨l1, e1, i1, i2⟩ := hpoint
  unfold yylex1
  rw [skipWs_none h4 h]
  simp only [g1, e1]
  rw [if_neg (by rw [h1]; simp), if_neg (show ¬ (c = 34 ∨ c = 39 ∨ c = 96) from h2), if_neg (fun e => h3 ((wordStart_iff c).mp e))]
  by_cases hsl' : c = 47
  · rw [if_pos hsl']
    obtain ⟨n1, n2, n3⟩ := hsl hsl'
    obtain ⟨k1, k2, k3⟩ := i1.back (by omega)
    have hd := i1.get'.1
    rw [if_neg (by rw [hd]; exact n2), if_neg (by rw [hd]; exact n3), if_neg (fun e => n1 ((regexAllowed_iff last).mp e))]
    exact key _ (k1.unget (by omega) h0 hc10 h5 (by rw [k2, k3]; exact i2))
  · rw [if_neg hsl']
    exact key _ (i1.unget (by omega) h0 hc10 h5 i2)

end Verif.Lex
