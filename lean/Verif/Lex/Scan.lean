import Verif.Lex.View
import Verif.Lex.Spec
import Verif.Json.Gen
/-! Words, strings, regular expressions and comments are read as they are written. -/
namespace Verif.Lex

theorem isdigit_iff (c : UInt8) : isdigit c = true ↔ Digit c := by simp [isdigit, Digit]
theorem isalnum_iff (c : UInt8) : isalnum c = true ↔ Letter c ∨ Digit c := by
  simp [isalnum, isalpha, isupper, islower, isdigit, Letter, Digit]
theorem isxdigit_iff (c : UInt8) : isxdigit c = true ↔ Json.IsHex c := by simp [isxdigit, isdigit, Json.IsHex, or_assoc]
theorem wordChar_iff (c : UInt8) : wordChar c = true ↔ NameChar c := by
  simp only [wordChar, Bool.or_eq_true, isalnum_iff, decide_eq_true_eq, NameChar, NameStart]
  constructor
  · rintro (((h | h) | h) | h) <;> simp [h]
  · rintro ((h | h | h) | h) <;> simp [h]
theorem wordStart_iff (c : UInt8) : (isalpha c || c = 95 || c = 36) = true ↔ NameStart c := by
  simp [isalpha, isupper, islower, NameStart, Letter, or_assoc]

theorem wordChar_zero : wordChar 0 = false := by decide

theorem wordLoop_at (w : List UInt8) : ∀ (f : Nat) {n : Nat} {K : Int} {l : L} {r : List UInt8} (acc : List UInt8) (c : UInt8),
    (∀ x ∈ w, wordChar x = true) → wordChar (r.headD 0) = false → w.length < f → n < 99 → At false n K l (w ++ r) →
    (wordLoop f acc c l).1 = acc ++ w ∧ At false n K (ungetc (wordLoop f acc c l).2.1 (wordLoop f acc c l).2.2) r := by
  induction w with
  | nil =>
    intro f n K l r acc c hw hr hf hn h
    obtain ⟨f, rfl⟩ : ∃ k, f = k + 1 := ⟨f - 1, by simp at hf; omega⟩
    rw [wordLoop]
    rw [List.nil_append] at h
    obtain ⟨g1, g2⟩ := h.get'
    rw [if_neg (by rw [g1, hr]; simp)]
    exact ⟨by simp, (h.back hn).1⟩
  | cons x w ih =>
    intro f n K l r acc c hw hr hf hn h
    obtain ⟨f, rfl⟩ : ∃ k, f = k + 1 := ⟨f - 1, by simp at hf; omega⟩
    rw [wordLoop]
    obtain ⟨g1, g2, _⟩ := h.get
    rw [if_pos (by rw [g1]; exact hw x (by simp)), g1]
    obtain ⟨a, b⟩ := ih f (acc ++ [x]) x (fun y hy => hw y (by simp [hy])) hr (by simp at hf; omega) hn (g2.mono (by omega))
    exact ⟨by rw [a]; simp, b⟩

/-! ### Strings -/

theorem utfDecode4 {a b c d : UInt8} (ha : Json.IsHex a) (hb : Json.IsHex b) (hc : Json.IsHex c) (hd : Json.IsHex d)
    (hv : Json.hexVal4 a b c d < 0xD800 ∨ 0xE000 ≤ Json.hexVal4 a b c d) :
    utfDecode [a, b, c, d] = String.utf8EncodeChar (Char.ofNat (Json.hexVal4 a b c d)) := by
  unfold utfDecode
  simp only []
  rw [if_pos (by simp [isxdigit_iff, ha, hb, hc, hd]), Json.utfDecode_eq a b c d ha hb hc hd hv]

theorem utf8_ne_nil (c : Char) : String.utf8EncodeChar c ≠ [] := by
  unfold String.utf8EncodeChar
  simp only []
  split
  · simp
  · split
    · simp
    · split <;> simp

theorem escape_eq (c : UInt8) : escape c = escMeaning c := by
  unfold escape escMeaning
  by_cases h1 : c = 98 <;> by_cases h2 : c = 102 <;> by_cases h3 : c = 110 <;> by_cases h4 : c = 114 <;> by_cases h5 : c = 116 <;>
    by_cases h6 : c = 48 <;> simp_all

/-- The elements of a string and the quote behind them. -/
theorem strLoop_at (q : UInt8) (hq : Quote q) (ps : List Piece) : ∀ (f : Nat) {n : Nat} {K : Int} {l : L} {r : List UInt8} (buf : List UInt8) (bsiz : Nat),
    (∀ p ∈ ps, p.Ok q) → At true n K l (ptext ps ++ q :: r) → buf.length ≤ bsiz → (ptext ps ++ q :: r).length ≤ f →
    (strLoop q f buf bsiz l).1 = some (buf ++ pval ps) ∧ At true n K (strLoop q f buf bsiz l).2 r := by
  have hq0 : q ≠ 0 ∧ q ≠ 255 ∧ q ≠ 92 := by
    rcases hq with rfl | rfl | rfl <;> decide
  induction ps with
  | nil =>
    intro f n K l r buf bsiz _ h hb hf
    obtain ⟨f, rfl⟩ : ∃ k, f = k + 1 := ⟨f - 1, by simp [ptext] at hf; omega⟩
    obtain ⟨g1, g2, _⟩ := h.get
    rw [strLoop]
    simp only [g1]
    have := grow_ok hb
    rw [if_neg (by simp [hq0.1, hq0.2.1]), if_neg hq0.2.2, if_pos trivial, checkBuf_ok (by omega)]
    exact ⟨by simp [pval], g2.mono (by omega)⟩
  | cons p ps ih =>
    intro f n K l r buf bsiz hok h hb hf
    obtain ⟨f, rfl⟩ : ∃ k, f = k + 1 := ⟨f - 1, by simp at hf; omega⟩
    have hp := hok p (by simp)
    have hps : ∀ p ∈ ps, p.Ok q := fun x hx => hok x (by simp [hx])
    have hgr := grow_ok hb
    cases p with
    | raw c =>
      obtain ⟨c1, c2, c3, c4⟩ := hp
      obtain ⟨g1, g2, _⟩ := h.get
      rw [strLoop]
      simp only [g1]
      rw [if_neg (by simp [c3, c4]), if_neg c2, if_neg c1, checkBuf_ok (by omega)]
      obtain ⟨a, b⟩ := ih f (buf ++ [c]) (grow buf.length bsiz) hps (g2.mono (show n - 1 ≤ n by omega)) (by simp; omega)
        (by simp [ptext, Piece.text] at hf ⊢; omega)
      exact ⟨by rw [a]; simp [pval, Piece.val], b⟩
    | esc c =>
      obtain ⟨c1, c2, c3, c4, c5, c6, c7, c8⟩ := hp
      have c9 : c ≠ 255 := by rintro rfl; exact absurd c7 (by decide)
      obtain ⟨g1, g2, _⟩ := h.get
      obtain ⟨g3, g4, _⟩ := g2.get
      rw [strLoop]
      simp only [g1]
      rw [if_neg (by decide), if_pos trivial]
      simp only [g3]
      rw [if_neg c1, if_neg (by simp [c6, c9]), checkBuf_ok (by omega)]
      obtain ⟨a, b⟩ := ih f (buf ++ [escape c]) (grow buf.length bsiz) hps (g4.mono (show n - 1 - 1 ≤ n by omega)) (by simp; omega)
        (by simp [ptext, Piece.text] at hf ⊢; omega)
      exact ⟨by rw [a]; simp [pval, Piece.val, escape_eq], b⟩
    | uni a b c d =>
      obtain ⟨ha, hb', hc, hd, hv⟩ := hp
      obtain ⟨g1, g2, _⟩ := h.get
      obtain ⟨g3, g4, _⟩ := g2.get
      obtain ⟨k1, k2, _⟩ := g4.get
      obtain ⟨k3, k4, _⟩ := k2.get
      obtain ⟨k5, k6, _⟩ := k4.get
      obtain ⟨k7, k8, _⟩ := k6.get
      have hN : getN 4 (getchar (getchar l).2).2 = ([a, b, c, d], (getchar (getchar (getchar (getchar (getchar (getchar l).2).2).2).2).2).2) := by
        simp only [getN, k1, k3, k5, k7]
      rw [strLoop]
      simp only [g1]
      rw [if_neg (by decide), if_pos trivial]
      simp only [g3]
      rw [if_pos trivial, hN]
      simp only []
      have hu := utfDecode4 ha hb' hc hd hv
      have hl := utfDecode_len [a, b, c, d]
      rw [if_neg (by rw [hu]; exact utf8_ne_nil _), checkBuf_ok (by omega)]
      obtain ⟨x, y⟩ := ih f (buf ++ utfDecode [a, b, c, d]) (grow buf.length bsiz) hps (k8.mono (show n - 1 - 1 - 1 - 1 - 1 - 1 ≤ n by omega)) (by simp; omega)
        (by simp [ptext, Piece.text] at hf ⊢; omega)
      exact ⟨by rw [x, hu]; simp [pval, Piece.val], y⟩

/-- A string. -/
theorem doString_at {q : UInt8} (hq : Quote q) {ps : List Piece} {n : Nat} {K : Int} {l : L} {r : List UInt8} (hok : ∀ p ∈ ps, p.Ok q)
    (h : At false n K l (q :: (ptext ps ++ q :: r))) :
    (doString l).1 = .str (pval ps) ∧ At false n K (doString l).2 r := by
  obtain ⟨g1, g2, _⟩ := (h.setStr true).get
  have hsz := g2.sz
  obtain ⟨a, b⟩ := strLoop_at q hq ps (size (getchar (setInStr true l)).2 + 1) [] 8192 hok g2 (by simp) (by omega)
  unfold doString
  simp only [g1]
  rw [a]
  exact ⟨by simp, (b.mono (by omega)).setStr false⟩

/-! ### Regular expressions -/

theorem flagLoop_at (fl : List UInt8) : ∀ (f : Nat) {n : Nat} {K : Int} {l : L} {r : List UInt8} (buf : List UInt8) (bsiz : Nat),
    (∀ x ∈ fl, isalnum x = true) → isalnum (r.headD 0) = false → fl.length < f → n < 99 → buf.length + fl.length + 5 < bsiz →
    At false n K l (fl ++ r) →
    ∃ c, (flagLoop f buf bsiz l).1 = some (buf ++ fl, c) ∧ At false n K (ungetc c (flagLoop f buf bsiz l).2) r := by
  induction fl with
  | nil =>
    intro f n K l r buf bsiz hw hr hf hn hb h
    obtain ⟨f, rfl⟩ : ∃ k, f = k + 1 := ⟨f - 1, by simp at hf; omega⟩
    rw [List.nil_append] at h
    obtain ⟨g1, g2⟩ := h.get'
    simp only [List.length_nil] at hb
    rw [flagLoop]
    simp only []
    rw [if_neg (by omega), if_neg (by rw [g1, hr]; simp), checkBuf_ok (by omega)]
    exact ⟨_, by simp, (h.back hn).1⟩
  | cons x w ih =>
    intro f n K l r buf bsiz hw hr hf hn hb h
    obtain ⟨f, rfl⟩ : ∃ k, f = k + 1 := ⟨f - 1, by simp at hf; omega⟩
    obtain ⟨g1, g2, _⟩ := h.get
    simp only [List.length_cons] at hb hf
    rw [flagLoop]
    simp only []
    rw [if_neg (by omega), if_pos (by rw [g1]; exact hw x (by simp)), g1, checkBuf_ok (by omega)]
    obtain ⟨c, a, b⟩ := ih f (buf ++ [x]) bsiz (fun y hy => hw y (by simp [hy])) hr (by omega) hn (by simp; omega) (g2.mono (by omega))
    exact ⟨c, by rw [a]; simp, b⟩

theorem regexLoop_at (fl : List UInt8) (hfl : ∀ x ∈ fl, isalnum x = true) (ps : List RePiece) : ∀ (f : Nat) {n : Nat} {K : Int} {l : L} {r : List UInt8} (buf : List UInt8) (bsiz : Nat),
    (∀ p ∈ ps, p.Ok) → isalnum (r.headD 0) = false → n < 99 → At false n K l (retext ps ++ 47 :: (fl ++ r)) →
    buf.length + (retext ps).length + fl.length + 10 < bsiz → (retext ps ++ 47 :: (fl ++ r)).length ≤ f →
    (regexLoop f buf bsiz l).1 = some (buf ++ (retext ps ++ 47 :: fl)) ∧ At false n K (regexLoop f buf bsiz l).2 r := by
  induction ps with
  | nil =>
    intro f n K l r buf bsiz _ hr hn h hb hf
    obtain ⟨f, rfl⟩ : ∃ k, f = k + 1 := ⟨f - 1, by simp [retext] at hf; omega⟩
    obtain ⟨g1, g2, _⟩ := h.get
    rw [regexLoop]
    simp only [g1]
    have hg : grow buf.length bsiz = bsiz := by rw [grow, if_neg (by omega)]
    rw [hg, if_neg (by decide), if_neg (by decide), if_pos trivial, checkBuf_ok (by omega)]
    have hsz := g2.sz
    obtain ⟨c, a, b⟩ := flagLoop_at fl (size (getchar l).2 + 1) (buf ++ [47]) bsiz hfl hr (by rw [hsz]; simp; omega) hn
      (by simp; omega) (g2.mono (show n - 1 ≤ n by omega))
    simp only [a]
    exact ⟨by simp [retext], b⟩
  | cons p ps ih =>
    intro f n K l r buf bsiz hok hr hn h hb hf
    obtain ⟨f, rfl⟩ : ∃ k, f = k + 1 := ⟨f - 1, by simp at hf; omega⟩
    have hp := hok p (by simp)
    have hps : ∀ p ∈ ps, p.Ok := fun x hx => hok x (by simp [hx])
    have hg : grow buf.length bsiz = bsiz := by rw [grow, if_neg (by omega)]
    cases p with
    | raw c =>
      obtain ⟨c1, c2, c3, c4, c5⟩ := hp
      simp only [retext, List.flatMap_cons, RePiece.text, List.length_append, List.length_cons, List.length_nil] at hb
      obtain ⟨g1, g2, _⟩ := h.get
      rw [regexLoop]
      simp only [g1]
      rw [hg, if_neg (by simp [c3, c4]), if_neg c2, if_neg c1, checkBuf_ok (by omega)]
      obtain ⟨a, b⟩ := ih f (buf ++ [c]) bsiz hps hr hn (g2.mono (show n - 1 ≤ n by omega)) (by simp only [retext, List.length_append, List.length_cons, List.length_nil]; omega)
        (by simp [retext, RePiece.text] at hf ⊢; omega)
      exact ⟨by rw [a]; simp [retext, RePiece.text], b⟩
    | esc c =>
      obtain ⟨c1, c2, c3⟩ := hp
      simp only [retext, List.flatMap_cons, RePiece.text, List.length_append, List.length_cons, List.length_nil] at hb
      obtain ⟨g1, g2, _⟩ := h.get
      obtain ⟨g3, g4, _⟩ := g2.get
      rw [regexLoop]
      simp only [g1]
      rw [hg, if_neg (by decide), if_pos trivial]
      simp only [g3]
      rw [if_neg c2, checkBuf_ok (by omega)]
      obtain ⟨a, b⟩ := ih f (buf ++ [92, c]) bsiz hps hr hn (g4.mono (show n - 1 - 1 ≤ n by omega)) (by simp only [retext, List.length_append, List.length_cons, List.length_nil]; omega)
        (by simp [retext, RePiece.text] at hf ⊢; omega)
      exact ⟨by rw [a]; simp [retext, RePiece.text], b⟩

theorem doRegex_at {ps : List RePiece} {fl : List UInt8} {n : Nat} {K : Int} {l : L} {r : List UInt8} (hok : ∀ p ∈ ps, p.Ok)
    (hfl : ∀ x ∈ fl, isalnum x = true) (hr : isalnum (r.headD 0) = false) (hn : n < 99) (hlen : (retext ps ++ fl).length < 8000)
    (h : At false n K l (47 :: (retext ps ++ 47 :: (fl ++ r)))) :
    (doRegex l).1 = .regex (47 :: (retext ps ++ 47 :: fl)) ∧ At false n K (doRegex l).2 r := by
  obtain ⟨g1, g2, _⟩ := h.get
  have hsz := g2.sz
  simp only [List.length_append] at hlen
  obtain ⟨a, b⟩ := regexLoop_at fl hfl ps (size (getchar l).2 + 1) [47] 8192 hok hr hn (g2.mono (show n - 1 ≤ n by omega))
    (by simp; omega) (by omega)
  unfold doRegex
  simp only [g1]
  rw [a]
  exact ⟨by simp, b⟩

/-! ### Comments -/

theorem eatLine_at (b : List UInt8) : ∀ (f : Nat) {n : Nat} {K : Int} {l : L} {r : List UInt8} (e : UInt8), 10 ∉ b → 13 ∉ b → (e = 10 ∨ e = 13) →
    (b ++ e :: r).length ≤ f → At false n K l (b ++ e :: r) → At false n K (eatLine f l) r := by
  induction b with
  | nil =>
    intro f n K l r e _ _ he hf h
    obtain ⟨f, rfl⟩ : ∃ k, f = k + 1 := ⟨f - 1, by simp at hf; omega⟩
    obtain ⟨g1, g2, _⟩ := h.get
    rw [eatLine]
    rw [if_pos (by rw [g1]; rcases he with rfl | rfl <;> simp)]
    exact g2.mono (by omega)
  | cons c b ih =>
    intro f n K l r e h10 h13 he hf h
    obtain ⟨f, rfl⟩ : ∃ k, f = k + 1 := ⟨f - 1, by simp at hf; omega⟩
    simp only [List.mem_cons, not_or] at h10 h13
    have h0 := h.ne0
    simp only [List.cons_append, List.mem_cons, not_or] at h0
    obtain ⟨g1, g2, _⟩ := h.get
    rw [eatLine]
    rw [if_neg (by rw [g1]; simp [Ne.symm h10.1, Ne.symm h13.1, Ne.symm h0.1])]
    exact ih f e h10.2 h13.2 he (by simp at hf ⊢; omega) (g2.mono (by omega))

/-- A comment without a newline, at the end of the text. -/
theorem eatLine_end (b : List UInt8) : ∀ (f : Nat) {n : Nat} {K : Int} {l : L}, 10 ∉ b → 13 ∉ b →
    b.length < f → At false n K l b → At false n K (eatLine f l) [] := by
  induction b with
  | nil =>
    intro f n K l _ _ hf h
    obtain ⟨f, rfl⟩ : ∃ k, f = k + 1 := ⟨f - 1, by simp at hf; omega⟩
    rw [eatLine, h.getNil]
    simpa using h
  | cons c b ih =>
    intro f n K l h10 h13 hf h
    obtain ⟨f, rfl⟩ : ∃ k, f = k + 1 := ⟨f - 1, by simp at hf; omega⟩
    simp only [List.mem_cons, not_or] at h10 h13
    have h0 := h.ne0
    simp only [List.mem_cons, not_or] at h0
    obtain ⟨g1, g2, _⟩ := h.get
    rw [eatLine]
    rw [if_neg (by rw [g1]; simp [Ne.symm h10.1, Ne.symm h13.1, Ne.symm h0.1])]
    exact ih f h10.2 h13.2 (by simp at hf ⊢; omega) (g2.mono (by omega))

theorem eatComment_at (b : List UInt8) : ∀ (f : Nat) {n : Nat} {K : Int} {l : L} {r : List UInt8}, ¬ [42, 47] <:+: b → n < 99 →
    (b ++ 42 :: 47 :: r).length ≤ f → At false n K l (b ++ 42 :: 47 :: r) → At false n K (eatComment f l) r := by
  induction b with
  | nil =>
    intro f n K l r _ hn hf h
    obtain ⟨f, rfl⟩ : ∃ k, f = k + 1 := ⟨f - 1, by simp at hf; omega⟩
    obtain ⟨g1, g2, _⟩ := h.get
    obtain ⟨g3, g4, _⟩ := g2.get
    rw [eatComment]
    simp only [g1, g3]
    rw [if_neg (by decide), if_pos trivial, if_pos trivial]
    exact g4.mono (by omega)
  | cons c b ih =>
    intro f n K l r hb hn hf h
    obtain ⟨f, rfl⟩ : ∃ k, f = k + 1 := ⟨f - 1, by simp at hf; omega⟩
    have hb' : ¬ [42, 47] <:+: b := fun hi => hb (hi.trans (List.suffix_cons c b).isInfix)
    have h0 := h.ne0
    simp only [List.cons_append, List.mem_cons, not_or] at h0
    obtain ⟨g1, g2, _⟩ := h.get
    rw [eatComment]
    simp only [g1]
    rw [if_neg (Ne.symm h0.1)]
    by_cases hc : c = 42
    · rw [if_pos hc]
      have hg := g2.get'
      have hne : (getchar (getchar l).2).1 ≠ 47 := by
        rw [hg.1]
        cases b with
        | nil => simp
        | cons d b =>
          rintro rfl
          apply hb
          rw [hc]
          exact (List.prefix_append [42, 47] b).isInfix
      rw [if_neg hne]
      exact ih f hb' hn (by simp at hf ⊢; omega) ((g2.mono (show n - 1 ≤ n by omega)).back hn).1
    · rw [if_neg hc]
      exact ih f hb' hn (by simp at hf ⊢; omega) (g2.mono (by omega))

end Verif.Lex
