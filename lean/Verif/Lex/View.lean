import Verif.Lex.Fuel
/-! The lexer as a reader of the text that is left. -/
namespace Verif.Lex

/-- The lexer is in front of `t`, `b`: inside of a string.  No backslash is the last character pushed back. -/
structure At (b : Bool) (n : Nat) (K : Int) (l : L) (t : List UInt8) : Prop where
  inv : Inv n K l
  str : l.inStr = b
  vw : view l = t
  bs : l.unch.getLast? ≠ some 92

theorem At.mono {b : Bool} {n m : Nat} {K : Int} {l : L} {t : List UInt8} (h : At b n K l t) (hm : n ≤ m) : At b m K l t :=
  ⟨h.inv.mono hm, h.str, h.vw, h.bs⟩

theorem at_init (text : List UInt8) (h0 : 0 ∉ text) : At false 0 (1 + nl text) (init text) text :=
  ⟨inv_init text h0, rfl, rfl, by simp [init]⟩

theorem At.setStr {b : Bool} {n : Nat} {K : Int} {l : L} {t : List UInt8} (h : At b n K l t) (b' : Bool) : At b' n K (setInStr b' l) t :=
  ⟨setInStr_inv b' h.inv, rfl, h.vw, h.bs⟩

/-- Reading is plain, as no newline is taken for the one behind a backslash. -/
theorem At.plain {b : Bool} {n : Nat} {K : Int} {l : L} {t : List UInt8} (h : At b n K l t) :
    getchar l = ((take l).1, count (take l).1 (take l).2) := by
  unfold getchar
  rw [getcharF]
  split
  · next hb =>
    rcases take_spec l with ⟨hv, ht⟩ | ⟨c, t, hv, h1, h2, h3, h4, h5, h6⟩
    · rw [ht] at hb; have h92 : (0 : UInt8) = 92 := hb.2; exact absurd h92 (by decide)
    · rw [h1] at hb
      have hp : ∃ nc, peekBack (take l).2 = some nc ∧ nc ≠ 10 := by
        rcases h6 with ⟨u, e1, e2, e3⟩ | ⟨e1, e2, e3⟩
        · cases u with
          | nil => exfalso; apply h.bs; rw [e1, hb.2]; rfl
          | cons x y =>
            refine ⟨x, by unfold peekBack; rw [e2], ?_⟩
            intro hx
            apply h.inv.nonl; rw [e1, hx]; simp
        · refine ⟨92, by unfold peekBack; rw [e2, e3, hb.2]; rfl, by decide⟩
      obtain ⟨nc, hp, hne⟩ := hp
      rw [hp]
      simp only []
      rw [if_neg hne]
  · rfl

/-- Reading a character. -/
theorem At.get {b : Bool} {n : Nat} {K : Int} {l : L} {c : UInt8} {t : List UInt8} (h : At b n K l (c :: t)) :
    (getchar l).1 = c ∧ At b (n - 1) K (getchar l).2 t ∧
    ((getchar l).2.before.head? = some 10 ∨ (getchar l).2.unch = [] ∧ (getchar l).2.before.head? = some c) := by
  have hg := get_spec h.inv
  have hc : (getchar l).1 = c ∧ view (getchar l).2 = t ∧ (getchar l).2.unch.getLast? ≠ some 92 := by
    rw [h.plain]
    obtain ⟨c1, c2, c3, c4, c5, c6⟩ := count_fields (take l).1 (take l).2
    have hv := h.vw
    rcases take_spec l with ⟨hv', ht⟩ | ⟨c', t', hv', h1, h2, h3, h4, h5, h6⟩
    · rw [hv'] at hv; cases hv
    · rw [hv'] at hv
      injection hv with e1 e2
      refine ⟨h1.trans e1, by rw [c3, h2, e2], ?_⟩
      simp only [c1]
      rcases h6 with ⟨u, e1, e2, e3⟩ | ⟨e1, e2, e3⟩
      · rw [e2]
        intro hl
        apply h.bs
        rw [e1]
        cases u with
        | nil => simp at hl
        | cons x y => rw [List.getLast?_cons_cons]; exact hl
      · rw [e2]; simp
  obtain ⟨e, hv, hb⟩ := hc
  have hne : (getchar l).1 ≠ 0 := by
    rw [e]; intro h0; apply h.inv.nz; rw [h.vw, h0]; simp
  have hs := hg.src hne
  rw [e] at hs
  exact ⟨e, ⟨hg.inv, hg.inStr.trans h.str, hv, hb⟩, hs⟩

/-- Reading at the end. -/
theorem At.getNil {b : Bool} {n : Nat} {K : Int} {l : L} (h : At b n K l []) : getchar l = (0, l) := by
  rw [h.plain]
  rcases take_spec l with ⟨hv', ht⟩ | ⟨c', t', hv', _⟩
  · rw [ht]; rfl
  · rw [h.vw] at hv'; cases hv'

theorem At.get' {b : Bool} {n : Nat} {K : Int} {l : L} {t : List UInt8} (h : At b n K l t) :
    (getchar l).1 = t.headD 0 ∧ At b n K (getchar l).2 t.tail := by
  cases t with
  | nil => rw [h.getNil]; exact ⟨rfl, h⟩
  | cons c t => obtain ⟨a, b, _⟩ := h.get; exact ⟨a, b.mono (by omega)⟩

/-- Reading a character and pushing it back. -/
theorem At.back {n : Nat} {K : Int} {l : L} {t : List UInt8} (h : At false n K l t) (hn : n < 99) :
    At false n K (ungetc (getchar l).1 (getchar l).2) t ∧ (ungetc (getchar l).1 (getchar l).2).unch = l.unch ∧
    (ungetc (getchar l).1 (getchar l).2).before = l.before := by
  obtain ⟨a, b, c, d, e⟩ := unget_get_inv h.inv hn
  obtain ⟨s1, s2⟩ := unget_get_same h.inv h.str hn
  refine ⟨⟨a, b.trans h.str, ?_, by rw [s1]; exact h.bs⟩, s1, s2⟩
  cases t with
  | nil => rw [h.getNil] at e ⊢; exact e rfl
  | cons x y =>
    obtain ⟨g1, g2, _⟩ := h.get
    have hne : (getchar l).1 ≠ 0 := by
      rw [g1]; intro h0; apply h.inv.nz; rw [h.vw, h0]; simp
    rw [d hne, g1, g2.vw]

/-- Pushing back a character. -/
theorem At.unget {n : Nat} {K : Int} {l : L} {t : List UInt8} {c : UInt8} (h : At false n K l t) (hn : n < 99) (h0 : c ≠ 0) (h10 : c ≠ 10)
    (h92 : c ≠ 92) (hs : l.before.head? = some 10 ∨ l.unch = [] ∧ l.before.head? = some c) : At false (n + 1) K (ungetc c l) (c :: t) := by
  obtain ⟨v, i, o, li, hc⟩ := unget_view (l := l) c h0 (by have := h.inv.len; omega)
  refine ⟨unget_inv h.inv h0 h10 hn hs, i.trans h.str, by rw [v, h.vw], ?_⟩
  rcases hc with ⟨e, _⟩ | ⟨e, _⟩
  · rw [e]; exact h.bs
  · rw [e]
    cases hu : l.unch with
    | nil => simpa using h92
    | cons x y => rw [List.getLast?_cons_cons]; have := h.bs; rw [hu] at this; exact this

theorem At.ne0 {b : Bool} {n : Nat} {K : Int} {l : L} {t : List UInt8} (h : At b n K l t) : 0 ∉ t := by
  have := h.inv.nz; rwa [h.vw] at this

theorem At.sz {b : Bool} {n : Nat} {K : Int} {l : L} {t : List UInt8} (h : At b n K l t) : size l = t.length := by
  rw [size_view, h.vw]

/-- The line of the text that is left. -/
theorem At.ln {b : Bool} {n : Nat} {K : Int} {l : L} {t : List UInt8} (h : At b n K l t) : l.line = K - nl t := by
  have := h.inv.line; rw [h.vw] at this; omega

end Verif.Lex
