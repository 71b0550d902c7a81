import Verif.Lex.Model
/-!
For every text the lexer stays inside its arrays, and every call ends.
-/
namespace Verif.Lex

/-- What is still to be read. -/
def view (l : L) : List UInt8 := l.unch ++ l.rest

/-- The number of newlines. -/
def nl (t : List UInt8) : Int := (t.count 10 : Nat)

theorem nl_nil : nl [] = 0 := rfl

theorem nl_cons (c : UInt8) (t : List UInt8) : nl (c :: t) = nl t + if c = 10 then 1 else 0 := by
  simp only [nl, List.count_cons, beq_iff_eq]
  split <;> simp

theorem nl_append (s t : List UInt8) : nl (s ++ t) = nl s + nl t := by
  simp [nl, List.count_append]

theorem nl_nonneg (t : List UInt8) : 0 ≤ nl t := by simp [nl]

theorem size_view (l : L) : size l = (view l).length := by simp [size, view]

/-- The invariant: at most `n` characters are pushed back, no newline and no NUL among them; nothing was used outside of an array;
`K` is the number of the last line. -/
structure Inv (n : Nat) (K : Int) (l : L) : Prop where
  len : l.unch.length ≤ n
  nonl : 10 ∉ l.unch
  nz : 0 ∉ view l
  bef : l.unch ≠ [] → l.before.head? = some 10
  oob : l.oob = false
  line : l.line + nl (view l) = K

theorem Inv.mono {n m : Nat} {K : Int} {l : L} (h : Inv n K l) (hm : n ≤ m) : Inv m K l :=
  ⟨Nat.le_trans h.len hm, h.nonl, h.nz, h.bef, h.oob, h.line⟩

theorem inv_init (text : List UInt8) (h0 : 0 ∉ text) : Inv 0 (1 + nl text) (init text) :=
  ⟨by simp [init], by simp [init], by simpa [init, view] using h0, by simp [init], rfl, by simp [init, view]⟩

theorem setInStr_inv {n : Nat} {K : Int} {l : L} (b : Bool) (h : Inv n K l) : Inv n K (setInStr b l) :=
  ⟨h.len, h.nonl, h.nz, h.bef, h.oob, h.line⟩

theorem view_setInStr (b : Bool) (l : L) : view (setInStr b l) = view l := rfl

/-- What `take` does. -/
theorem take_spec (l : L) :
    (view l = [] ∧ take l = (0, l)) ∨
    (∃ c t, view l = c :: t ∧ (take l).1 = c ∧ view (take l).2 = t ∧ (take l).2.line = l.line ∧ (take l).2.inStr = l.inStr ∧
      (take l).2.oob = l.oob ∧
      ((∃ u, l.unch = c :: u ∧ (take l).2.unch = u ∧ (take l).2.before = l.before) ∨
       (l.unch = [] ∧ (take l).2.unch = [] ∧ (take l).2.before = c :: l.before))) := by
  unfold take view
  cases hu : l.unch with
  | cons c u => right; exact ⟨c, u ++ l.rest, rfl, rfl, rfl, rfl, rfl, rfl, Or.inl ⟨u, rfl, rfl, rfl⟩⟩
  | nil =>
    cases hr : l.rest with
    | nil => left; simp
    | cons c r => right; exact ⟨c, r, rfl, rfl, rfl, rfl, rfl, rfl, Or.inr ⟨rfl, rfl, rfl⟩⟩

theorem count_fields (c : UInt8) (l : L) :
    (count c l).unch = l.unch ∧ (count c l).before = l.before ∧ view (count c l) = view l ∧ (count c l).inStr = l.inStr ∧
    (count c l).oob = l.oob ∧ (count c l).line = l.line + (if c = 10 then 1 else 0) := by
  unfold count
  split <;> simp_all [view]

/-- `take` and the counting of lines keep the invariant. -/
theorem take_inv {n : Nat} {K : Int} {l : L} (h : Inv n K l) : Inv (n - 1) K (count (take l).1 (take l).2) := by
  obtain ⟨c1, c2, c3, c4, c5, c6⟩ := count_fields (take l).1 (take l).2
  rcases take_spec l with ⟨hv, ht⟩ | ⟨c, t, hv, h1, h2, h3, h4, h5, h6⟩
  · rw [ht] at c1 c2 c3 c4 c5 c6 ⊢
    have hu : l.unch = [] := by simpa [view] using (List.append_eq_nil_iff.mp hv).1
    refine ⟨?_, ?_, ?_, ?_, ?_, ?_⟩
    · rw [c1]; simp [hu]
    · rw [c1]; simp [hu]
    · rw [c3]; exact h.nz
    · rw [c1]; simp [hu]
    · rw [c5]; exact h.oob
    · rw [c6, c3]; simpa using h.line
  · have hz := h.nz
    have hl := h.line
    rw [hv] at hz hl
    rw [nl_cons] at hl
    have hlen := h.len
    have hnl := h.nonl
    have hb := h.bef
    refine ⟨?_, ?_, ?_, ?_, ?_, ?_⟩
    · rw [c1]
      rcases h6 with ⟨u, e1, e2, e3⟩ | ⟨e1, e2, e3⟩
      · rw [e2]; rw [e1] at hlen; simp at hlen; omega
      · simp [e2]
    · rw [c1]
      rcases h6 with ⟨u, e1, e2, e3⟩ | ⟨e1, e2, e3⟩
      · rw [e2]; rw [e1] at hnl; simp at hnl; exact hnl.2
      · simp [e2]
    · rw [c3, h2]; simp at hz; exact hz.2
    · rw [c1, c2]
      rcases h6 with ⟨u, e1, e2, e3⟩ | ⟨e1, e2, e3⟩
      · rw [e3]; intro _; exact hb (by simp [e1])
      · simp [e2]
    · rw [c5, h5]; exact h.oob
    · rw [c6, c3, h2, h3, h1]; omega

/-- What reading a character does. -/
structure GetSpec (n : Nat) (K : Int) (l : L) (g : UInt8 × L) : Prop where
  inv : Inv (n - 1) K g.2
  inStr : g.2.inStr = l.inStr
  zero : g.1 = 0 → view g.2 = []
  less : g.1 ≠ 0 → size g.2 < size l
  le : size g.2 ≤ size l
  newline : g.1 = 10 → g.2.unch = [] ∧ g.2.before.head? = some 10
  src : g.1 ≠ 0 → g.2.before.head? = some 10 ∨ g.2.unch = [] ∧ g.2.before.head? = some g.1
  keep : l.unch = [] → g.2.unch = [] ∧ (g.1 ≠ 0 → g.2.before = g.1 :: l.before)
  suff : view g.2 <:+ view l

theorem take_get {n : Nat} {K : Int} {l : L} (h : Inv n K l) : GetSpec n K l ((take l).1, count (take l).1 (take l).2) := by
  have hi := take_inv h
  obtain ⟨c1, c2, c3, c4, c5, c6⟩ := count_fields (take l).1 (take l).2
  rcases take_spec l with ⟨hv, ht⟩ | ⟨c, t, hv, h1, h2, h3, h4, h5, h6⟩
  · rw [ht] at c1 c2 c3 c4 c5 c6 hi ⊢
    refine ⟨hi, c4, fun _ => by rw [c3]; exact hv, by simp, by simp [size_view, c3], by simp, by simp, ?_, by simp [c3]⟩
    intro hu; simp [c1, hu]
  · refine ⟨hi, by simp [c4, h4], ?_, ?_, ?_, ?_, ?_, ?_, ?_⟩
    · intro h0
      exfalso; apply h.nz; rw [hv]; simp only [h1] at h0; simp [h0]
    · intro _; simp [size_view, c3, h2, hv]
    · simp [size_view, c3, h2, hv]
    · intro h10
      simp only at h10
      rcases h6 with ⟨u, e1, e2, e3⟩ | ⟨e1, e2, e3⟩
      · exfalso; apply h.nonl; rw [e1]; rw [h1] at h10; simp [h10]
      · simp only [c1, c2, e2, e3, true_and]; rw [h1] at h10; simp [h10]
    · intro _
      simp only [c1, c2]
      rcases h6 with ⟨u, e1, e2, e3⟩ | ⟨e1, e2, e3⟩
      · left; rw [e3]; exact h.bef (by simp [e1])
      · right; simp [e2, e3, h1]
    · intro hu
      rcases h6 with ⟨u, e1, e2, e3⟩ | ⟨e1, e2, e3⟩
      · rw [hu] at e1; cases e1
      · exact ⟨c1.trans e2, fun _ => c2.trans (by rw [e3, h1])⟩
    · simp only [c3, h2, hv]; exact List.suffix_cons _ _

theorem getF_spec (f : Nat) : ∀ {n : Nat} {K : Int} {l : L}, Inv n K l → GetSpec n K l (getcharF f l) := by
  induction f with
  | zero => intro n K l h; exact take_get h
  | succ f ih =>
    intro n K l h
    rw [getcharF]
    by_cases hb : (take l).2.inStr = true ∧ (take l).1 = 92
    · rw [if_pos hb]
      have hg := take_get h
      have hc : count (take l).1 (take l).2 = (take l).2 := by rw [count, if_neg (by rw [hb.2]; decide)]
      rw [hc] at hg
      have hne : (take l).1 ≠ 0 := by rw [hb.2]; decide
      cases hp : peekBack (take l).2 with
      | none =>
        exfalso
        unfold peekBack at hp
        have := hg.src hne
        cases hu : (take l).2.unch with
        | nil => rw [hu] at hp; simp only [] at hp; cases hx : (take l).2.before <;> simp_all
        | cons => rw [hu] at hp; simp at hp
      | some nc =>
        simp only []
        split
        · next hnc =>
          have hi : Inv (n - 1) K (take l).2 := hg.inv
          have h2 := ih hi
          refine ⟨h2.inv.mono (by omega), h2.inStr.trans hg.inStr, h2.zero, ?_, ?_, h2.newline, h2.src, ?_, h2.suff.trans hg.suff⟩
          rotate_left 2
          · intro hu
            exfalso
            obtain ⟨k1, k2⟩ := hg.keep hu
            simp only [] at k1 k2
            unfold peekBack at hp
            rw [k1, k2 hne, hb.2, hnc] at hp
            simp at hp
          · intro _; have := h2.le; have := hg.less hne; simp only at this; omega
          · have := h2.le; have := hg.less hne; simp only at this; omega
        · rw [hc]; exact hg
    · rw [if_neg hb]; exact take_get h

theorem get_spec {n : Nat} {K : Int} {l : L} (h : Inv n K l) : GetSpec n K l (getchar l) := getF_spec _ h

/-- What pushing back does. -/
theorem unget_view {l : L} (c : UInt8) (h0 : c ≠ 0) (hl : l.unch.length < 99) :
    view (ungetc c l) = c :: view l ∧ (ungetc c l).inStr = l.inStr ∧ (ungetc c l).oob = l.oob ∧
    (ungetc c l).line = l.line - (if c = 10 then 1 else 0) ∧
    (((ungetc c l).unch = l.unch ∧ l.unch = [] ∧ (ungetc c l).before = l.before.tail ∧ l.before.head? = some c) ∨
     ((ungetc c l).unch = c :: l.unch ∧ (ungetc c l).before = l.before ∧ ¬ (l.unch = [] ∧ l.before.head? = some c))) := by
  unfold ungetc
  rw [if_neg h0]
  have hu : (uncount c l).unch = l.unch ∧ (uncount c l).before = l.before ∧ (uncount c l).rest = l.rest ∧
      (uncount c l).inStr = l.inStr ∧ (uncount c l).oob = l.oob ∧ (uncount c l).line = l.line - (if c = 10 then 1 else 0) := by
    unfold uncount; split <;> simp_all
  obtain ⟨u1, u2, u3, u4, u5, u6⟩ := hu
  generalize uncount c l = m at *
  unfold pushback
  split
  · next b p hx hy =>
    rw [hx] at u1; rw [hy] at u2
    split
    · next hcb => subst hcb; simp [view, ← u1, ← u2, u3, u4, u5, u6]
    · next hcb =>
      have : ¬ b = c := fun h => hcb h.symm
      simp [view, ← u1, ← u2, u3, u4, u5, u6, this]
  · next u p hx =>
    rw [if_pos (by rw [u1]; omega)]
    have hd : decide (100 ≤ m.unch.length) = false := by rw [u1]; exact decide_eq_false (by omega)
    refine ⟨by simp [view, u1, u3], u4, by simp only [hd, Bool.or_false]; exact u5, u6, Or.inr ⟨by simp [u1], u2, ?_⟩⟩
    rintro ⟨ha, hb⟩
    rw [ha] at u1
    cases hz : m.before with
    | nil => rw [hz] at u2; rw [← u2] at hb; simp at hb
    | cons b q => exact hx b q u1 hz

theorem unget_inv {n : Nat} {K : Int} {l : L} (h : Inv n K l) {c : UInt8} (h0 : c ≠ 0) (h10 : c ≠ 10) (hn : n < 99)
    (hb : l.before.head? = some 10 ∨ l.unch = [] ∧ l.before.head? = some c) : Inv (n + 1) K (ungetc c l) := by
  have hlen := h.len
  obtain ⟨v, i, o, li, hc⟩ := unget_view (l := l) c h0 (by omega)
  rw [if_neg h10] at li
  refine ⟨?_, ?_, ?_, ?_, by rw [o]; exact h.oob, ?_⟩
  · rcases hc with ⟨e, _⟩ | ⟨e, _⟩ <;> rw [e]
    · omega
    · simp; omega
  · rcases hc with ⟨e, _⟩ | ⟨e, _⟩ <;> rw [e]
    · exact h.nonl
    · simp; exact ⟨fun hh => h10 hh.symm, h.nonl⟩
  · rw [v]; simp; exact ⟨fun hh => h0 hh.symm, h.nz⟩
  · rcases hc with ⟨e, e2, _⟩ | ⟨e, e2, e3⟩
    · rw [e]; intro hh; exact absurd e2 hh
    · rw [e2]; exact fun _ => hb.resolve_right e3
  · rw [v, nl_cons, if_neg h10, li]; have := h.line; omega

/-- A character just read is pushed back. -/
theorem unget_get_inv {n : Nat} {K : Int} {l : L} (h : Inv n K l) (hn : n < 99) : Inv n K (ungetc (getchar l).1 (getchar l).2) ∧
    (ungetc (getchar l).1 (getchar l).2).inStr = l.inStr ∧
    size (ungetc (getchar l).1 (getchar l).2) ≤ size l ∧
    ((getchar l).1 ≠ 0 → view (ungetc (getchar l).1 (getchar l).2) = (getchar l).1 :: view (getchar l).2) ∧
    ((getchar l).1 = 0 → view (ungetc (getchar l).1 (getchar l).2) = []) := by
  have hg := get_spec h
  have hlen := hg.inv.len
  by_cases h0 : (getchar l).1 = 0
  · have : ungetc (getchar l).1 (getchar l).2 = (getchar l).2 := by rw [ungetc, if_pos h0]
    rw [this]
    exact ⟨hg.inv.mono (by omega), hg.inStr, hg.le, fun h => absurd h0 h, hg.zero⟩
  · obtain ⟨v, i, o, li, hc⟩ := unget_view (l := (getchar l).2) (getchar l).1 h0 (by omega)
    refine ⟨?_, i.trans hg.inStr, by have := hg.less h0; rw [size_view] at this ⊢; rw [v]; simp; omega, fun _ => v, fun h => absurd h h0⟩
    by_cases h10 : (getchar l).1 = 10
    · obtain ⟨e1, e2⟩ := hg.newline h10
      refine ⟨?_, ?_, ?_, ?_, by rw [o]; exact hg.inv.oob, ?_⟩
      · rcases hc with ⟨e, e3, _⟩ | ⟨e, _, e3⟩
        · rw [e, e3]; simp
        · exfalso; apply e3; rw [h10]; exact ⟨e1, e2⟩
      · rcases hc with ⟨e, e3, _⟩ | ⟨e, _, e3⟩
        · rw [e, e3]; simp
        · exfalso; apply e3; rw [h10]; exact ⟨e1, e2⟩
      · rw [v]; simp; exact ⟨fun hh => h0 hh.symm, hg.inv.nz⟩
      · rcases hc with ⟨e, e3, _⟩ | ⟨e, _, e3⟩
        · rw [e, e3]; simp
        · exfalso; apply e3; rw [h10]; exact ⟨e1, e2⟩
      · rw [v, nl_cons, li]; have := hg.inv.line; split <;> omega
    · have hi := unget_inv hg.inv h0 h10 (by omega) (hg.src h0)
      by_cases hz : n = 0
      · -- nothing was pushed back: the character goes where it came from
        subst hz
        obtain ⟨k1, k2⟩ := hg.keep (List.length_eq_zero_iff.mp (by have := h.len; omega))
        refine ⟨?_, hi.nonl, hi.nz, hi.bef, hi.oob, hi.line⟩
        rcases hc with ⟨e, e3, _⟩ | ⟨e, _, e3⟩
        · rw [e, e3]; simp
        · exfalso; apply e3
          exact ⟨k1, by rw [k2 h0]; rfl⟩
      · rwa [Nat.sub_add_cancel (by omega)] at hi

end Verif.Lex
