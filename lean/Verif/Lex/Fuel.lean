import Verif.Lex.Safe3
/-! The bounds of the loops of the model are never reached: more of it changes nothing. -/
namespace Verif.Lex

theorem strLoop_fuel (e : UInt8) (f : Nat) : ∀ (f' : Nat) {n : Nat} {K : Int} {l : L} (buf : List UInt8) (bsiz : Nat), Inv n K l →
    buf.length ≤ bsiz → size l < f → size l < f' → strLoop e f buf bsiz l = strLoop e f' buf bsiz l := by
  induction f with
  | zero => intro f' n K l buf bsiz h hb h1 h2; omega
  | succ f ih =>
    intro f' n K l buf bsiz h hb h1 h2
    cases f' with
    | zero => omega
    | succ f' =>
      have hgr := grow_ok hb
      have hg := get_spec h
      have hgi := hg.inv.mono (show n - 1 ≤ n by omega)
      rw [strLoop, strLoop]
      simp only []
      split
      · rfl
      · next hz =>
        have hlt := hg.less (fun e => hz (Or.inl e))
        split
        · have hn := get_spec hgi
          have hni := hn.inv.mono (show n - 1 ≤ n by omega)
          have hnle := hn.le
          split
          · obtain ⟨a, b, c, d⟩ := getN_spec 4 hni
            have hu := utfDecode_len (getN 4 (getchar (getchar l).2).2).1
            split
            · rfl
            · rw [checkBuf_ok (by omega)]
              exact ih f' _ _ a (by simp; omega) (by omega) (by omega)
          · split
            · rfl
            · rw [checkBuf_ok (by omega)]
              exact ih f' _ _ hni (by simp; omega) (by omega) (by omega)
        · split
          · rfl
          · rw [checkBuf_ok (by omega)]
            exact ih f' _ _ hgi (by simp; omega) (by omega) (by omega)

theorem flagLoop_fuel (f : Nat) : ∀ (f' : Nat) {n : Nat} {K : Int} {l : L} (buf : List UInt8) (bsiz : Nat), Inv n K l →
    size l < f → size l < f' → flagLoop f buf bsiz l = flagLoop f' buf bsiz l := by
  induction f with
  | zero => intro f' n K l buf bsiz h h1 h2; omega
  | succ f ih =>
    intro f' n K l buf bsiz h h1 h2
    cases f' with
    | zero => omega
    | succ f' =>
      have hg := get_spec h
      have hgi := hg.inv.mono (show n - 1 ≤ n by omega)
      rw [flagLoop, flagLoop]
      simp only []
      split
      · rfl
      · split
        · next hb hc =>
          have hlt := hg.less (by intro e; rw [e] at hc; exact absurd hc (by decide))
          rw [checkBuf_ok (by omega)]
          exact ih f' _ _ hgi (by omega) (by omega)
        · rfl

theorem regexLoop_fuel (f : Nat) : ∀ (f' : Nat) {n : Nat} {K : Int} {l : L} (buf : List UInt8) (bsiz : Nat), Inv n K l →
    buf.length ≤ bsiz → size l < f → size l < f' → regexLoop f buf bsiz l = regexLoop f' buf bsiz l := by
  induction f with
  | zero => intro f' n K l buf bsiz h hb h1 h2; omega
  | succ f ih =>
    intro f' n K l buf bsiz h hb h1 h2
    cases f' with
    | zero => omega
    | succ f' =>
      have hgr := grow_ok hb
      have hg := get_spec h
      have hgi := hg.inv.mono (show n - 1 ≤ n by omega)
      rw [regexLoop, regexLoop]
      simp only []
      split
      · rfl
      · next hz =>
        have hlt := hg.less (fun e => hz (Or.inl e))
        split
        · have hn := get_spec hgi
          have hni := hn.inv.mono (show n - 1 ≤ n by omega)
          have hnle := hn.le
          split
          · rfl
          · rw [checkBuf_ok (by omega)]
            exact ih f' _ _ hni (by simp; omega) (by omega) (by omega)
        · split
          · rfl
          · rw [checkBuf_ok (by omega)]
            exact ih f' _ _ hgi (by simp; omega) (by omega) (by omega)

theorem eatComment_fuel (f : Nat) : ∀ (f' : Nat) {n : Nat} {K : Int} {l : L}, Inv n K l → n < 99 → size l < f → size l < f' →
    eatComment f l = eatComment f' l := by
  induction f with
  | zero => intro f' n K l h hn h1 h2; omega
  | succ f ih =>
    intro f' n K l h hn h1 h2
    cases f' with
    | zero => omega
    | succ f' =>
      have hg := get_spec h
      have hgi := hg.inv.mono (show n - 1 ≤ n by omega)
      rw [eatComment, eatComment]
      simp only []
      split
      · rfl
      · next hz =>
        have hlt := hg.less hz
        split
        · split
          · rfl
          · obtain ⟨a, b, c, _⟩ := unget_get_inv hgi hn
            exact ih f' a hn (by omega) (by omega)
        · exact ih f' hgi hn (by omega) (by omega)

theorem eatLine_fuel (f : Nat) : ∀ (f' : Nat) {n : Nat} {K : Int} {l : L}, Inv n K l → size l < f → size l < f' →
    eatLine f l = eatLine f' l := by
  induction f with
  | zero => intro f' n K l h h1 h2; omega
  | succ f ih =>
    intro f' n K l h h1 h2
    cases f' with
    | zero => omega
    | succ f' =>
      have hg := get_spec h
      have hgi := hg.inv.mono (show n - 1 ≤ n by omega)
      rw [eatLine, eatLine]
      split
      · rfl
      · next hz =>
        have hlt := hg.less (fun e => hz (Or.inr (Or.inr e)))
        exact ih f' hgi (by omega) (by omega)

theorem skipWs_fuel (f : Nat) : ∀ (f' : Nat) {n : Nat} {K : Int} {l : L}, Inv n K l → size l ≤ f → size l ≤ f' →
    skipWs f l = skipWs f' l := by
  have zero : ∀ {n : Nat} {K : Int} {l : L}, Inv n K l → size l = 0 → ∀ f, skipWs f l = getchar l := by
    intro n K l h hz f
    cases f with
    | zero => rfl
    | succ f =>
      rw [skipWs]
      rw [if_neg]
      intro hc
      have := (get_spec h).less (by rcases hc with hc | hc | hc | hc <;> rw [hc] <;> decide)
      omega
  induction f with
  | zero => intro f' n K l h h1 h2; rw [zero h (by omega), zero h (by omega)]
  | succ f ih =>
    intro f' n K l h h1 h2
    cases f' with
    | zero => rw [zero h (by omega), zero h (by omega)]
    | succ f' =>
      have hg := get_spec h
      have hgi := hg.inv.mono (show n - 1 ≤ n by omega)
      rw [skipWs, skipWs]
      split
      · next hc =>
        have hlt := hg.less (by rcases hc with hc | hc | hc | hc <;> rw [hc] <;> decide)
        exact ih f' hgi (by omega) (by omega)
      · rfl

theorem yylex_fuel (sd : List UInt8 → Bool) (last : Tok) (f : Nat) : ∀ (f' : Nat) {K : Int} {l : L}, Inv 3 K l → l.inStr = false →
    size l < f → size l < f' → yylex sd last f l = yylex sd last f' l := by
  induction f with
  | zero => intro f' K l h hs h1 h2; omega
  | succ f ih =>
    intro f' K l h hs h1 h2
    cases f' with
    | zero => omega
    | succ f' =>
      obtain ⟨a, b, c⟩ := yylex1_step sd last h hs
      rw [yylex, yylex]
      split
      · next hc =>
        have hlt := b (by intro e; rw [e] at hc; exact absurd hc (by decide))
        exact ih f' a.inv a.inStr (by omega) (by omega)
      · rfl

theorem lexF_fuel (sd : List UInt8 → Bool) (f : Nat) : ∀ (f' : Nat) {K : Int} {l : L} (last : Tok), Inv 3 K l → l.inStr = false →
    size l < f → size l < f' → lexF sd f last l = lexF sd f' last l := by
  induction f with
  | zero => intro f' K l last h hs h1 h2; omega
  | succ f ih =>
    intro f' K l last h hs h1 h2
    cases f' with
    | zero => omega
    | succ f' =>
      obtain ⟨a, b, c, d⟩ := yylex_step sd last (size l + 1) h hs
      rw [lexF, lexF]
      split
      · rfl
      · next he =>
        have hlt := b (by intro e; rw [e] at he; exact he rfl)
        simp only []
        rw [ih f' (yylex sd last (size l + 1) l).1.2 a.inv a.inStr (by omega) (by omega)]

/-- A backslash that is passed over comes from the characters pushed back. -/
theorem getcharF_fuel (f : Nat) : ∀ (f' : Nat) (l : L), l.unch.length < f → l.unch.length < f' → getcharF f l = getcharF f' l := by
  induction f with
  | zero => intro f' l h1 h2; omega
  | succ f ih =>
    intro f' l h1 h2
    cases f' with
    | zero => omega
    | succ f' =>
      rw [getcharF, getcharF]
      split
      · next hb =>
        cases hp : peekBack (take l).2 with
        | none => rfl
        | some nc =>
          simp only []
          split
          · next hnc =>
            have : (take l).2.unch.length < l.unch.length := by
              rcases take_spec l with ⟨hv, ht⟩ | ⟨c, t, hv, g1, g2, g3, g4, g5, g6⟩
              · rw [ht] at hb; have h92 : (0 : UInt8) = 92 := hb.2; exact absurd h92 (by decide)
              · rcases g6 with ⟨u, e1, e2, e3⟩ | ⟨e1, e2, e3⟩
                · rw [e1, e2]; simp
                · exfalso
                  unfold peekBack at hp
                  rw [e2, e3, ← g1, hb.2, hnc] at hp
                  simp at hp
            exact ih f' _ (by omega) (by omega)
          · rfl
      · rfl

end Verif.Lex
