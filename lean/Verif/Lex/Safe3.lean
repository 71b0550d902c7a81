import Verif.Lex.Safe2
/-! Every token is read inside of the arrays. -/
namespace Verif.Lex

theorem find_mem {α : Type} {p : α → Bool} {xs : List α} {x : α} (h : xs.find? p = some x) : x ∈ xs ∧ p x = true :=
  ⟨List.mem_of_find?_eq_some h, List.find?_some h⟩

theorem sign_len : ∀ s ∈ signs, 2 ≤ s.length ∧ s.length ≤ 4 := by decide +kernel

/-- What a step of the lexer keeps. -/
structure Step (n : Nat) (K : Int) (l l' : L) : Prop where
  inv : Inv n K l'
  inStr : l'.inStr = false
  le : size l' ≤ size l

theorem doSign_step {K : Int} {l : L} (h : Inv 3 K l) (hs : l.inStr = false) :
    Step 3 K l (doSign l).2 ∧ (view l ≠ [] → (view l).head? ≠ some 10 → size (doSign l).2 < size l) ∧
    ((doSign l).1 = .eof → view l = [] ∨ (view l).head? = some 10) ∧ (doSign l).1 ≠ .error := by
  have hr := readSign_spec 4 h hs (by have := h.len; omega)
  unfold doSign
  simp only []
  cases hx : (readSign 4 l).1 with
  | nil =>
    simp only []
    have hn := hr.nil (by decide) hx
    refine ⟨⟨hr.inv.mono (by omega), hr.inStr, by have := hr.size; omega⟩, ?_, fun _ => hn, by simp⟩
    intro h1 h2
    exact absurd hn (by simp [h1, h2])
  | cons c b =>
    simp only []
    have hlen := hr.len
    have hsz := hr.size
    rw [hx] at hlen hsz
    simp only [List.length_cons] at hlen hsz
    -- pushing back a proper end of what was read
    have key : ∀ bs : List UInt8, bs <:+ (c :: b) → bs.length < (c :: b).length →
        Step 3 K l (ungetAll bs (readSign 4 l).2) ∧ size (ungetAll bs (readSign 4 l).2) < size l := by
      intro bs hsuf hl
      simp only [List.length_cons] at hl
      obtain ⟨i1, i2, i3, i4⟩ := ungetAll_spec h hr (by omega) bs (by rw [hx]; exact hsuf)
      have hsz2 : size (ungetAll bs (readSign 4 l).2) = bs.length + size (readSign 4 l).2 := by rw [size_view, i3]; simp [size_view]
      exact ⟨⟨i1.mono (by omega), i2, by omega⟩, by omega⟩
    cases hf : signs.find? (·.isPrefixOf (c :: b)) with
    | none =>
      simp only []
      obtain ⟨k1, k2⟩ := key b (List.suffix_cons _ _) (by simp)
      exact ⟨k1, fun _ _ => k2, by simp, by simp⟩
    | some s =>
      simp only []
      obtain ⟨m1, m2⟩ := find_mem hf
      have := sign_len s m1
      obtain ⟨k1, k2⟩ := key ((c :: b).drop s.length) (List.drop_suffix _ _) (by rw [List.length_drop]; simp; omega)
      exact ⟨k1, fun _ _ => k2, by simp, by simp⟩

theorem checkBuf_ok {bufi k bsiz : Nat} {l : L} (h : bufi + k ≤ bsiz) : checkBuf bufi k bsiz l = l := by rw [checkBuf, if_pos h]

theorem grow_ok {bufi bsiz : Nat} (h : bufi ≤ bsiz) : bufi + 5 < grow bufi bsiz := by
  unfold grow; split <;> omega

theorem utfDecode_len (h : List UInt8) : (utfDecode h).length ≤ 3 := by
  unfold utfDecode
  split
  · split
    · unfold Verif.Json.utfDecode; simp only []; split
      · simp
      · split <;> simp
    · simp
  · simp

/-- Reading several characters. -/
theorem getN_spec (k : Nat) : ∀ {n : Nat} {K : Int} {l : L}, Inv n K l →
    Inv n K (getN k l).2 ∧ (getN k l).2.inStr = l.inStr ∧ size (getN k l).2 ≤ size l ∧ (getN k l).1.length = k := by
  induction k with
  | zero => intro n K l h; exact ⟨h, rfl, Nat.le_refl _, rfl⟩
  | succ k ih =>
    intro n K l h
    have hg := get_spec h
    obtain ⟨a, b, c, d⟩ := ih (hg.inv.mono (show n - 1 ≤ n by omega))
    rw [getN]
    exact ⟨a, b.trans hg.inStr, Nat.le_trans c hg.le, by simp [d]⟩

/-- `omega`, after projections of pairs are computed -/
macro "om" : tactic => `(tactic| ((try simp only []) <;> omega))

theorem strLoop_step (e : UInt8) (f : Nat) : ∀ {n : Nat} {K : Int} {l : L} (buf : List UInt8) (bsiz : Nat), Inv n K l →
    buf.length ≤ bsiz → Inv n K (strLoop e f buf bsiz l).2 ∧ size (strLoop e f buf bsiz l).2 ≤ size l := by
  induction f with
  | zero => intro n K l buf bsiz h _; exact ⟨h, Nat.le_refl _⟩
  | succ f ih =>
    intro n K l buf bsiz h hb
    have hgr := grow_ok hb
    have hg := get_spec h
    have hgi := hg.inv.mono (show n - 1 ≤ n by omega)
    have hgle := hg.le
    rw [strLoop]
    simp only []
    split
    · rw [checkBuf_ok (by omega)]; exact ⟨hgi, hgle⟩
    · split
      · have hn := get_spec hgi
        have hni := hn.inv.mono (show n - 1 ≤ n by omega)
        have hnle := hn.le
        split
        · obtain ⟨a, b, c, d⟩ := getN_spec 4 hni
          have hu := utfDecode_len (getN 4 (getchar (getchar l).2).2).1
          split
          · rw [checkBuf_ok (by omega)]; exact ⟨a, by om⟩
          · rw [checkBuf_ok (by omega)]
            obtain ⟨i, j⟩ := ih (buf ++ utfDecode (getN 4 (getchar (getchar l).2).2).1) (grow buf.length bsiz) a (by simp; omega)
            exact ⟨i, by om⟩
        · split
          · rw [checkBuf_ok (by omega)]; exact ⟨hni, by om⟩
          · rw [checkBuf_ok (by omega)]
            obtain ⟨i, j⟩ := ih (buf ++ [escape (getchar (getchar l).2).1]) (grow buf.length bsiz) hni (by simp; omega)
            exact ⟨i, by om⟩
      · split
        · rw [checkBuf_ok (by omega)]; exact ⟨hgi, hgle⟩
        · rw [checkBuf_ok (by omega)]
          obtain ⟨i, j⟩ := ih (buf ++ [(getchar l).1]) (grow buf.length bsiz) hgi (by simp; omega)
          exact ⟨i, by om⟩

theorem doString_step {K : Int} {l : L} (h : Inv 3 K l) :
    Step 3 K l (doString l).2 ∧ (view l ≠ [] → size (doString l).2 < size l) ∧ (doString l).1 ≠ .eof := by
  have hg := get_spec (setInStr_inv true h)
  obtain ⟨a, b⟩ := strLoop_step (getchar (setInStr true l)).1 (size (getchar (setInStr true l)).2 + 1) [] 8192
    (hg.inv.mono (show 3 - 1 ≤ 3 by omega)) (by simp)
  have hle : size (getchar (setInStr true l)).2 ≤ size l := hg.le
  have hlt : view l ≠ [] → size (getchar (setInStr true l)).2 < size l := by
    intro hv
    by_cases h0 : (getchar (setInStr true l)).1 = 0
    · have := hg.zero h0
      rw [size_view, this, size_view]
      exact List.length_pos_iff.mpr hv
    · exact hg.less h0
  unfold doString
  simp only []
  generalize strLoop (getchar (setInStr true l)).1 (size (getchar (setInStr true l)).2 + 1) [] 8192 (getchar (setInStr true l)).2 = r at *
  cases r.1 with
  | none => exact ⟨⟨setInStr_inv false a, rfl, Nat.le_trans b hle⟩, fun hv => Nat.lt_of_le_of_lt b (hlt hv), by simp⟩
  | some s => exact ⟨⟨setInStr_inv false a, rfl, Nat.le_trans b hle⟩, fun hv => Nat.lt_of_le_of_lt b (hlt hv), by simp⟩

theorem flagLoop_step (f : Nat) : ∀ {n : Nat} {K : Int} {l : L} (buf : List UInt8) (bsiz : Nat), Inv n K l → l.inStr = false → n < 99 →
    buf.length < bsiz →
    Step n K l (flagLoop f buf bsiz l).2 ∧
    (∀ s c, (flagLoop f buf bsiz l).1 = some (s, c) → Step n K l (ungetc c (flagLoop f buf bsiz l).2)) := by
  induction f with
  | zero => intro n K l buf bsiz h hs _ _; exact ⟨⟨h, hs, Nat.le_refl _⟩, by simp [flagLoop]⟩
  | succ f ih =>
    intro n K l buf bsiz h hs hn hb
    have hg := get_spec h
    rw [flagLoop]
    simp only []
    split
    · rw [checkBuf_ok (by omega)]; exact ⟨⟨h, hs, Nat.le_refl _⟩, by simp⟩
    · split
      · rw [checkBuf_ok (by omega)]
        obtain ⟨i, j⟩ := ih (buf ++ [(getchar l).1]) bsiz (hg.inv.mono (show n - 1 ≤ n by omega)) (hg.inStr.trans hs) hn (by simp; omega)
        exact ⟨⟨i.inv, i.inStr, Nat.le_trans i.le hg.le⟩, fun s c e => ⟨(j s c e).inv, (j s c e).inStr, Nat.le_trans (j s c e).le hg.le⟩⟩
      · rw [checkBuf_ok (by omega)]
        refine ⟨⟨hg.inv.mono (by omega), hg.inStr.trans hs, hg.le⟩, ?_⟩
        intro s c e
        simp only [Option.some.injEq, Prod.mk.injEq] at e
        rw [← e.2]
        obtain ⟨a, b, c, _⟩ := unget_get_inv h hn
        exact ⟨a, b.trans hs, c⟩

theorem regexLoop_step (f : Nat) : ∀ {n : Nat} {K : Int} {l : L} (buf : List UInt8) (bsiz : Nat), Inv n K l → l.inStr = false → n < 99 →
    buf.length ≤ bsiz → Step n K l (regexLoop f buf bsiz l).2 := by
  induction f with
  | zero => intro n K l buf bsiz h hs _ _; exact ⟨h, hs, Nat.le_refl _⟩
  | succ f ih =>
    intro n K l buf bsiz h hs hn hb
    have hgr := grow_ok hb
    have hg := get_spec h
    have hgi := hg.inv.mono (show n - 1 ≤ n by omega)
    have hgle := hg.le
    have hgs := hg.inStr.trans hs
    rw [regexLoop]
    simp only []
    split
    · rw [checkBuf_ok (by omega)]; exact ⟨hgi, hgs, hgle⟩
    · split
      · have hm := get_spec hgi
        have hmi := hm.inv.mono (show n - 1 ≤ n by omega)
        have hmle := hm.le
        have hms := hm.inStr.trans hgs
        split
        · rw [checkBuf_ok (by omega)]; exact ⟨hmi, hms, by om⟩
        · rw [checkBuf_ok (by omega)]
          have i := ih (buf ++ [92, (getchar (getchar l).2).1]) (grow buf.length bsiz) hmi hms hn (by simp; omega)
          have := i.le
          exact ⟨i.inv, i.inStr, by om⟩
      · split
        · rw [checkBuf_ok (by omega)]
          obtain ⟨i, j⟩ := flagLoop_step (size (getchar l).2 + 1) (buf ++ [47]) (grow buf.length bsiz) hgi hgs hn (by simp; omega)
          cases hfl : (flagLoop (size (getchar l).2 + 1) (buf ++ [47]) (grow buf.length bsiz) (getchar l).2).1 with
          | none => have := i.le; exact ⟨i.inv, i.inStr, by om⟩
          | some sc =>
            obtain ⟨s, c⟩ := sc
            have k := j s c hfl
            have := k.le
            exact ⟨k.inv, k.inStr, by om⟩
        · rw [checkBuf_ok (by omega)]
          have i := ih (buf ++ [(getchar l).1]) (grow buf.length bsiz) hgi hgs hn (by simp; omega)
          have := i.le
          exact ⟨i.inv, i.inStr, by om⟩

theorem doRegex_step {K : Int} {l : L} (h : Inv 3 K l) (hs : l.inStr = false) :
    Step 3 K l (doRegex l).2 ∧ (view l ≠ [] → size (doRegex l).2 < size l) ∧ (doRegex l).1 ≠ .eof := by
  have hg := get_spec h
  have a := regexLoop_step (size (getchar l).2 + 1) [(getchar l).1] 8192
    (hg.inv.mono (show 3 - 1 ≤ 3 by omega)) (hg.inStr.trans hs) (by omega) (by simp)
  have hlt : view l ≠ [] → size (getchar l).2 < size l := fun hv => hg.less (fun h0 => hv ((get_zero_iff h hs).mp h0))
  have h1 := a.le
  have h2 := hg.le
  unfold doRegex
  simp only []
  cases (regexLoop (size (getchar l).2 + 1) [(getchar l).1] 8192 (getchar l).2).1 with
  | none => exact ⟨⟨a.inv, a.inStr, by om⟩, fun hv => by have := hlt hv; om, by simp⟩
  | some s => exact ⟨⟨a.inv, a.inStr, by om⟩, fun hv => by have := hlt hv; om, by simp⟩

theorem eatComment_step (f : Nat) : ∀ {n : Nat} {K : Int} {l : L}, Inv n K l → l.inStr = false → n < 99 → Step n K l (eatComment f l) := by
  induction f with
  | zero => intro n K l h hs _; exact ⟨h, hs, Nat.le_refl _⟩
  | succ f ih =>
    intro n K l h hs hn
    have hg := get_spec h
    have hgi := hg.inv.mono (show n - 1 ≤ n by omega)
    have hgle := hg.le
    have hgs := hg.inStr.trans hs
    rw [eatComment]
    simp only []
    split
    · exact ⟨hgi, hgs, hgle⟩
    · split
      · have hm := get_spec hgi
        have hmle := hm.le
        split
        · exact ⟨hm.inv.mono (by omega), hm.inStr.trans hgs, by om⟩
        · obtain ⟨a, b, c, _⟩ := unget_get_inv hgi hn
          have i := ih a (b.trans hgs) hn
          have := i.le
          exact ⟨i.inv, i.inStr, by om⟩
      · have i := ih hgi hgs hn
        have := i.le
        exact ⟨i.inv, i.inStr, by om⟩

theorem eatLine_step (f : Nat) : ∀ {n : Nat} {K : Int} {l : L}, Inv n K l → l.inStr = false → Step n K l (eatLine f l) := by
  induction f with
  | zero => intro n K l h hs; exact ⟨h, hs, Nat.le_refl _⟩
  | succ f ih =>
    intro n K l h hs
    have hg := get_spec h
    have hgi := hg.inv.mono (show n - 1 ≤ n by omega)
    have hgle := hg.le
    have hgs := hg.inStr.trans hs
    rw [eatLine]
    split
    · exact ⟨hgi, hgs, hgle⟩
    · have i := ih hgi hgs
      have := i.le
      exact ⟨i.inv, i.inStr, by om⟩

/-- White space is passed over: the state before the character that is returned. -/
theorem skipWs_spec (f : Nat) : ∀ {n : Nat} {K : Int} {l : L}, Inv n K l → l.inStr = false →
    ∃ m, Step n K l m ∧ skipWs f l = getchar m ∧ (size l ≤ f → ¬ ((getchar m).1 = 32 ∨ (getchar m).1 = 9 ∨ (getchar m).1 = 10 ∨ (getchar m).1 = 13)) := by
  induction f with
  | zero =>
    intro n K l h hs
    refine ⟨l, ⟨h, hs, Nat.le_refl _⟩, rfl, ?_⟩
    intro hz
    have hv : view l = [] := List.length_eq_zero_iff.mp (by rw [← size_view]; omega)
    rw [(get_zero_iff h hs).mpr hv]; decide
  | succ f ih =>
    intro n K l h hs
    have hg := get_spec h
    rw [skipWs]
    split
    · next hc =>
      obtain ⟨m, i, e, w⟩ := ih (hg.inv.mono (show n - 1 ≤ n by omega)) (hg.inStr.trans hs)
      have hle := hg.le
      have := i.le
      refine ⟨m, ⟨i.inv, i.inStr, by om⟩, e, fun hz => w ?_⟩
      have := hg.less (by rcases hc with hc | hc | hc | hc <;> rw [hc] <;> decide)
      omega
    · next hc => exact ⟨l, ⟨h, hs, Nat.le_refl _⟩, rfl, fun _ => hc⟩

theorem numLoop_step (f : Nat) : ∀ {n : Nat} {K : Int} {l : L} (w : List UInt8) (b : Bool) (d : Nat) (p : UInt8), Inv n K l → l.inStr = false →
    n < 99 → Step n K l (numLoop f w b d p l).2 := by
  induction f with
  | zero => intro n K l w b d p h hs _; exact ⟨h, hs, Nat.le_refl _⟩
  | succ f ih =>
    intro n K l w b d p h hs hn
    have hg := get_spec h
    rw [numLoop]
    split
    · have i := ih (w ++ [(getchar l).1]) (b || (getchar l).1 = 88 || (getchar l).1 = 120) (if isxdigit (getchar l).1 then d + 1 else d) (getchar l).1 (hg.inv.mono (show n - 1 ≤ n by omega)) (hg.inStr.trans hs) hn
      have := i.le
      have := hg.le
      exact ⟨i.inv, i.inStr, by om⟩
    · obtain ⟨a, b, c, _⟩ := unget_get_inv h hn
      exact ⟨a, b.trans hs, c⟩

/-- The characters of a word, and pushing back the last character read. -/
theorem wordLoop_step (f : Nat) : ∀ {n : Nat} {K : Int} {l : L} (w : List UInt8) (c : UInt8), Inv n K l → l.inStr = false → n < 99 →
    1 ≤ n → (f = 0 → Inv (n - 1) K l ∧ c ≠ 0 ∧ c ≠ 10 ∧ (l.before.head? = some 10 ∨ l.unch = [] ∧ l.before.head? = some c)) →
    Inv n K (ungetc (wordLoop f w c l).2.1 (wordLoop f w c l).2.2) ∧
    (ungetc (wordLoop f w c l).2.1 (wordLoop f w c l).2.2).inStr = false ∧
    (f ≠ 0 → size (ungetc (wordLoop f w c l).2.1 (wordLoop f w c l).2.2) ≤ size l) ∧
    size (ungetc (wordLoop f w c l).2.1 (wordLoop f w c l).2.2) ≤ size l + 1 := by
  induction f with
  | zero =>
    intro n K l w c h hs hn h1 hz
    obtain ⟨a, b, d, e⟩ := hz rfl
    rw [wordLoop]
    have hu := unget_view (l := l) c b (by have := h.len; omega)
    have hi := unget_inv a b d (by omega) e
    rw [Nat.sub_add_cancel h1] at hi
    refine ⟨hi, hu.2.1.trans hs, by simp, ?_⟩
    simp only []
    rw [size_view, hu.1, size_view]; simp
  | succ f ih =>
    intro n K l w c h hs hn h1 _
    have hg := get_spec h
    rw [wordLoop]
    split
    · next hc =>
      have hc0 : (getchar l).1 ≠ 0 := by intro e; rw [e] at hc; exact absurd hc (by decide)
      have hc1 : (getchar l).1 ≠ 10 := by intro e; rw [e] at hc; exact absurd hc (by decide)
      obtain ⟨a, b, d, e⟩ := ih (w ++ [(getchar l).1]) (getchar l).1 (hg.inv.mono (show n - 1 ≤ n by omega)) (hg.inStr.trans hs) hn h1
        (fun _ => ⟨hg.inv, hc0, hc1, hg.src hc0⟩)
      have := hg.less hc0
      exact ⟨a, b, fun _ => by omega, by omega⟩
    · obtain ⟨a, b, c, _⟩ := unget_get_inv h hn
      exact ⟨a, b.trans hs, fun _ => c, by om⟩

theorem doWord_step {K : Int} {l : L} (c : UInt8) (h : Inv 3 K l) (hs : l.inStr = false) (hc : wordChar (getchar l).1 = true) :
    Step 3 K l (doWord c l).2 ∧ size (doWord c l).2 < size l ∧ (doWord c l).1 ≠ .eof ∧ (doWord c l).1 ≠ .error := by
  have hg := get_spec h
  have hc0 : (getchar l).1 ≠ 0 := by intro e; rw [e] at hc; exact absurd hc (by decide)
  have hw : wordLoop 1020 [] c l = wordLoop 1019 [(getchar l).1] (getchar l).1 (getchar l).2 := by
    rw [wordLoop, if_pos hc]; rfl
  obtain ⟨a, b, d, e⟩ := wordLoop_step 1019 [(getchar l).1] (getchar l).1 (hg.inv.mono (show 3 - 1 ≤ 3 by omega)) (hg.inStr.trans hs)
    (by omega) (by omega) (by omega)
  have hlt := hg.less hc0
  have hd := d (by decide)
  unfold doWord
  rw [hw]
  simp only []
  refine ⟨⟨a, b, by omega⟩, by omega, ?_, ?_⟩ <;> split <;> simp

theorem intTok_ne (b : Nat) (w : List UInt8) : intTok b w ≠ .eof := by
  unfold intTok
  cases strtoll b w <;> simp

theorem numTok_ne (sd : List UInt8 → Bool) (w : List UInt8) (b : Bool) (d : Nat) : numTok sd w b d ≠ .eof := by
  unfold numTok
  split
  · exact intTok_ne _ _
  · split
    · exact intTok_ne _ _
    · split <;> simp

theorem doNumber_step (sd : List UInt8 → Bool) {n : Nat} {K : Int} {l : L} (w : List UInt8) (c : UInt8) (h : Inv n K l) (hs : l.inStr = false)
    (hn : n < 99) : Step n K l (doNumber sd w c l).2 ∧ (doNumber sd w c l).1 ≠ .eof := by
  unfold doNumber
  exact ⟨numLoop_step _ _ _ _ _ h hs hn, numTok_ne _ _ _ _⟩

/-- What one call does: it stays inside of the arrays, and reads something unless it is at the end of the text. -/
theorem yylex1_step (sd : List UInt8 → Bool) (last : Tok) {K : Int} {l : L} (h : Inv 3 K l) (hs : l.inStr = false) :
    Step 3 K l (yylex1 sd last l).2 ∧
    ((yylex1 sd last l).1.2 ≠ .eof → size (yylex1 sd last l).2 < size l) ∧
    ((yylex1 sd last l).1.2 = .eof → view (yylex1 sd last l).2 = []) := by
  obtain ⟨m, hm, he, hw⟩ := skipWs_spec (size l) h hs
  have hws := hw (Nat.le_refl _)
  have hg := get_spec hm.inv
  have hgs := hg.inStr.trans hm.inStr
  have hle := hm.le
  have hgle := hg.le
  unfold yylex1
  rw [he]
  simp only []
  -- the end of the text
  by_cases h0 : (getchar m).1 = 0
  · have hp : point (getchar m).1 (getchar m).2 = ([], 0, (getchar m).2) := by rw [point, h0]; rfl
    have hv := hg.zero h0
    have hun : ungetc 0 (getchar m).2 = (getchar m).2 := by rw [ungetc, if_pos rfl]
    rw [hp]
    simp only []
    rw [if_neg (by decide), if_neg (by decide), if_neg (by simp [isalpha, isupper, islower]), if_neg (by decide), hun]
    obtain ⟨a, b, c, d⟩ := doSign_step (hg.inv.mono (show 3 - 1 ≤ 3 by omega)) hgs
    have hz := a.le
    have hvs : size (getchar m).2 = 0 := by rw [size_view, hv]; rfl
    have hv2 : view (doSign (getchar m).2).2 = [] := by
      apply List.length_eq_zero_iff.mp; rw [← size_view]; omega
    refine ⟨⟨a.inv, a.inStr, by om⟩, ?_, fun _ => hv2⟩
    intro hne
    exfalso; apply hne
    unfold doSign
    have : readSign 4 (getchar m).2 = ([], (getchar (getchar m).2).2) := by
      rw [readSign]
      have := (get_zero_iff hg.inv hgs).mpr hv
      simp [this]
    rw [this]
  have hlt := hg.less h0
  have h10 : (getchar m).1 ≠ 10 := fun e => hws (by simp [e])
  -- a point
  have hpt : ∃ c l1 w, point (getchar m).1 (getchar m).2 = (w, c, l1) ∧ Inv 2 K l1 ∧ l1.inStr = false ∧ size l1 < size l ∧
      ((isdigit c = false ∧ c ≠ 0 ∧ c ≠ 10 ∧ (l1.before.head? = some 10 ∨ l1.unch = [] ∧ l1.before.head? = some c)) ∨ isdigit c = true) := by
    unfold point
    by_cases hp : (getchar m).1 = 46
    · rw [if_pos hp]
      simp only []
      have hg2 := get_spec hg.inv
      by_cases hd : isdigit (getchar (getchar m).2).1 = true
      · rw [if_pos hd]
        exact ⟨_, _, _, rfl, hg2.inv.mono (by omega), hg2.inStr.trans hgs, by have := hg2.le; omega, Or.inr hd⟩
      · rw [if_neg hd]
        obtain ⟨a, b, c, d, e⟩ := unget_get_inv hg.inv (by omega)
        refine ⟨_, _, _, rfl, a, b.trans hgs, by omega, Or.inl ⟨by rw [hp]; decide, h0, h10, ?_⟩⟩
        exact unget_get_src hg.inv hgs (by omega) (hg.src h0)
    · rw [if_neg hp]
      refine ⟨_, _, _, rfl, hg.inv, hgs, by omega, ?_⟩
      cases hd : isdigit (getchar m).1 with
      | true => exact Or.inr rfl
      | false => exact Or.inl ⟨rfl, h0, h10, hg.src h0⟩
  obtain ⟨c, l1, w, ep, i1, s1, z1, hc⟩ := hpt
  rw [ep]
  simp only []
  cases hd : isdigit c with
  | true =>
    simp only [if_true]
    obtain ⟨a, b⟩ := doNumber_step sd w c i1 s1 (by omega)
    have := a.le
    exact ⟨⟨a.inv.mono (by omega), a.inStr, by omega⟩, fun _ => by omega, fun e => absurd e b⟩
  | false =>
    simp only [Bool.false_eq_true, if_false]
    rw [hd] at hc
    obtain ⟨_, hc0, hc10, hsrc⟩ := hc.resolve_right (by simp)
    -- the character is pushed back
    have back : ∀ l2 : L, Inv 2 K l2 → l2.inStr = false → size l2 < size l → (l2.before.head? = some 10 ∨ l2.unch = [] ∧ l2.before.head? = some c) →
        Inv 3 K (ungetc c l2) ∧ (ungetc c l2).inStr = false ∧ size (ungetc c l2) ≤ size l ∧ view (ungetc c l2) = c :: view l2 := by
      intro l2 j1 j2 j3 j4
      have hu := unget_view (l := l2) c hc0 (by have := j1.len; omega)
      refine ⟨unget_inv j1 hc0 hc10 (by omega) j4, hu.2.1.trans j2, ?_, hu.1⟩
      rw [size_view, hu.1]; rw [size_view] at j3; simp; omega
    have sign : ∀ l2 : L, Inv 2 K l2 → l2.inStr = false → size l2 < size l → (l2.before.head? = some 10 ∨ l2.unch = [] ∧ l2.before.head? = some c) →
        Step 3 K l (doSign (ungetc c l2)).2 ∧ ((doSign (ungetc c l2)).1 ≠ .eof → size (doSign (ungetc c l2)).2 < size l) ∧
        ((doSign (ungetc c l2)).1 = .eof → view (doSign (ungetc c l2)).2 = []) := by
      intro l2 j1 j2 j3 j4
      obtain ⟨k1, k2, k3, k4⟩ := back l2 j1 j2 j3 j4
      obtain ⟨a, b, d, e⟩ := doSign_step k1 k2
      have hlt2 := b (by rw [k4]; simp) (by rw [k4]; simpa using hc10)
      refine ⟨⟨a.inv, a.inStr, by omega⟩, fun _ => by omega, ?_⟩
      intro he
      have := d he
      rw [k4] at this
      simp [hc10] at this
    split
    · obtain ⟨k1, k2, k3, k4⟩ := back l1 i1 s1 z1 hsrc
      obtain ⟨a, b, d⟩ := doString_step k1
      have hlt2 := b (by rw [k4]; simp)
      exact ⟨⟨a.inv, a.inStr, by om⟩, fun _ => by om, fun e => absurd e d⟩
    · split
      · next hq hal =>
        obtain ⟨k1, k2, k3, k4⟩ := back l1 i1 s1 z1 hsrc
        have hch : (getchar (ungetc c l1)).1 = c := by
          rcases get_cases k2 with ⟨hv, _⟩ | ⟨x, t, hv, e, _⟩
          · rw [k4] at hv; cases hv
          · rw [k4] at hv; injection hv with hv _; rw [e, hv]
        obtain ⟨a, b, d, _⟩ := doWord_step c k1 k2 (by
          rw [hch]; unfold wordChar isalnum
          revert hal; simp only [Bool.or_eq_true]
          rintro ((h | h) | h)
          · left; left; left; exact h
          · left; right; exact h
          · right; exact h)
        exact ⟨⟨a.inv, a.inStr, by om⟩, fun _ => by om, fun e => absurd e d⟩
      · split
        · next hc47 =>
          have hg2 := get_spec i1
          have hg2s := hg2.inStr.trans s1
          have hg2le := hg2.le
          have hg2i := hg2.inv.mono (show 2 - 1 ≤ 3 by omega)
          split
          · have i := eatLine_step (size (getchar l1).2 + 1) hg2i hg2s
            have := i.le
            exact ⟨⟨i.inv, i.inStr, by om⟩, fun _ => by om, by simp⟩
          · split
            · have i := eatComment_step (size (getchar l1).2 + 1) hg2i hg2s (by omega)
              have := i.le
              exact ⟨⟨i.inv, i.inStr, by om⟩, fun _ => by om, by simp⟩
            · obtain ⟨u1, u2, u3, _⟩ := unget_get_inv i1 (by omega)
              have usrc := unget_get_src i1 s1 (by omega) hsrc
              split
              · obtain ⟨k1, k2, k3, k4⟩ := back _ u1 (u2.trans s1) (by omega) usrc
                obtain ⟨a, b, d⟩ := doRegex_step k1 k2
                have hlt2 := b (by rw [k4]; simp)
                exact ⟨⟨a.inv, a.inStr, by om⟩, fun _ => by om, fun e => absurd e d⟩
              · exact sign _ u1 (u2.trans s1) (by omega) usrc
        · exact sign l1 i1 s1 z1 hsrc

/-- All comments are passed over, `n` bounds their number. -/
theorem yylex_step (sd : List UInt8 → Bool) (last : Tok) (n : Nat) : ∀ {K : Int} {l : L}, Inv 3 K l → l.inStr = false →
    Step 3 K l (yylex sd last n l).2 ∧
    ((yylex sd last n l).1.2 ≠ .eof → size (yylex sd last n l).2 < size l) ∧
    ((yylex sd last n l).1.2 = .eof → view (yylex sd last n l).2 = []) ∧
    (size l < n → isComment (yylex sd last n l).1.2 = false) := by
  induction n with
  | zero =>
    intro K l h hs
    obtain ⟨a, b, c⟩ := yylex1_step sd last h hs
    exact ⟨a, b, c, by omega⟩
  | succ n ih =>
    intro K l h hs
    obtain ⟨a, b, c⟩ := yylex1_step sd last h hs
    rw [yylex]
    split
    · next hc =>
      obtain ⟨d, e, f, g⟩ := ih a.inv a.inStr
      have hne : (yylex1 sd last l).1.2 ≠ .eof := by intro e; rw [e] at hc; exact absurd hc (by decide)
      have hlt := b hne
      have hle := d.le
      exact ⟨⟨d.inv, d.inStr, by omega⟩, fun h => by omega, f, fun h => g (by omega)⟩
    · next hc => exact ⟨a, b, c, fun _ => by simpa using hc⟩

/-- All tokens. -/
theorem lexF_step (sd : List UInt8 → Bool) (n : Nat) : ∀ {K : Int} {l : L} (last : Tok), Inv 3 K l → l.inStr = false →
    Step 3 K l (lexF sd n last l).2 ∧
    (size l < n → ∃ ts t, (lexF sd n last l).1 = ts ++ [t] ∧ isEnd t.2 = true ∧ (∀ x ∈ ts, isEnd x.2 = false ∧ isComment x.2 = false) ∧
      (t.2 = .eof → view (lexF sd n last l).2 = [])) := by
  induction n with
  | zero => intro K l last h hs; exact ⟨⟨h, hs, Nat.le_refl _⟩, by omega⟩
  | succ n ih =>
    intro K l last h hs
    obtain ⟨a, b, c, d⟩ := yylex_step sd last (size l + 1) h hs
    rw [lexF]
    split
    · next he => exact ⟨a, fun _ => ⟨[], _, rfl, he, by simp, c⟩⟩
    · next he =>
      obtain ⟨e, f⟩ := ih (yylex sd last (size l + 1) l).1.2 a.inv a.inStr
      have hle := a.le
      have hle2 := e.le
      refine ⟨⟨e.inv, e.inStr, by om⟩, fun hn => ?_⟩
      have hlt := b (by intro e; rw [e] at he; exact he rfl)
      obtain ⟨ts, t, g1, g2, g3, g4⟩ := f (by omega)
      refine ⟨(yylex sd last (size l + 1) l).1 :: ts, t, by simp only [g1]; rfl, g2, ?_, g4⟩
      intro x hx
      rcases List.mem_cons.mp hx with hx | hx
      · rw [hx]; exact ⟨by simpa using he, d (by omega)⟩
      · exact g3 x hx

end Verif.Lex
