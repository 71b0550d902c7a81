import Verif.Lex.Props
/-! The properties C64 to C68 of the lexer. -/
namespace Verif.Lex

/-! ### C64: a token is read to its end, whatever follows -/

theorem newlines_nl (s : List UInt8) : (newlines s : Int) = nl s := rfl

/-- C64.  Blanks and comments, then a token, then any text that does not go on with the token: the first token read is that one, and it gets the
line it is on. -/
theorem C64_first_token_partial (sd : List UInt8 → Bool) (hsd : StrtodOk sd) {s r : List UInt8} {tk : STok} (h0 : 0 ∉ s ++ (tk.text ++ r))
    (hs : Sep s) (hok : tk.Ok .eof) (hf : tk.Fits r) :
    (lexAll sd (s ++ (tk.text ++ r))).1.head? = some (1 + (newlines s : Int), tk.val) := by
  have hat := (at_init _ h0).mono (show 0 ≤ 3 by omega)
  obtain ⟨l', h1, h2⟩ := yylex_sep sd .eof hs hat
  obtain ⟨h3, _⟩ := yylex1_tok sd hsd .eof hok hf h1
  obtain ⟨he, hc⟩ := tok_val hok
  obtain ⟨⟨c, t, hct, hcb⟩, _⟩ := tok_ends hok
  have hline : (yylex1 sd .eof l').1.1 = 1 + (newlines s : Int) := by
    have h1' : At false 3 (1 + nl (s ++ (tk.text ++ r))) l' (c :: (t ++ r)) := by rw [hct] at h1 ⊢; exact h1
    rw [yylex1_line_at sd .eof hcb h1', hct]
    simp only [newlines_nl, nl_append, List.cons_append]
    omega
  have hy : yylex sd .eof (size (init (s ++ (tk.text ++ r))) + 1) (init (s ++ (tk.text ++ r))) = yylex1 sd .eof l' := by
    rw [h2]; exact yylex_of _ _ _ (by rw [h3]; exact hc)
  unfold lexAll
  rw [lexF]
  simp only [hy, h3, he]
  simp only [Bool.false_eq_true, if_false, List.head?_cons, Option.some.injEq]
  exact Prod.ext hline h3

/-- `/* */ abc-` -/
example : (lexAll plainNumber (asc "/*\n*/ abc-1")).1.head? = some (2, .ident (asc "abc")) :=
  C64_first_token_partial plainNumber plainNumber_ok (s := asc "/*\n*/ ") (r := asc "-1") (tk := .word (asc "abc")) (by decide +kernel)
    (Sep.block [10] [32] (by decide) (Sep.blank 32 [] (by decide) Sep.nil))
    ⟨⟨97, by decide, by decide⟩, by decide, by decide⟩ (fits_cons (by decide))

/-- C64, names: the longest run of name characters. -/
theorem C64_name_partial (sd : List UInt8 → Bool) (hsd : StrtodOk sd) {c : UInt8} {t : List UInt8} (h0 : 0 ∉ c :: t) (hc : NameStart c)
    (hlen : (t.takeWhile (fun x => decide (NameChar x))).length < 1019) :
    (lexAll sd (c :: t)).1.head? =
      some (1, (STok.word (c :: t.takeWhile (fun x => decide (NameChar x)))).val) := by
  have e : c :: t = [] ++ ((STok.word (c :: t.takeWhile (fun x => decide (NameChar x)))).text ++ t.dropWhile (fun x => decide (NameChar x))) := by
    simp [STok.text, List.takeWhile_append_dropWhile]
  have := C64_first_token_partial sd hsd (s := []) (r := t.dropWhile (fun x => decide (NameChar x)))
    (tk := .word (c :: t.takeWhile (fun x => decide (NameChar x)))) (by rw [← e]; exact h0) Sep.nil
    ⟨⟨c, rfl, hc⟩, by
      intro x hx
      rcases List.mem_cons.mp hx with e | hx
      · rw [e]; exact Or.inl hc
      · have : ∀ (u : List UInt8), ∀ y ∈ u.takeWhile (fun x => decide (NameChar x)), NameChar y := by
          intro u
          induction u with
          | nil => simp
          | cons a u ih =>
            intro y hy
            rw [List.takeWhile_cons] at hy
            split at hy
            · next ha =>
              rcases List.mem_cons.mp hy with e | hy
              · rw [e]; simpa using ha
              · exact ih y hy
            · simp at hy
        exact this t x hx, by simp; omega⟩
    (by
      intro d hd
      have := List.head?_dropWhile_not (fun x => decide (NameChar x)) t
      rw [hd] at this
      show ¬ NameChar d
      simpa using this)
  rw [← e] at this
  exact this

theorem operators_closed : ∀ o ∈ operators, ∀ k, 2 ≤ k → k ≤ (asc o).length → ∃ o' ∈ operators, asc o' = (asc o).take k := by
  have h : ∀ o ∈ operators, ∀ k ∈ [2, 3, 4], k ≤ (asc o).length → ∃ o' ∈ operators, asc o' = (asc o).take k := by decide +kernel
  have hl : ∀ o ∈ operators, (asc o).length ≤ 4 := by decide +kernel
  intro o ho k h2 hk
  refine h o ho k ?_ hk
  have := hl o ho
  simp; omega

/-- C64, operators: the longest operator the text begins with. -/
theorem C64_operator_partial (sd : List UInt8 → Bool) (hsd : StrtodOk sd) {text : List UInt8} (h0 : 0 ∉ text) {o : String} (ho : o ∈ operators)
    (hp : asc o <+: text) (hlong : ∀ o' ∈ operators, asc o' <+: text → (asc o').length ≤ (asc o).length) (hdiv : o ≠ "/=") :
    (lexAll sd text).1.head? = some (1, .op (asc o)) := by
  obtain ⟨r, rfl⟩ := hp
  refine C64_first_token_partial sd hsd (s := []) (r := r) (tk := .op o) h0 Sep.nil ⟨ho, fun e => absurd e hdiv⟩ ?_
  rintro d hd ⟨o', ho', hp'⟩
  have h2 : 2 ≤ (asc o).length := (sign_facts _ (operators_signs o ho)).2.1
  obtain ⟨u, hu⟩ := hp'
  have hlen : (asc o).length + 1 ≤ (asc o').length := by rw [← hu]; simp
  obtain ⟨o2, ho2, e⟩ := operators_closed o' ho' ((asc o).length + 1) (by omega) hlen
  have ht : (asc o').take ((asc o).length + 1) = asc o ++ [d] := by
    rw [← hu]
    rw [List.append_assoc, List.take_append, List.take_of_length_le (Nat.le_succ _)]
    simp
  have := hlong o2 ho2 (by
    rw [e, ht]
    cases r with
    | nil => simp at hd
    | cons x r => simp at hd; subst hd; exact ⟨r, by simp⟩)
  rw [e, ht] at this
  rw [List.length_append, List.length_singleton] at this
  omega

/-- `>>>=1` -/
example : (lexAll plainNumber (asc ">>>=1")).1.head? = some (1, .op (asc ">>>=")) :=
  C64_operator_partial plainNumber plainNumber_ok (by decide +kernel) (o := ">>>=") (by decide) (by decide +kernel) (by decide +kernel) (by decide)

/-! ### C65: string literals -/

theorem ptext_nz {q : UInt8} {ps : List Piece} (hok : ∀ p ∈ ps, p.Ok q) : 0 ∉ ptext ps := by
  have hx : ∀ c : UInt8, Json.IsHex c → (0 : UInt8) ≠ c := by
    rintro c h rfl; exact absurd h (by decide)
  intro hm
  unfold ptext at hm
  rw [List.mem_flatMap] at hm
  obtain ⟨p, hp, hm⟩ := hm
  have := hok p hp
  cases p with
  | raw c => simp [Piece.text] at hm; exact this.2.2.1 hm.symm
  | esc c => simp [Piece.text] at hm; exact this.2.2.2.2.2.1 hm.symm
  | uni a b c d =>
    obtain ⟨h1, h2, h3, h4, _⟩ := this
    simp [Piece.text] at hm
    rcases hm with e | e | e | e
    · exact hx a h1 e
    · exact hx b h2 e
    · exact hx c h3 e
    · exact hx d h4 e

/-- C65.  A string between quotes is what its characters and escapes stand for, whatever follows it. -/
theorem C65_string_partial (sd : List UInt8 → Bool) (hsd : StrtodOk sd) {q : UInt8} (hq : Quote q) {ps : List Piece} (hok : ∀ p ∈ ps, p.Ok q)
    {r : List UInt8} (h0 : 0 ∉ r) : (lexAll sd (q :: (ptext ps ++ q :: r))).1.head? = some (1, .str (pval ps)) := by
  have hq0 : (0 : UInt8) ≠ q := by rcases hq with e | e | e <;> rw [e] <;> decide
  have := C64_first_token_partial sd hsd (s := []) (tk := .str q ps) (r := r)
    (by simp [STok.text, hq0, ptext_nz hok, h0]) Sep.nil ⟨hq, hok⟩ (fun _ _ h => h)
  simpa [STok.text, STok.val, newlines] using this

/-- `"a\tb\u00e9"` -/
example : (lexAll plainNumber (asc "\"a\\tb\\u00e9\" + 1")).1.head? = some (1, .str [97, 9, 98, 0xc3, 0xa9]) :=
  C65_string_partial plainNumber plainNumber_ok (q := 34) (by decide) (ps := [.raw 97, .esc 116, .raw 98, .uni 48 48 101 57])
    (by simp only [List.mem_cons, List.not_mem_nil, or_false, forall_eq_or_imp, forall_eq, Piece.Ok]; decide +kernel) (r := asc " + 1") (by decide +kernel)

/-- A text as a string in double quotes. -/
def quoteByte (c : UInt8) : List UInt8 := if c = 34 ∨ c = 92 then [92, c] else if c = 0 then [92, 48] else [c]
def quoted (s : List UInt8) : List UInt8 := 34 :: (s.flatMap quoteByte ++ [34])

/-- C65.  Every text without the byte 0xFF, put in quotes, is read back. -/
theorem C65_quote_roundtrip_partial (sd : List UInt8 → Bool) (hsd : StrtodOk sd) (s : List UInt8) (h255 : 255 ∉ s) {r : List UInt8} (h0 : 0 ∉ r) :
    (lexAll sd (quoted s ++ r)).1.head? = some (1, .str s) := by
  let pc : UInt8 → Piece := fun c => if c = 34 ∨ c = 92 then .esc c else if c = 0 then .esc 48 else .raw c
  have ht : ∀ c, (pc c).text = quoteByte c := by
    intro c
    simp only [pc, quoteByte]
    split
    · rfl
    · split <;> rfl
  have hv : ∀ c, (pc c).val = [c] := by
    intro c
    simp only [pc]
    split
    · next h => rcases h with e | e <;> subst e <;> decide
    · split
      · next h => subst h; decide
      · rfl
  have hok : ∀ p ∈ s.map pc, p.Ok 34 := by
    intro p hp
    obtain ⟨c, hc, rfl⟩ := List.mem_map.mp hp
    simp only [pc]
    split
    · next h => rcases h with e | e <;> subst e <;> (unfold Piece.Ok; decide)
    · next h =>
      split
      · unfold Piece.Ok; decide
      · next h' => exact ⟨fun e => h (Or.inl e), fun e => h (Or.inr e), h', fun e => h255 (e ▸ hc)⟩
  have := C65_string_partial sd hsd (q := 34) (by decide) hok (r := r) h0
  have e1 : ptext (s.map pc) = s.flatMap quoteByte := by
    unfold ptext; rw [List.flatMap_map]; congr 1; funext c; exact ht c
  have e2 : pval (s.map pc) = s := by
    unfold pval; rw [List.flatMap_map]
    have : (fun a => Piece.val (pc a)) = fun a => [a] := by funext c; exact hv c
    rw [this]
    exact List.flatMap_singleton' s
  rw [e1, e2] at this
  simpa [quoted] using this

/-- C65 is wrong for the byte 0xFF, which ends the text. -/
theorem C65_ff_refuted : tokens plainNumber [34, 97, 255, 34] = [.error] := by decide +kernel
/-- C65 is wrong for a backslash before a newline: the newline stays in the string. -/
theorem C65_continuation_refuted : tokens plainNumber (asc "'a\\\nb'") = [.str (asc "a\nb"), .eof] := by decide +kernel
/-- C65 is wrong for `\xXX`. -/
theorem C65_hex_escape_refuted : tokens plainNumber (asc "'\\x41'") = [.str (asc "x41"), .eof] := by decide +kernel
/-- C65 is wrong for `\v`. -/
theorem C65_vtab_refuted : tokens plainNumber (asc "'\\v'") = [.str (asc "v"), .eof] := by decide +kernel
/-- C65 is wrong for surrogates: the halves are not put together (U+1F600 is `F0 9F 98 80`). -/
theorem C65_surrogates_refuted : tokens plainNumber (asc "'\\ud83d\\ude00'") ≠ [.str [0xf0, 0x9f, 0x98, 0x80], .eof] := by decide +kernel

/-! ### C66: the lexer is safe -/

/-- C66.  Whatever the text is, no array is left, the lexer comes to an end, and no token is the end but the last. -/
theorem C66_safe (sd : List UInt8 → Bool) (text : List UInt8) (h0 : 0 ∉ text) :
    (lexAll sd text).2.oob = false ∧
    ∃ ts t, (lexAll sd text).1 = ts ++ [t] ∧ isEnd t.2 = true ∧ (∀ x ∈ ts, isEnd x.2 = false ∧ isComment x.2 = false) ∧ ts.length ≤ text.length := by
  have hi := (inv_init text h0).mono (show 0 ≤ 3 by omega)
  obtain ⟨a, b⟩ := lexF_step sd (text.length + 1) .eof hi rfl
  obtain ⟨ts, t, h1, h2, h3, _⟩ := b (by simp [size, init])
  refine ⟨a.inv.oob, ts, t, h1, h2, h3, ?_⟩
  have : ∀ n last l, (lexF sd n last l).1.length ≤ n := by
    intro n
    induction n with
    | zero => intro last l; simp [lexF]
    | succ n ih =>
      intro last l
      rw [lexF]
      simp only []
      split
      · simp
      · simp only [List.length_cons]; have := ih (yylex sd last (size l + 1) l).1.2 (yylex sd last (size l + 1) l).2; omega
  have := this (text.length + 1) .eof (init text)
  rw [h1] at this
  simp at this
  exact this

/-- C66.  The bounds of the model's loops play no role: more steps give the same. -/
theorem C66_no_bound (sd : List UInt8 → Bool) (text : List UInt8) (h0 : 0 ∉ text) (n : Nat) (hn : text.length < n) :
    lexF sd n .eof (init text) = lexAll sd text := by
  have hi := (inv_init text h0).mono (show 0 ≤ 3 by omega)
  exact lexF_fuel sd n (text.length + 1) .eof hi rfl (by simp [size, init]; omega) (by simp [size, init])

/-- C66.  Reading a character: nor does the bound of its recursion. -/
theorem C66_getchar_fuel (l : L) (f : Nat) (h : l.unch.length < f) : getcharF f l = getchar l :=
  getcharF_fuel f _ l h (by omega)

/-- A string that is not closed behind a sign. -/
example : (lexAll plainNumber (asc "a=>>'\\\n")).2.oob = false ∧ tokens plainNumber (asc "a=>>'\\\n") =
    [.ident [97], .op (asc "=>"), .char 62, .error] := by decide +kernel

/-! ### C67: nothing is ignored -/

/-- C67, for ASCII.  If the parser is told that the text has come to its end, or finds nothing more, then all of the text has been read,
or there was an error. -/
theorem C67_all_read_partial (sd : List UInt8 → Bool) (text : List UInt8) (h0 : 0 ∉ text) (ha : ∀ c ∈ text, c < 128) :
    ∃ ts t, (lexAll sd text).1 = ts ++ [t] ∧
      (t.2 = .error ∨ (t.2 = .eof ∧ (lexAll sd text).2.unch = [] ∧ (lexAll sd text).2.rest = [])) := by
  have hi := (inv_init text h0).mono (show 0 ≤ 3 by omega)
  obtain ⟨a, b⟩ := lexF_step sd (text.length + 1) .eof hi rfl
  obtain ⟨ts, t, h1, h2, h3, h4⟩ := b (by simp [size, init])
  refine ⟨ts, t, h1, ?_⟩
  have hw := lexF_w (X := fun c => c < 128) (by decide) sd (text.length + 1) (l := init text) .eof ⟨by simp [init], ha⟩ t (by
    rw [h1]; simp)
  cases ht : t.2 with
  | eof =>
    right
    have := h4 ht
    unfold view at this
    refine ⟨rfl, ?_⟩
    unfold lexAll
    simpa using this
  | error => left; rfl
  | char c =>
    exfalso
    have hc := hw c ht
    rw [ht] at h2
    simp only [isEnd, decide_eq_true_eq] at h2
    have := UInt8.lt_of_lt_of_le hc h2
    exact UInt8.lt_irrefl _ this
  | comment => rw [ht] at h2; simp [isEnd] at h2
  | num v => rw [ht] at h2; simp [isEnd] at h2
  | str s => rw [ht] at h2; simp [isEnd] at h2
  | kw n => rw [ht] at h2; simp [isEnd] at h2
  | ident n => rw [ht] at h2; simp [isEnd] at h2
  | regex s => rw [ht] at h2; simp [isEnd] at h2
  | op s => rw [ht] at h2; simp [isEnd] at h2

example : (lexAll plainNumber (asc "x=1;y")).2.rest = [] ∧ tokens plainNumber (asc "x=1;y") =
    [.ident [120], .char 61, .num (.real [49]), .char 59, .ident [121], .eof] := by decide +kernel

/-- The number the parser gets for a character: `char` is signed. -/
def code (c : UInt8) : Int := if c < 128 then c.toNat else (c.toNat : Int) - 256

/-- C67 is wrong for other texts: a byte from 128 on outside of strings and comments is taken for the end, and the rest is ignored. -/
theorem C67_high_byte_refuted : tokens plainNumber ([97, 59, 0xe9, 59, 98]) = [.ident [97], .char 59, .char 0xe9] ∧ isEnd (.char 0xe9) = true ∧
    code 0xe9 < 0 := by decide +kernel

/-- C67 is wrong for the byte 128: it is taken for a comment. -/
theorem C67_comment_byte_refuted : tokens plainNumber ([97, 128, 98]) = [.ident [97], .ident [98], .eof] := by decide +kernel

/-! ### C68: lines -/

theorem script_lines (sd : List UInt8 → Bool) (hsd : StrtodOk sd) (sp : Bool) {text : List UInt8} {ts : List (STok × Nat)} (h0 : 0 ∉ text)
    (h : Script sp .eof text ts) : ∃ ls e, (lexAll sd text).1 = ls ++ [(e, .eof)] ∧
    List.Forall₂ (fun x y => x.2 = y.1.val ∧ 1 + (newlines text : Int) - (y.2 : Int) ≤ x.1 ∧
      (sp = true → x.1 = 1 + (newlines text : Int) - (y.2 : Int))) ls ts := by
  have hat := (at_init text h0).mono (show 0 ≤ 3 by omega)
  exact lexF_script sd hsd sp (text.length + 1) h hat (by rw [hat.sz]; omega)

/-- C68.  If a space or a tab follows every token, each token gets the line it is on (one more than the number of newlines before it, which is
the newlines of the text but those from the token on). -/
theorem C68_lines_partial (sd : List UInt8 → Bool) (hsd : StrtodOk sd) {text : List UInt8} {ts : List (STok × Nat)} (h0 : 0 ∉ text)
    (h : Script true .eof text ts) : ∃ e, (lexAll sd text).1 = ts.map (fun y => (1 + (newlines text : Int) - (y.2 : Int), y.1.val)) ++ [(e, .eof)] := by
  obtain ⟨ls, e, h1, h2⟩ := script_lines sd hsd true h0 h
  refine ⟨e, ?_⟩
  rw [h1, ← forall2_map (f := id) (g := fun y : STok × Nat => (1 + (newlines text : Int) - (y.2 : Int), y.1.val))
    (fun a b r => Prod.ext (r.2.2 rfl) r.1) h2, List.map_id]

/-- C68.  Otherwise the line a token gets may be too large, never too small. -/
theorem C68_not_before_partial (sd : List UInt8 → Bool) (hsd : StrtodOk sd) {text : List UInt8} {ts : List (STok × Nat)} (h0 : 0 ∉ text)
    (h : Script false .eof text ts) : ∃ ls e, (lexAll sd text).1 = ls ++ [(e, .eof)] ∧
    List.Forall₂ (fun x y => x.2 = y.1.val ∧ 1 + (newlines text : Int) - (y.2 : Int) ≤ x.1) ls ts := by
  obtain ⟨ls, e, h1, h2⟩ := script_lines sd hsd false h0 h
  exact ⟨ls, e, h1, h2.imp (fun _ _ r => ⟨r.1, r.2.1⟩)⟩

theorem script_example_sp : Script true .eof (asc "a \n= \nb ") [(.word [97], 2), (.punct 61, 1), (.word [98], 0)] := by
  have e3 : Script true (STok.word [98]).val (asc " ") [] :=
    Script.nil _ (asc " ") [] (Sep.blank 32 [] (by decide) Sep.nil) (Or.inl rfl)
  have e2 : Script true (STok.punct 61).val (asc " \nb ") [(.word [98], 0)] :=
    Script.cons (sp := true) (STok.punct 61).val [32, 10] (.word [98]) (asc " ") [] (Sep.blank 32 _ (by decide) (Sep.blank 10 [] (by decide) Sep.nil))
      ⟨⟨98, rfl, by decide⟩, by decide, by simp⟩ (by decide) (fits_cons (by decide)) (fits_cons (by decide)) (fun _ => by decide) e3
  have e1 : Script true (STok.word [97]).val (asc " \n= \nb ") [(.punct 61, 1), (.word [98], 0)] :=
    Script.cons (sp := true) (STok.word [97]).val [32, 10] (.punct 61) (asc " \nb ") _ (Sep.blank 32 _ (by decide) (Sep.blank 10 [] (by decide) Sep.nil))
      ⟨by decide, by decide, by decide, by decide, by decide, fun e => absurd e (by decide)⟩ (by decide) (fits_cons (by decide +kernel))
      (fits_cons (by decide +kernel)) (fun _ => by decide) e2
  exact Script.cons (sp := true) .eof [] (.word [97]) (asc " \n= \nb ") _ Sep.nil
      ⟨⟨97, rfl, by decide⟩, by decide, by simp⟩ (by decide) (fits_cons (by decide)) (fits_cons (by decide)) (fun _ => by decide) e1

example : ∃ e, (lexAll plainNumber (asc "a \n= \nb ")).1 = [(1, .ident [97]), (2, .char 61), (3, .ident [98]), (e, .eof)] := by
  obtain ⟨e, h⟩ := C68_lines_partial plainNumber plainNumber_ok (by decide +kernel) script_example_sp
  exact ⟨e, h.trans rfl⟩

/-- C68 is wrong without the spaces: the `a` of the first line is said to be on line 2. -/
theorem C68_line_refuted : (lexAll plainNumber (asc "x=a;\nb")).1 =
    [(1, .ident [120]), (1, .char 61), (2, .ident [97]), (2, .char 59), (2, .ident [98]), (2, .eof)] := by decide +kernel

end Verif.Lex
