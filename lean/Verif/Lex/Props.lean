import Verif.Lex.Ascii
/-!
The properties C63 to C68 of the lexer.  `sd` is `strtod`'s verdict on the text of a number; `StrtodOk`: it accepts every decimal number.
-/
namespace Verif.Lex

/-- `strtod` uses all of a decimal number of JavaScript. -/
def StrtodOk (sd : List UInt8 → Bool) : Prop := ∀ ip fp ex, (Num.dec ip fp ex).Ok → sd (Num.dec ip fp ex).text = true

/-- The tokens the parser gets. -/
def tokens (sd : List UInt8 → Bool) (text : List UInt8) : List Tok := (lexAll sd text).1.map Prod.snd

/-- A `strtod` for the examples: it takes what is made of digits, `.`, `e`, `E`, `+` and `-`. -/
def plainNumber (w : List UInt8) : Bool := w.all fun c => isdigit c || c = 46 || c = 101 || c = 69 || c = 43 || c = 45

theorem plainNumber_ok : StrtodOk plainNumber := by
  intro ip fp ex ⟨h1, h2, h3, _, _⟩
  unfold plainNumber
  rw [List.all_eq_true]
  intro c hc
  have dig : Digit c → (isdigit c || decide (c = 46) || decide (c = 101) || decide (c = 69) || decide (c = 43) || decide (c = 45)) = true := by
    intro h; simp [(isdigit_iff c).mpr h]
  simp only [Num.text, List.mem_append] at hc
  rcases hc with hc | hc | hc
  · exact dig (h1 c hc)
  · cases fp with
    | none => simp [fracText] at hc
    | some f =>
      simp only [fracText, List.mem_cons] at hc
      rcases hc with rfl | hc
      · decide
      · exact dig (h2 f rfl c hc)
  · cases ex with
    | none => simp [expText] at hc
    | some x =>
      obtain ⟨e1, e2, e3, e4⟩ := h3 x rfl
      simp only [expText, Exp.text, List.mem_cons, List.mem_append] at hc
      rcases hc with rfl | hc | hc
      · rcases e1 with e | e <;> rw [e] <;> decide
      · rcases e2 with e | e | e <;> rw [e] at hc <;> simp at hc <;> subst hc <;> decide
      · exact dig (e4 c hc)

instance (c : UInt8) : Decidable (Digit c) := by unfold Digit; infer_instance
instance (c : UInt8) : Decidable (Letter c) := by unfold Letter; infer_instance
instance (c : UInt8) : Decidable (NameStart c) := by unfold NameStart; infer_instance
instance (c : UInt8) : Decidable (NameChar c) := by unfold NameChar; infer_instance
instance (c : UInt8) : Decidable (Quote c) := by unfold Quote; infer_instance
instance (c : UInt8) : Decidable (Blank c) := by unfold Blank; infer_instance
instance (c : UInt8) : Decidable (Json.IsHex c) := by unfold Json.IsHex; infer_instance
instance (tk : STok) (c : UInt8) : Decidable (tk.Extends c) := by cases tk <;> (unfold STok.Extends; infer_instance)

theorem fits_nil (tk : STok) : tk.Fits [] := by intro c hc; simp at hc
theorem fits_cons {tk : STok} {c : UInt8} {r : List UInt8} (h : ¬ tk.Extends c) : tk.Fits (c :: r) := by
  intro d hd; simp at hd; rw [← hd]; exact h

/-! ### C63: the tokens of a script -/

theorem forall2_map {α β γ : Type} {R : α → β → Prop} {f : α → γ} {g : β → γ} (h : ∀ a b, R a b → f a = g b) {as : List α} {bs : List β}
    (hf : List.Forall₂ R as bs) : as.map f = bs.map g := by
  induction hf with
  | nil => rfl
  | cons a _ ih => simp only [List.map_cons, h _ _ a, ih]

/-- C63.  A text made of tokens with blanks and comments between them is read as these tokens.  What is missing, and wrong: see the
theorems that follow. -/
theorem C63_tokens_partial (sd : List UInt8 → Bool) (hsd : StrtodOk sd) {text : List UInt8} {ts : List (STok × Nat)} (h0 : 0 ∉ text)
    (h : Script false .eof text ts) : tokens sd text = ts.map (fun x => x.1.val) ++ [.eof] := by
  have hat := (at_init text h0).mono (show 0 ≤ 3 by omega)
  obtain ⟨ls, e, h1, h2⟩ := lexF_script sd hsd false (text.length + 1) h hat (by rw [hat.sz]; omega)
  unfold tokens lexAll
  rw [h1, List.map_append, forall2_map (fun a b r => r.1) h2]
  rfl

/-- `a += 'b\n';` and a comment: such a text. -/
theorem script_example : Script false .eof (asc "a += 'b\\n';//c\n")
    [(.word [97], 1), (.op "+=", 1), (.str 39 [.raw 98, .esc 110], 1), (.punct 59, 1)] := by
  have e4 : Script false (STok.punct 59).val (asc "//c\n") [] :=
    Script.nil _ (asc "//c\n") [] (Sep.line [99] 10 [] (by simp) (by decide) (by decide) (Or.inl rfl) Sep.nil) (Or.inl rfl)
  have e3 : Script false (STok.str 39 [.raw 98, .esc 110]).val (asc ";//c\n") [(.punct 59, 1)] := by
    have := Script.cons (sp := false) (STok.str 39 [.raw 98, .esc 110]).val [] (.punct 59) (asc "//c\n") [] Sep.nil
      ⟨by decide, by decide, by decide, by decide, by decide, fun e => absurd e (by decide)⟩ (by decide)
      (fits_cons (by decide +kernel)) (fits_cons (by decide +kernel)) (by simp) e4
    exact this
  have e2 : Script false (STok.op "+=").val (asc " 'b\\n';//c\n") [(.str 39 [.raw 98, .esc 110], 1), (.punct 59, 1)] := by
    have := Script.cons (sp := false) (STok.op "+=").val [32] (.str 39 [.raw 98, .esc 110]) (asc ";//c\n") [(.punct 59, 1)]
      (Sep.blank 32 [] (by decide) Sep.nil) ⟨by decide, by simp [Piece.Ok]⟩ (by decide)
      (fits_cons (by decide +kernel)) (fits_cons (by decide +kernel)) (by simp) e3
    exact this
  have e1 : Script false (STok.word [97]).val (asc " += 'b\\n';//c\n") [(.op "+=", 1), (.str 39 [.raw 98, .esc 110], 1), (.punct 59, 1)] := by
    have := Script.cons (sp := false) (STok.word [97]).val [32] (.op "+=") (asc " 'b\\n';//c\n") [(.str 39 [.raw 98, .esc 110], 1), (.punct 59, 1)]
      (Sep.blank 32 [] (by decide) Sep.nil) ⟨by decide, by simp⟩ (by decide +kernel)
      (fits_cons (by decide +kernel)) (fits_cons (by decide +kernel)) (by simp) e2
    exact this
  have := Script.cons (sp := false) .eof [] (.word [97]) (asc " += 'b\\n';//c\n") [(.op "+=", 1), (.str 39 [.raw 98, .esc 110], 1), (.punct 59, 1)]
      Sep.nil ⟨⟨97, rfl, by decide⟩, by decide, by simp⟩ (by decide +kernel)
      (fits_cons (by decide +kernel)) (fits_cons (by decide +kernel)) (by simp) e1
  exact this

example (sd : List UInt8 → Bool) (hsd : StrtodOk sd) : tokens sd (asc "a += 'b\\n';//c\n") =
    [.ident [97], .op (asc "+="), .str [98, 10], .char 59, .eof] :=
  C63_tokens_partial sd hsd (by decide +kernel) script_example

/-- C63 is wrong where a newline is the only thing between two tokens: behind a `=` it gets lost, and two names become one. -/
theorem C63_glue_refuted :
    tokens plainNumber (asc "x=a\nb=c") = [.ident (asc "x"), .char 61, .ident (asc "ab"), .char 61, .ident (asc "c"), .eof] := by decide +kernel

/-- C63 is wrong for an empty comment behind a sign: the next line is taken for the comment. -/
theorem C63_empty_comment_refuted :
    tokens plainNumber (asc "a;//\nb;\nc") = [.ident (asc "a"), .char 59, .ident (asc "c"), .eof] := by decide +kernel

/-- C63 is wrong for a newline at the beginning of a string: it gets lost. -/
theorem C63_newline_in_string_refuted :
    tokens plainNumber (asc "x=`\na`") = [.ident (asc "x"), .char 61, .str (asc "a"), .eof] := by decide +kernel

/-- C63 is wrong for the number `0e5`: `e` is taken for a hexadecimal digit. -/
theorem C63_zero_exponent_refuted : tokens plainNumber (asc "0e5") = [.error] := by decide +kernel

/-- C63 is wrong for a `-` or `+` behind a hexadecimal number that ends with `E`. -/
theorem C63_hex_minus_refuted : tokens plainNumber (asc "0x1E-2") = [.error] := by decide +kernel

/-- C63 is wrong for a regular expression behind `return`: it is taken for divisions. -/
theorem C63_regex_after_return_refuted :
    tokens plainNumber (asc "return /a/") = [.kw (asc "return"), .char 47, .ident (asc "a"), .char 47, .eof] := by decide +kernel

/-- C63 is wrong for a form feed, which is a blank in JavaScript. -/
theorem C63_form_feed_refuted :
    tokens plainNumber ([97, 12, 98]) = [.ident [97], .char 12, .ident [98], .eof] := by decide +kernel

/-- C63 is wrong for a name of 1020 characters and more: it is cut, and one character of it is read twice. -/
theorem C63_long_name_refuted : tokens plainNumber (List.replicate 1020 97) = [.ident (List.replicate 1020 97), .ident [97], .eof] := by
  decide +kernel

end Verif.Lex
