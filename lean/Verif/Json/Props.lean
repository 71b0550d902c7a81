import Verif.Json.Top
import Verif.Json.Out
import Verif.Json.Safe

/-!
Properties of JSON input and output: C27 (round trip), C28 (escaping), C50 (`JSON.parse` of a JSON text), C51
(`JSON.check`), C52 (the tokens that are read).  The syntax and meaning of JSON texts are in `Verif.Json.Spec`.
-/

namespace Verif.Json

deriving instance DecidableEq for P
instance (c : UInt8) : Decidable (IsHex c) := inferInstanceAs (Decidable (_ ∨ _))

/-! ### C28: string output -/

/-- Text without control characters and without characters outside ASCII. -/
def Printable (l : List UInt8) : Prop := ∀ c ∈ l, 32 ≤ c ∧ c ≤ 126

/-- **C28.** Whatever bytes a string has, what is written is a quote, printable ASCII, and a quote. -/
theorem C28_printable (maxDepth : Nat) (o : Bool) (s : List UInt8) :
    ∃ b, stringify maxDepth (.str o s) = some ([34] ++ b ++ [34]) ∧ Printable b := by
  refine ⟨quoteBody (strBytes o s), ?_, quoteBody_print _⟩
  rw [stringify, str, if_neg (by omega)]
  simp [quote]

/-- **C28.** Whatever follows, a JSON reader finds the end of the string exactly at the closing quote. -/
theorem C28_ends_at_quote (maxDepth : Nat) (o : Bool) (s rest : List UInt8) :
    ∃ b, stringify maxDepth (.str o s) = some ([34] ++ b ++ [34]) ∧ scanStr (b ++ [34] ++ rest) = some b.length := by
  refine ⟨quoteBody (strBytes o s), ?_, ?_⟩
  · rw [stringify, str, if_neg (by omega)]
    simp [quote]
  · have := quoteBody_scan (strBytes o s) rest
    simpa using this

/-- An independent reading of "no unescaped quote": after an even number of backslashes no quote. -/
def noBareQuote : List UInt8 → Bool
  | [] => true
  | 92 :: _ :: t => noBareQuote t
  | [92] => false
  | c :: t => c != 34 && noBareQuote t

theorem noBareQuote_cons {c : UInt8} (t : List UInt8) (h1 : c ≠ 92) (h2 : c ≠ 34) : noBareQuote (c :: t) = noBareQuote t := by
  rw [noBareQuote.eq_def]
  split
  · rename_i h; simp at h
  · rename_i h; simp only [List.cons.injEq] at h; exact absurd h.1 h1
  · rename_i h; simp only [List.cons.injEq] at h; exact absurd h.1 h1
  · rename_i h; simp only [List.cons.injEq] at h; obtain ⟨rfl, rfl⟩ := h; simp [h2]

theorem quoteBody_noBare (s : List UInt8) : noBareQuote (quoteBody s) = true := by
  induction h : s.length using Nat.strongRecOn generalizing s with
  | _ n ih =>
  cases s with
  | nil => rw [quoteBody]; rfl
  | cons c t =>
    simp only [List.length_cons] at h
    rcases quoteBody_cons c t with ⟨e, h1, h2⟩ | ⟨h1, h2, h3⟩ | ⟨h1, h2, h3⟩
    · rw [h2, noBareQuote]; exact ih t.length (by omega) t rfl
    · rw [h3, noBareQuote_cons _ (shortEsc_none h1).2 (shortEsc_none h1).1]; exact ih t.length (by omega) t rfl
    · obtain ⟨a, b, c', d, e, ha, hb, hc, hd, _⟩ := utfEncode_hex (uni (c :: t)).1
      rw [h3, e]
      simp only [List.cons_append, List.nil_append, noBareQuote]
      rw [noBareQuote_cons _ (hex_plain ha).2 (hex_plain ha).1, noBareQuote_cons _ (hex_plain hb).2 (hex_plain hb).1,
        noBareQuote_cons _ (hex_plain hc).2 (hex_plain hc).1, noBareQuote_cons _ (hex_plain hd).2 (hex_plain hd).1]
      exact ih _ (by simp; omega) (t.drop ((uni (c :: t)).2 - 1)) rfl

/-- **C28.** No quote without a backslash, and no backslash at the end. -/
theorem C28_no_bare_quote (maxDepth : Nat) (o : Bool) (s : List UInt8) :
    ∃ b, stringify maxDepth (.str o s) = some ([34] ++ b ++ [34]) ∧ noBareQuote b = true := by
  refine ⟨quoteBody (strBytes o s), ?_, quoteBody_noBare _⟩
  rw [stringify, str, if_neg (by omega)]
  simp [quote]

example : stringify 0 (.str true [104, 34, 10, 0, 255, 92]) = some (asc "\"h\\\"\\n\\u0000\\u00ff\\\\\"") := by
  decide +kernel

/-- **C28 does not extend to keys**: they are written as they are, so a key can close its own string and add members. -/
theorem C28_keys_refuted : ∃ k, stringify 0 (.obj (.cons k (.num 1) .nil)) = some (asc "{ \"a\":0, \"b\":1 }") ∧
    k ≠ asc "a" ∧ k ≠ asc "b" := ⟨asc "a\":0, \"b", by decide +kernel, by decide, by decide⟩

/-! ### C50: reading -/

/-- **C50 (part).** `JSON.parse` of a JSON text gives the value of the text, in strict mode or not, for all nestings,
all layouts and strings of any length; as long as no string has `\/` or a surrogate pair, no key has an escape sequence,
nothing follows `null`, `true` or `false`, and arrays are not longer than the limit. -/
theorem C50_parse_partial (strict : Bool) (cap : Nat) (d : Doc) (w0 w1 : List UInt8) (h0 : Ws w0) (h1 : Ws w1)
    (hd : d.Ok false) (hs : d = .null ∨ d = .true ∨ d = .false → w1 = []) (hc : d.width ≤ cap) :
    parse strict cap (w0 ++ d.text ++ w1) = .ok d.val := parse_doc strict cap d w0 w1 h0 h1 hd hs hc

/-- The full statement of C50. -/
def C50Full (strict : Bool) (cap : Nat) : Prop := ∀ (d : Doc) (w0 w1 : List UInt8), Ws w0 → Ws w1 → d.Ok true → d.width ≤ cap →
  parse strict cap (w0 ++ d.text ++ w1) = .ok d.val

/-- `{ "a" : [ 1 , -20,"x\u00e9\n" ] }` followed by a line feed. -/
def sampleDoc : Doc := .obj (.one [32] [.raw 'a'] [32] [32]
  (.arr (.cons [32] (.num 1) [32] (.cons [32] (.num (-20)) [] (.one [] (.str [.raw 'x', .uni 48 48 101 57, .esc 110]) [32])))) [32])

example : sampleDoc.Ok false ∧ sampleDoc.width = 3 ∧
    sampleDoc.text = asc "{ \"a\" : [ 1 , -20,\"x\\u00e9\\n\" ] }" := by
  refine ⟨?_, by decide +kernel, by decide +kernel⟩
  simp [sampleDoc, Doc.Ok, Els.Ok, Mems.Ok, KeyOk, Piece.Ok, Ws, escVal]
  decide +kernel

example : parse true 5 (asc "\n { \"a\" : [ 1 , -20,\"x\\u00e9\\n\" ] } ") =
    .ok (.obj (.cons (asc "a") (.arr (.cons (.num 1) (.cons (.num (-20)) (.cons (.str true [120, 0xc3, 0xa9, 10]) .nil)))) .nil)) := by
  decide +kernel

theorem solidus_doc : (Doc.str [.esc 47]).Ok true ∧ (Doc.str [.esc 47]).text = asc "\"\\/\"" ∧
    (Doc.str [.esc 47]).val = .str true [47] := by
  refine ⟨by simp [Doc.Ok, Piece.Ok, escVal], by decide, ?_⟩
  simp [Doc.val, pval, Piece.val, escVal]

/-- **C50 refuted**: `\/` is read as nothing. -/
theorem C50_solidus_refuted (strict : Bool) (cap : Nat) : parse strict cap (asc "\"\\/\"") = .ok (.str true []) ∧
    ¬ C50Full strict cap := by
  have e : parse strict cap (asc "\"\\/\"") = .ok (.str true []) := by
    have hl : ∀ strict, loop strict true 0 init (asc "\"\\/\"") = some ⟨[⟨.string, 1, some 3, 1⟩], none, none, none⟩ := by
      decide +kernel
    have hu : unquote (tokText (asc "\"\\/\"") ⟨.string, 1, some 3, 1⟩) = [] := by decide +kernel
    have hp : parse strict cap (asc "\"\\/\"") = parseTokens strict cap (asc "\"\\/\"") := rfl
    have h34 : decide ((asc "\"\\/\"").head? = some 34) = true := by decide
    rw [hp, parseTokens, h34, hl]
    simp [gen1, hu, Except.map]
  refine ⟨e, fun h => ?_⟩
  have := h (.str [.esc 47]) [] [] ws_nil ws_nil solidus_doc.1 (by simp [Doc.width])
  rw [List.nil_append, List.append_nil, solidus_doc.2.1, e, solidus_doc.2.2] at this
  exact absurd this (by simp)

/-- **C50 refuted**: a space after `true`, `false` or `null` makes the value undefined. -/
theorem C50_trailing_space_refuted (cap : Nat) :
    parse true cap (asc "true ") = .ok .undef ∧ parse true cap (asc "false\n") = .ok .undef ∧
      parse true cap (asc "null ") = .ok .undef ∧ ¬ C50Full true cap := by
  have hp : ∀ t n, loop true (decide (t.head? = some 34)) 0 init t = some ⟨[⟨.prim, 0, some n, 0⟩], none, none, none⟩ →
      parseTokens true cap t = .ok .undef := by
    intro t n h
    rw [parseTokens, h]; rfl
  have e : parse true cap (asc "true ") = .ok .undef := by
    have : parse true cap (asc "true ") = parseTokens true cap (asc "true ") := rfl
    rw [this]; exact hp _ 4 (by decide +kernel)
  have e2 : parse true cap (asc "false\n") = .ok .undef := by
    have : parse true cap (asc "false\n") = parseTokens true cap (asc "false\n") := rfl
    rw [this]; exact hp _ 5 (by decide +kernel)
  have e3 : parse true cap (asc "null ") = .ok .undef := by
    have : parse true cap (asc "null ") = parseTokens true cap (asc "null ") := rfl
    rw [this]; exact hp _ 4 (by decide +kernel)
  refine ⟨e, e2, e3, fun h => ?_⟩
  have := h .true [] [32] ws_nil ws_sp trivial (by simp [Doc.width])
  rw [List.nil_append] at this
  have a : Doc.true.text ++ [32] = asc "true " := by decide
  rw [a, e] at this
  exact absurd this (by simp [Doc.val])

/-- **C50 refuted**: escape sequences in keys are not decoded: the key of `{"\\n":1}` is a backslash and an n. -/
theorem C50_keys_refuted : ∃ d : Doc, d.Ok true ∧ d.text = asc "{\"\\n\":1}" ∧
    d.val = .obj (.cons [10] (.num 1) .nil) ∧ parse true 5 d.text = .ok (.obj (.cons [92, 110] (.num 1) .nil)) := by
  refine ⟨.obj (.one [] [.esc 110] [] [] (.num 1) []), ?_, by decide +kernel, by decide +kernel, by decide +kernel⟩
  simp [Doc.Ok, Mems.Ok, KeyOk, Piece.Ok, Ws, escVal]

/-- **C50 refuted**: a surrogate pair becomes two three-byte sequences, which is not UTF-8, instead of the character. -/
theorem C50_surrogates_refuted : ∃ d : Doc, d.Ok true ∧ d.text = asc "\"\\ud83d\\ude00\"" ∧
    d.val = .str true [0xf0, 0x9f, 0x98, 0x80] ∧
    parse true 5 d.text = .ok (.str true [0xed, 0xa0, 0xbd, 0xed, 0xb8, 0x80]) := by
  refine ⟨.str [.pair 100 56 51 100 100 101 48 48], ?_, by decide +kernel, by decide +kernel, by decide +kernel⟩
  simp [Doc.Ok, Piece.Ok]
  decide +kernel

/-- **C50 refuted** when an array is longer than `maxArrayList` allows: the rest of the text is not only cut off, what
follows is read in the wrong place.  With room for two elements `{"a":[1,2,3],"b":4}` has a member `"3":"b"`. -/
theorem C50_long_array_refuted : parse true 2 (asc "{\"a\":[1,2,3],\"b\":4}") =
    .ok (.obj (.cons (asc "a") (.arr (.cons (.num 1) (.cons (.num 2) .nil))) (.cons (asc "3") (.str true (asc "b")) .nil))) := by
  decide +kernel

/-! ### C27: round trip -/

/-- **C27 (part).** `JSON.parse(JSON.stringify(v))` is `v` (strings as string objects) for all values without
`undefined`, whose strings are UTF-8 texts within the basic plane, whose keys need no escape, which are not nested deeper
than `maxDepth` (0: no limit) and have no array longer than the limit. -/
theorem C27_round_trip_partial (strict : Bool) (maxDepth cap : Nat) (v : JVal) (hg : v.Good) (hf : v.Fits cap)
    (hd : maxDepth = 0 ∨ v.depth ≤ maxDepth) :
    ∃ text, stringify maxDepth v = some text ∧ parse strict cap text = .ok v.boxed := by
  obtain ⟨D, h1, h2, h3, h4⟩ := str_doc cap maxDepth v 0 hg hf (by unfold DOk; omega)
  refine ⟨D.text, h1, ?_⟩
  have := parse_doc strict cap D [] [] ws_nil ws_nil h2 (fun _ => rfl) h4
  rw [h3] at this
  simpa using this

/-- **C27, what is written.** The output for such a value is a JSON text. -/
theorem C27_output_is_json (maxDepth cap : Nat) (v : JVal) (hg : v.Good) (hf : v.Fits cap)
    (hd : maxDepth = 0 ∨ v.depth ≤ maxDepth) :
    ∃ d : Doc, stringify maxDepth v = some d.text ∧ d.Ok true ∧ d.val = v.boxed := by
  obtain ⟨D, h1, h2, h3, _⟩ := str_doc cap maxDepth v 0 hg hf (by unfold DOk; omega)
  exact ⟨D, h1, D.ok_mono h2, h3⟩

/-- A value with everything in it meets the hypotheses. -/
def sampleVal : JVal := .obj (.cons (asc "k1") (.arr (.cons (.num (-7)) (.cons .null (.cons (.bool true) .nil))))
  (.cons (asc "k2") (.str false [10, 34, 0xc3, 0xa9]) (.cons [] (.obj .nil) .nil)))

example : sampleVal.Good ∧ sampleVal.Fits 3 ∧ sampleVal.depth = 2 := by
  refine ⟨?_, by simp [sampleVal, JVal.Fits, JObj.Fits, JArr.Fits, JArr.length], by decide +kernel⟩
  simp only [sampleVal, JVal.Good, JObj.Good, JArr.Good, JObj.keys]
  refine ⟨⟨['k', '1'], by decide +kernel, by decide +kernel⟩, by simp, by decide +kernel,
    ⟨['k', '2'], by decide +kernel, by decide +kernel⟩, ⟨['\n', '"', 'é'], by decide +kernel, by decide +kernel, by decide +kernel⟩,
    by decide +kernel, ⟨[], by decide +kernel, by simp⟩, by simp, by simp, trivial⟩

/-- **C27 refuted**: a key with a quote comes back as two members. -/
theorem C27_key_refuted : ∃ v text, stringify 0 v = some text ∧
    v = .obj (.cons (asc "a\":0,\"b") (.num 1) .nil) ∧
    parse true 9 text = .ok (.obj (.cons (asc "a") (.num 0) (.cons (asc "b") (.num 1) .nil))) :=
  ⟨_, _, rfl, rfl, by decide +kernel⟩

/-- **C27 refuted**: a character beyond U+FFFF comes back as another one. -/
theorem C27_emoji_refuted : ∃ text, stringify 0 (.str true [0xf0, 0x9f, 0x98, 0x80]) = some text ∧
    parse true 9 text = .ok (.str true [0xef, 0x98, 0x80]) := ⟨_, rfl, by decide +kernel⟩

/-- **C27 refuted**: a string that is not UTF-8 comes back longer. -/
theorem C27_bytes_refuted : ∃ text, stringify 0 (.str true [0xff]) = some text ∧
    parse true 9 text = .ok (.str true [0xc3, 0xbf]) := ⟨_, rfl, by decide +kernel⟩

/-- **C27 refuted**: a leading property whose value is `undefined` leaves a comma behind, which is read as if it were not
there (any other JSON reader rejects it). -/
theorem C27_undefined_refuted : stringify 0 (.obj (.cons (asc "a") .undef (.cons (asc "b") (.num 1) .nil))) =
    some (asc "{ , \"b\":1 }") := by decide +kernel

/-- A chain of `n` arrays. -/
def nest : Nat → JVal
  | 0 => .null
  | n + 1 => .arr (.cons (nest n) .nil)

theorem str_nest (md : Nat) (h : 0 < md) : ∀ (n d : Nat), md < d + n → d ≤ md + 1 → str md d (nest n) = none
  | 0, d, h1, h2 => by rw [nest, str, if_pos (by omega)]
  | n + 1, d, h1, h2 => by
    rw [nest, str]
    by_cases hd : md < d
    · rw [if_pos ⟨h, hd⟩]
    · rw [if_neg (by omega), strArr, str_nest md h n (d + 1) (by omega) (by omega)]; rfl

/-- **C27 refuted** for deep values: every limit is exceeded by some value, for which there is no text at all. -/
theorem C27_depth_refuted (maxDepth : Nat) (h : 0 < maxDepth) : ∃ v : JVal, v.Good ∧ v.Fits 1 ∧ stringify maxDepth v = none := by
  refine ⟨nest (maxDepth + 1), ?_, ?_, str_nest maxDepth h _ 0 (by omega) (by omega)⟩
  · have : ∀ n, (nest n).Good := by
      intro n; induction n with
      | zero => simp [nest, JVal.Good]
      | succ n ih => simp [nest, JVal.Good, JArr.Good, ih]
    exact this _
  · have : ∀ n, (nest n).Fits 1 := by
      intro n; induction n with
      | zero => simp [nest, JVal.Fits]
      | succ n ih => simp [nest, JVal.Fits, JArr.Fits, JArr.length, ih]
    exact this _

/-! ### C51: `JSON.check` -/

/-- **C51 (part).** Every JSON text that is an array, an object or a string is accepted, whatever is in it. -/
theorem C51_complete_partial (strict : Bool) (d : Doc) (w0 w1 : List UInt8) (h0 : Ws w0) (h1 : Ws w1) (hd : d.Ok true)
    (hb : d.Big) : check strict (w0 ++ d.text ++ w1) = true := by
  unfold check
  rw [List.append_assoc, loop_ws strict _ w0 _ h0]
  obtain ⟨p, h, _⟩ := loop_doc_top strict (decide ((w0 ++ (d.text ++ w1)).head? = some 34)) true (0 + w0.length) d w1 hd h1 hb
  rw [h]; rfl

example : check true (asc " [{\"\\n\":\"\\/\\ud83d\\ude00\"}] ") = true := by decide +kernel

/-- **C51 refuted**: the JSON texts `true` and `1` are not accepted (they are with a space at the end). -/
theorem C51_scalar_refuted : check true Doc.true.text = false ∧ check true (Doc.num 1).text = false ∧
    check true (asc "1 ") = true := by decide +kernel

/-- A text with an object and no colon. -/
theorem colon_mems (m : Mems) : 58 ∈ m.text := by
  cases m <;> simp [Mems.text, memHead]

theorem ws_no58 {w : List UInt8} (h : Ws w) : (58 : UInt8) ∉ w := fun h' => by
  rcases h _ h' with e | e | e | e <;> exact absurd e (by decide)

/-- No JSON text is `{"a"}`. -/
theorem not_json (d : Doc) (h0 : d.Ok true) (w0 w1 : List UInt8) (hw0 : Ws w0) (hw1 : Ws w1) :
    w0 ++ d.text ++ w1 ≠ asc "{\"a\"}" := by
  intro h
  have hw : w0 = [] := by
    cases w0 with
    | nil => rfl
    | cons c w =>
      rw [show asc "{\"a\"}" = [123, 34, 97, 34, 125] by decide] at h
      simp only [List.cons_append, List.cons.injEq] at h
      rcases hw0 c (by simp) with e | e | e | e <;> rw [h.1] at e <;> exact absurd e (by decide)
  subst hw
  obtain ⟨t, ht⟩ := d.text_head
  have hh : d.head = 123 := by
    rw [ht, show asc "{\"a\"}" = [123, 34, 97, 34, 125] by decide] at h
    simp only [List.nil_append, List.cons_append, List.cons.injEq] at h
    exact h.1
  cases d with
  | obj m =>
    have h58 : (58 : UInt8) ∈ asc "{\"a\"}" := by
      rw [← h]; simp [Doc.text, colon_mems m]
    exact absurd h58 (by decide)
  | obj0 w =>
    simp only [Doc.Ok] at h0
    rw [show asc "{\"a\"}" = [123, 34, 97, 34, 125] by decide] at h
    cases w with
    | nil => simp [Doc.text] at h
    | cons c w =>
      simp only [Doc.text, List.nil_append, List.cons_append, List.cons.injEq] at h
      rcases h0 c (by simp) with e | e | e | e <;> rw [h.2.1] at e <;> exact absurd e (by decide)
  | num n =>
    obtain ⟨c, b, e, e2⟩ := dec_head n
    simp only [Doc.head, e, List.headD_cons] at hh
    rw [hh] at e2
    exact absurd e2 (by decide)
  | null => exact absurd hh (by decide)
  | true => exact absurd hh (by decide)
  | false => exact absurd hh (by decide)
  | str s => exact absurd (show (34 : UInt8) = 123 from hh) (by decide)
  | arr s => exact absurd (show (91 : UInt8) = 123 from hh) (by decide)
  | arr0 s => exact absurd (show (91 : UInt8) = 123 from hh) (by decide)

/-- **C51 refuted**: texts that are not JSON are accepted. -/
theorem C51_sound_refuted : ∃ t, check true t = true ∧ ∀ (d : Doc) (w0 w1 : List UInt8), d.Ok true → Ws w0 → Ws w1 →
    w0 ++ d.text ++ w1 ≠ t :=
  ⟨asc "{\"a\"}", by decide +kernel, fun d w0 w1 h h0 h1 => not_json d h w0 w1 h0 h1⟩

/-- More of them. -/
theorem C51_more : check true (asc "[1 2]") = true ∧ check true (asc "[,,]") = true ∧ check true (asc "{}{}") = true ∧
    check true (asc "[1:2]") = true ∧ check true (asc "{1:2,,3}") = true ∧ check true (asc "[1-+t]") = true := by
  decide +kernel

/-! ### C52: tokens that were never written -/

/-- **C52 (part).** Whatever the text, in strict mode no unwritten token is read, if every object in it has an even number
of children (keys and values); no matter how little the text resembles JSON otherwise. -/
theorem C52_strict_partial (cap : Nat) (text : List UInt8)
    (h : ∀ p, loop true ((text.dropWhile isspace).head? = some 34) 0 init (text.dropWhile isspace) = some p →
      EvenObj p.toks) : parse true cap text ≠ .error .uninit :=
  parse_safe true cap text (fun p hp => ⟨Or.inl rfl, h p hp⟩)

/-- **C52 (part).** The same without strict mode, if the text has a token at all. -/
theorem C52_loose_partial (cap : Nat) (text : List UInt8)
    (h : ∀ p, loop false ((text.dropWhile isspace).head? = some 34) 0 init (text.dropWhile isspace) = some p →
      p.toks ≠ [] ∧ EvenObj p.toks) : parse false cap text ≠ .error .uninit :=
  parse_safe false cap text (fun p hp => ⟨Or.inr (h p hp).1, (h p hp).2⟩)

/-- A text that is far from JSON and meets the hypothesis. -/
example : (loop true false 0 init (asc "[1 2:,{\"a\" t}] {-}}")) = none ∧
    ((loop true false 0 init (asc "[1 2,,{\"a\" {t, -}}] [n,]")).map (·.toks.length)) = some 10 ∧
    ∀ p, loop true false 0 init (asc "[1 2,,{\"a\" {t, -}}] [n,]") = some p → EvenObj p.toks := by
  refine ⟨by decide +kernel, by decide +kernel, fun p hp => ?_⟩
  have : (loop true false 0 init (asc "[1 2,,{\"a\" {t, -}}] [n,]")).map
      (fun p => p.toks.all (fun t => t.typ != .object || t.size % 2 == 0)) = some true := by decide +kernel
  rw [hp] at this
  simp only [Option.map_some, Option.some.injEq, List.all_eq_true] at this
  intro t ht hty
  have := this t ht
  simpa [hty] using this

/-- **C52 refuted**: `JSON.parse('{"x":{"a"},"y":1}')` reads a token that was never written: an object with an odd number
of children makes the reader skip one token too many. -/
theorem C52_refuted : parse true 100 (asc "{\"x\":{\"a\"},\"y\":1}") = .error .uninit := by decide +kernel

/-- **C52 refuted**, the other way: without strictness a lone comma has no token at all. -/
theorem C52_comma_refuted : parse false 100 (asc ",") = .error .uninit := by decide +kernel

end Verif.Json
