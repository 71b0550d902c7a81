import Verif.Sql.OutJsonProof

/-!
# C183-C185: the JSON modes of db.query
-/
namespace Verif.Sql.OutJson
open Verif Verif.Json
open Verif.Sql.Out (cstr)

/-- The part of the loops that is the same. -/
def genLoop (f : List JCell → Str) (limit : Nat) : Nat → List (List JCell) → Str
  | _, [] => []
  | cnt, r :: rows => (if cnt ≠ 0 then asc ", " else []) ++ f r ++
      (if limit ≠ 0 ∧ cnt + 1 ≥ limit then [] else genLoop f limit (cnt + 1) rows)

theorem objLoop_gen (names : List Str) (limit : Nat) : ∀ (rows : List (List JCell)) (cnt : Nat),
    objLoop names limit cnt rows = genLoop (rowObj names) limit cnt rows
  | [], _ => rfl
  | r :: rows, cnt => by rw [objLoop, genLoop, objLoop_gen names limit rows]

theorem headLoop_gen (names : List Str) (limit : Nat) : ∀ (rows : List (List JCell)) (cnt : Nat), cnt ≠ 0 →
    headLoop names limit cnt rows = genLoop rowArr (if limit = 0 then 0 else limit + 1) cnt rows
  | [], _, _ => rfl
  | r :: rows, cnt, hc => by
    rw [headLoop, genLoop]
    simp only [hc, if_false, ne_eq, not_false_eq_true, if_true, List.nil_append]
    rw [headLoop_gen names limit rows (cnt + 1) (by omega)]
    by_cases h0 : limit = 0
    · simp [h0]
    · have e : (cnt + 1 > limit) = (cnt + 1 ≥ limit + 1) := by apply propext; omega
      simp only [h0, if_false, e, not_false_eq_true, true_and]
      simp

/-- A row of json2 (src/jsiSqlite.c 2753-2759). -/
def row2 (r : List JCell) : Str := asc "[" ++ commas (r.map colJson) ++ asc " ]"

theorem loop2_gen (names : List Str) (limit : Nat) : ∀ (rows : List (List JCell)) (cnt : Nat), cnt ≠ 0 →
    loop2 names limit cnt rows = genLoop row2 limit cnt rows
  | [], _, _ => rfl
  | r :: rows, cnt, hc => by rw [loop2, genLoop, loop2_gen names limit rows (cnt + 1) (by omega), if_neg hc]; rfl

theorem genLoop_commas (f : List JCell → Str) (limit : Nat) : ∀ (rows : List (List JCell)) (cnt : Nat),
    limit = 0 ∨ cnt < limit →
    genLoop f limit cnt rows = (if cnt ≠ 0 ∧ rows ≠ [] then asc ", " else []) ++
      commas ((if limit = 0 then rows else rows.take (limit - cnt)).map f)
  | [], cnt, _ => by simp [genLoop, commas]
  | r :: rows, cnt, h => by
    rw [genLoop]
    by_cases hl : limit ≠ 0 ∧ cnt + 1 ≥ limit
    · have : limit - cnt = 1 := by omega
      rw [if_pos hl, if_neg hl.1, this]
      simp [commas]
    · rw [if_neg hl, genLoop_commas f limit rows (cnt + 1) (by omega)]
      have e : (if limit = 0 then r :: rows else (r :: rows).take (limit - cnt)) =
          r :: (if limit = 0 then rows else rows.take (limit - (cnt + 1))) := by
        by_cases h0 : limit = 0
        · simp [h0]
        · rw [if_neg h0, if_neg h0, show limit - cnt = (limit - (cnt + 1)) + 1 by omega, List.take_succ_cons]
      rw [e]
      cases rows with
      | nil => simp [commas]
      | cons r2 rows =>
        have : ∃ x t, (if limit = 0 then r2 :: rows else (r2 :: rows).take (limit - (cnt + 1))) = x :: t := by
          by_cases h0 : limit = 0
          · exact ⟨r2, rows, by simp [h0]⟩
          · exact ⟨r2, rows.take (limit - (cnt + 1) - 1), by
              rw [if_neg h0]
              conv_lhs => rw [show limit - (cnt + 1) = (limit - (cnt + 1) - 1) + 1 by omega]
              rw [List.take_succ_cons]⟩
        obtain ⟨x, t, e2⟩ := this
        rw [e2]
        simp only [List.map_cons, commas]
        simp

theorem wanted_eq {α : Type} (limit : Nat) (rows : List α) :
    (if limit = 0 then rows else rows.take (limit - 0)) = wanted limit rows := by simp [wanted]

theorem genLoop_wanted (f : List JCell → Str) (limit : Nat) (rows : List (List JCell)) :
    genLoop f limit 0 rows = commas ((wanted limit rows).map f) := by
  rw [genLoop_commas f limit rows 0 (by omega), wanted_eq]; simp

theorem wanted_mem {α : Type} {limit : Nat} {rows : List α} {x : α} (h : x ∈ wanted limit rows) : x ∈ rows := by
  rw [wanted] at h
  split at h
  · exact h
  · exact List.mem_of_mem_take h

theorem wanted_length {α : Type} (limit : Nat) (rows : List α) : (wanted limit rows).length ≤ rows.length := by
  rw [wanted]; split <;> simp; omega

theorem sp_eq : asc "[ " = [91, 32] ∧ asc " ]" = [32, 93] := by decide

/-- The array of the rows as objects. -/
theorem obj_doc (full : Bool) (names : List Str) (limit : Nat) (rows : List (List JCell))
    (hn : ∀ n ∈ names, KeyWritten full n) (hr : ∀ r ∈ rows, ∀ c ∈ r, CellGood c) :
    ∃ d : Doc, d.Ok full ∧ d.val = .arr (toArr ((wanted limit rows).map (objOf names))) ∧
      jsonOut false names limit rows = d.text ∧ d.width ≤ rows.length := by
  obtain ⟨ds, h1, h2, h3⟩ := exists_docs full 0 (rowObj names) (objOf names) (wanted limit rows)
    (fun r hm => rowObj_doc full names r hn (hr r (wanted_mem hm)))
  obtain ⟨a1, a2, a3, a4⟩ := arrDoc_spec full 0 [32] [32] ws_sp ws_sp ds h3
  have hl : ds.length = (wanted limit rows).length := by have := congrArg List.length h2; simpa using this
  have := wanted_length limit rows
  refine ⟨_, a1, by rw [a2, h2], ?_, by omega⟩
  rw [a3, h1, jsonOut, if_neg (by simp), objLoop_gen, genLoop_wanted, sp_eq.1, sp_eq.2]; simp

theorem text_key {n : Str} (h : TextGood n) : KeyWritten true n := by
  obtain ⟨ps, h1, h2, h3⟩ := quoteZ_pieces h
  exact ⟨ps, ⟨fun p hp => p.ok_mono (h1 p hp), by simp⟩, h2, h3⟩

/-- **C183.** `db.query(…, {mode:'json'})` gives a JSON text, whose value is the array of the rows asked for, each row
an object of the column names and the values; for any number of rows and columns, names and texts of any length, with
quotes, backslashes, control characters and any letters up to U+FFFF. -/
theorem C183_rows_as_objects_partial (names : List Str) (limit : Nat) (rows : List (List JCell)) (h : Table names rows) :
    ∃ d : Doc, jsonOut false names limit rows = d.text ∧ d.Ok true ∧
      d.val = .arr (toArr ((wanted limit rows).map (objOf names))) := by
  obtain ⟨d, h1, h2, h3, _⟩ := obj_doc true names limit rows (fun n hn => text_key (h.1 n hn)) (fun r hr => (h.2 r hr).2)
  exact ⟨d, h3, h1, h2⟩

/-- Names of plain characters: printable ASCII without quotes and backslashes. -/
def PlainName (n : Str) : Prop := ∀ c ∈ n, 32 ≤ c ∧ c ≤ 126 ∧ c ≠ 34 ∧ c ≠ 92

theorem plain_body : ∀ n : Str, PlainName n → quoteBody n = n
  | [], _ => by rw [quoteBody]
  | c :: t, h => by
    have hc := h c (by simp)
    have hp : isprint c = true := by simp [isprint, hc.1, hc.2.1]
    have he : shortEsc c = none := by
      have : ∀ n : Fin 256, 32 ≤ UInt8.ofNat n.1 ∧ UInt8.ofNat n.1 ≤ 126 ∧ UInt8.ofNat n.1 ≠ 34 ∧ UInt8.ofNat n.1 ≠ 92 →
        shortEsc (UInt8.ofNat n.1) = none := by decide +kernel
      have := this ⟨c.toNat, c.toNat_lt⟩
      simp only [UInt8.ofNat_toNat] at this
      exact this hc
    rw [quoteBody, he]
    simp only [hp, if_true]
    rw [plain_body t (fun x hx => h x (by simp [hx]))]

theorem plain_pieces : ∀ n : Str, PlainName n → ∃ ps : List Piece, KeyOk false ps ∧ pval ps = n ∧ ptext ps = n
  | [], _ => ⟨[], ⟨by simp, by simp⟩, rfl, rfl⟩
  | c :: t, h => by
    have hc := h c (by simp)
    obtain ⟨ps, h1, h2, h3⟩ := plain_pieces t (fun x hx => h x (by simp [hx]))
    have : ∀ n : Fin 256, 32 ≤ UInt8.ofNat n.1 ∧ UInt8.ofNat n.1 ≤ 126 ∧ UInt8.ofNat n.1 ≠ 34 ∧ UInt8.ofNat n.1 ≠ 92 →
      String.utf8EncodeChar (Char.ofNat n.1) = [UInt8.ofNat n.1] ∧ 32 ≤ (Char.ofNat n.1).toNat ∧
        (Char.ofNat n.1).toNat ≠ 34 ∧ (Char.ofNat n.1).toNat ≠ 92 := by decide +kernel
    have := this ⟨c.toNat, c.toNat_lt⟩
    simp only [UInt8.ofNat_toNat] at this
    obtain ⟨e, e2⟩ := this hc
    refine ⟨.raw (Char.ofNat c.toNat) :: ps, ⟨?_, ?_⟩, ?_, ?_⟩
    · intro p hp
      rcases List.mem_cons.1 hp with rfl | hp
      · exact e2
      · exact h1.1 p hp
    · intro _ p hp
      rcases List.mem_cons.1 hp with rfl | hp
      · exact ⟨_, rfl⟩
      · exact h1.2 rfl p hp
    · simp only [pval, List.flatMap_cons] at h2 ⊢; rw [h2]; simp [Piece.val, e]
    · simp only [ptext, List.flatMap_cons] at h3 ⊢; rw [h3]; simp [Piece.text, e]

theorem plain_key {n : Str} (h : PlainName n) : KeyWritten false n := by
  obtain ⟨ps, h1, h2, h3⟩ := plain_pieces n h
  have hn : ∀ x ∈ n, x ≠ 0 := by intro x hx e; subst e; exact absurd (h 0 hx).1 (by decide)
  refine ⟨ps, h1, h2, ?_⟩
  rw [quoteZ, quoteLen, cstr_id n hn, quoteN_body n.length n hn (Nat.le_refl _), plain_body n h, h3]; simp

/-- **C183, read back.** With plain column names `JSON.parse` of it gives the rows, in strict mode or not. -/
theorem C183_read_back_partial (strict : Bool) (cap : Nat) (names : List Str) (limit : Nat) (rows : List (List JCell))
    (h : Table names rows) (hp : ∀ n ∈ names, PlainName n) (hc : rows.length ≤ cap) :
    parse strict cap (jsonOut false names limit rows) = .ok (.arr (toArr ((wanted limit rows).map (objOf names)))) := by
  obtain ⟨d, h1, h2, h3, h4⟩ := obj_doc false names limit rows (fun n hn => plain_key (hp n hn)) (fun r hr => (h.2 r hr).2)
  rw [h3, ← h2]
  have hs : d = .null ∨ d = .true ∨ d = .false → ([] : Str) = [] := fun _ => rfl
  have := parse_doc strict cap d [] [] ws_nil ws_nil h1 hs (by omega)
  simpa using this

/-- A table to meet the hypotheses: a text with a quote, a line feed and a letter beyond ASCII, a Boolean column. -/
theorem sampleTable : Table [asc "id", asc "on"]
    [[.text [34, 10, 0xc3, 0xa9], .int true 1], [.blob (asc "ab") [0xff], .null], [.int false (-5), .int true 0]] := by
  refine ⟨?_, ?_⟩
  · intro n hn
    have : n = asc "id" ∨ n = asc "on" := by simpa using hn
    rcases this with rfl | rfl
    · exact ⟨['i', 'd'], by decide +kernel, by decide⟩
    · exact ⟨['o', 'n'], by decide +kernel, by decide⟩
  · intro r hr
    rcases List.mem_cons.1 hr with rfl | hr
    · refine ⟨rfl, ?_⟩
      intro c hc
      rcases List.mem_cons.1 hc with rfl | hc
      · exact ⟨['"', '\n', 'é'], by decide +kernel, by decide⟩
      · rw [List.mem_singleton.1 hc]; trivial
    · rcases List.mem_cons.1 hr with rfl | hr
      · refine ⟨rfl, ?_⟩
        intro c hc
        rcases List.mem_cons.1 hc with rfl | hc
        · exact ⟨by decide, by decide⟩
        · rw [List.mem_singleton.1 hc]; trivial
      · rw [List.mem_singleton.1 hr]
        refine ⟨rfl, ?_⟩
        intro c hc
        rcases List.mem_cons.1 hc with rfl | hc
        · trivial
        · rw [List.mem_singleton.1 hc]; trivial

example : jsonOut false [asc "id", asc "on"] 2
    [[.text [34, 10, 0xc3, 0xa9], .int true 1], [.blob (asc "ab") [0xff], .null], [.int false (-5), .int true 0]] =
    asc "[ {\"id\":\"\\\"\\n\\u00e9\", \"on\":true}, {\"id\":\"ab\", \"on\":null} ]" := by decide +kernel

/-- **C183 refuted for `JSON.parse`**: a column name with a letter beyond ASCII comes back with the escape sequence
in it. -/
theorem C183_name_refuted : parse true 9 (jsonOut false [[0xc3, 0xa9]] 0 [[.int false 1]]) =
    .ok (.arr (.cons (.obj (.cons (asc "\\u00e9") (.num 1) .nil)) .nil)) := by decide +kernel

/-- **C183 refuted**: a character beyond U+FFFF is written as another one, here U+1F600 as U+F600. -/
theorem C183_emoji_refuted : jsonOut false [asc "a"] 0 [[.text [0xf0, 0x9f, 0x98, 0x80]]] =
    asc "[ {\"a\":\"\\uf600\"} ]" := by decide +kernel

/-- **C183 refuted**: what is behind a blob in memory is written, as many bytes as the characters of the blob have
bytes beyond their first; for any bytes that are printable. -/
theorem C183_blob_leak_refuted (x y : UInt8) (hx : 48 ≤ x ∧ x ≤ 57) (hy : 48 ≤ y ∧ y ≤ 57) (rest : Str) :
    jsonOut false [asc "a"] 0 [[.blob [0xc3, 0xa9, 0xc3, 0xa9] (x :: y :: rest)]] =
      asc "[ {\"a\":\"\\u00e9\\u00e9" ++ [x, y] ++ asc "\"} ]" := by
  have e : colJson (.blob [0xc3, 0xa9, 0xc3, 0xa9] (x :: y :: rest)) = asc "\"\\u00e9\\u00e9" ++ [x, y] ++ asc "\"" := by
    have hz : ∀ n : Fin 256, 48 ≤ UInt8.ofNat n.1 ∧ UInt8.ofNat n.1 ≤ 57 →
      UInt8.ofNat n.1 ≠ 0 ∧ shortEsc (UInt8.ofNat n.1) = none ∧ isprint (UInt8.ofNat n.1) = true := by decide +kernel
    have h1 := hz ⟨x.toNat, x.toNat_lt⟩
    have h2 := hz ⟨y.toNat, y.toNat_lt⟩
    simp only [UInt8.ofNat_toNat] at h1 h2
    obtain ⟨x1, x2, x3⟩ := h1 hx
    obtain ⟨y1, y2, y3⟩ := h2 hy
    have q2 : quoteN 2 (x :: y :: rest) = [x, y] := by
      rw [quoteN, if_neg x1, x2]
      simp only [x3, if_true]
      rw [quoteN, if_neg y1, y2]
      simp only [y3, if_true, quoteN]
    have u : ∀ t, uni (0xc3 :: 0xa9 :: t) = (0xe9, 2) := fun t => by
      have := uni_enc 'é' t
      simpa [show String.utf8EncodeChar 'é' = [0xc3, 0xa9] by decide +kernel] using this
    have qs : ∀ n t, quoteN (n + 1) (0xc3 :: 0xa9 :: t) = asc "\\u00e9" ++ quoteN n t := fun n t => by
      rw [quoteN, if_neg (by decide), show shortEsc 0xc3 = none by decide]
      simp only [show isprint 0xc3 = false by decide, u]
      simp only [Bool.false_eq_true, if_false, show utfEncode 0xe9 = asc "\\u00e9" by decide +kernel]
      rfl
    rw [colJson, if_neg (by decide), quoteLen]
    show 34 :: (quoteN (2 + 1 + 1) (0xc3 :: 0xa9 :: 0xc3 :: 0xa9 :: x :: y :: rest) ++ [34]) = _
    rw [qs, qs, q2]
    simp [show asc "\"\\u00e9\\u00e9" = 34 :: (asc "\\u00e9" ++ asc "\\u00e9") by decide, show asc "\"" = [34] by decide]
  rw [jsonOut, if_neg (by simp), objLoop_gen, genLoop_wanted]
  have w : ∀ r : List JCell, commas ((wanted 0 [r]).map (rowObj [asc "a"])) = rowObj [asc "a"] r := fun r => rfl
  rw [w, rowObj]
  show _ ++ (asc "{" ++ member (asc "a", _) ++ asc "}") ++ _ = _
  have qa : quoteZ (asc "a") = asc "\"a\"" := by decide +kernel
  rw [member, e, show quoteZ (asc "a", JCell.blob [0xc3, 0xa9, 0xc3, 0xa9] (x :: y :: rest)).1 = asc "\"a\"" from qa]
  have s1 : asc "[ {\"a\":\"\\u00e9\\u00e9" = asc "[ " ++ (asc "{" ++ (asc "\"a\"" ++ (asc ":" ++ asc "\"\\u00e9\\u00e9"))) := by
    decide
  have s2 : asc "\"} ]" = asc "\"" ++ (asc "}" ++ asc " ]") := by decide
  rw [s1, s2]
  simp only [List.append_assoc]

/-! ### With headers -/

/-- What `{mode:'json', headers:true}` is worth: nothing for no rows, else the names and the rows. -/
def headVal (names : List Str) (limit : Nat) (rows : List (List JCell)) : List JVal :=
  if rows = [] then [] else namesOf names :: (wanted limit rows).map arrOf

theorem headLoop_eq (names : List Str) (limit : Nat) (rows : List (List JCell)) (h : rows ≠ []) :
    headLoop names limit 0 rows = commas (nameArr names :: (wanted limit rows).map rowArr) := by
  cases rows with
  | nil => exact absurd rfl h
  | cons r rows =>
    have e : headLoop names limit 0 (r :: rows) = nameArr names ++ headLoop names limit 1 (r :: rows) := by
      rw [headLoop, headLoop]; simp
    rw [e, headLoop_gen names limit _ 1 (by omega),
      genLoop_commas rowArr (if limit = 0 then 0 else limit + 1) _ 1 (by split <;> omega)]
    have w : (if (if limit = 0 then 0 else limit + 1) = 0 then r :: rows
        else (r :: rows).take ((if limit = 0 then 0 else limit + 1) - 1)) = wanted limit (r :: rows) := by
      by_cases h0 : limit = 0
      · simp [h0, wanted]
      · simp [h0, wanted]
    rw [w]
    have : ∃ x t, wanted limit (r :: rows) = x :: t := by
      rw [wanted]
      by_cases h0 : limit = 0
      · exact ⟨r, rows, by simp [h0]⟩
      · refine ⟨r, rows.take (limit - 1), ?_⟩
        rw [if_neg h0]
        conv_lhs => rw [show limit = (limit - 1) + 1 by omega]
        rw [List.take_succ_cons]
    obtain ⟨x, t, e2⟩ := this
    rw [e2]; simp [commas]

theorem head_doc (full : Bool) (names : List Str) (limit : Nat) (rows : List (List JCell)) (h : Table names rows) :
    ∃ d : Doc, d.Ok full ∧ d.val = .arr (toArr (headVal names limit rows)) ∧
      jsonOut true names limit rows = d.text ∧ d.width ≤ max (rows.length + 1) names.length := by
  obtain ⟨dn, n1, n2, n3, n4⟩ := names_doc full [] ws_nil names h.1
  obtain ⟨ds, h1, h2, h3⟩ := exists_docs full names.length rowArr arrOf (wanted limit rows)
    (fun r hm => by
      have hr := h.2 r (wanted_mem hm)
      obtain ⟨d, g1, g2, g3, g4⟩ := cells_doc full [] ws_nil r hr.2
      exact ⟨d, g1, g2, by rw [← g3]; rfl, by rw [← hr.1]; exact g4⟩)
  have hl : ds.length = (wanted limit rows).length := by have := congrArg List.length h2; simpa using this
  have hw := wanted_length limit rows
  by_cases hr : rows = []
  · subst hr
    obtain ⟨a1, a2, a3, a4⟩ := arrDoc_spec full 0 [32] [32] ws_sp ws_sp [] (by simp)
    exact ⟨_, a1, by rw [a2]; rfl, by rw [a3]; rfl, by simpa using Nat.le_trans a4 (by simp)⟩
  · obtain ⟨a1, a2, a3, a4⟩ := arrDoc_spec full names.length [32] [32] ws_sp ws_sp (dn :: ds) (by
      intro d hd
      rcases List.mem_cons.1 hd with rfl | hd
      · exact ⟨n1, n4⟩
      · exact h3 d hd)
    refine ⟨_, a1, ?_, ?_, ?_⟩
    · rw [a2, List.map_cons, n2, h2, headVal, if_neg hr]
    · have en : nameArr names = dn.text := by rw [← n3, nameArr]; simp
      rw [a3, jsonOut, if_pos rfl, headLoop_eq names limit rows hr, List.map_cons, h1, en, sp_eq.1, sp_eq.2]; simp
    · simp at a4; omega

/-- **C184.** `db.query(…, {mode:'json', headers:true})` gives the JSON text of an array of arrays: the column names,
then the rows asked for, a limit not counting the names; and it is read back by `JSON.parse` whatever the names are. -/
theorem C184_names_and_rows_partial (strict : Bool) (cap : Nat) (names : List Str) (limit : Nat) (rows : List (List JCell))
    (h : Table names rows) (hr : rows ≠ []) (hc : rows.length + 1 ≤ cap) (hn : names.length ≤ cap) :
    (∃ d : Doc, jsonOut true names limit rows = d.text ∧ d.Ok true ∧
      d.val = .arr (toArr (namesOf names :: (wanted limit rows).map arrOf))) ∧
    parse strict cap (jsonOut true names limit rows) = .ok (.arr (toArr (namesOf names :: (wanted limit rows).map arrOf))) := by
  obtain ⟨d, h1, h2, h3, h4⟩ := head_doc false names limit rows h
  rw [headVal, if_neg hr] at h2
  refine ⟨⟨d, h3, d.ok_mono h1, h2⟩, ?_⟩
  rw [h3, ← h2]
  have hs : d = .null ∨ d = .true ∨ d = .false → ([] : Str) = [] := fun _ => rfl
  have := parse_doc strict cap d [] [] ws_nil ws_nil h1 hs (by omega)
  simpa using this

/-- **C184 refuted**: without rows the names are left out. -/
theorem C184_no_rows_refuted (names : List Str) (limit : Nat) : jsonOut true names limit [] = asc "[  ]" := rfl

example : jsonOut true [asc "a", asc "b"] 1 [[.int false 1, .null], [.int false 2, .null]] =
    asc "[ [\"a\", \"b\"], [1, null] ]" := by decide +kernel

/-! ### json2 -/

/-- The object of the names and the values. -/
def val2 (names : List Str) (limit : Nat) (rows : List (List JCell)) : JVal :=
  .obj (.cons (asc "names") (namesOf names) (.cons (asc "values") (.arr (toArr ((wanted limit rows).map arrOf))) .nil))

theorem loop2_eq (names : List Str) (limit : Nat) (rows : List (List JCell)) (h : rows ≠ []) :
    loop2 names limit 0 rows = asc "{ \"names\": [ " ++ commas (names.map quoteZ) ++ asc " ], \"values\": [ " ++
      commas ((wanted limit rows).map row2) := by
  cases rows with
  | nil => exact absurd rfl h
  | cons r rows =>
    rw [← genLoop_wanted, loop2, genLoop, loop2_gen names limit rows 1 (by omega), if_pos rfl]
    simp [row2]

def plainPieces (s : String) : List Piece := s.toList.map .raw

/-- **C185.** `db.query(…, {mode:'json2'})` with at least one row gives the JSON text of an object with the column
names and the rows asked for, and is read back by `JSON.parse`. -/
theorem C185_names_and_values_partial (strict : Bool) (cap : Nat) (names : List Str) (limit : Nat) (rows : List (List JCell))
    (h : Table names rows) (hr : rows ≠ []) (hc : rows.length ≤ cap) (hn : names.length ≤ cap) :
    (∃ (d : Doc) (w : Str), Ws w ∧ json2Out names limit rows = d.text ++ w ∧ d.Ok true ∧ d.val = val2 names limit rows) ∧
    parse strict cap (json2Out names limit rows) = .ok (val2 names limit rows) := by
  obtain ⟨dn, n1, n2, n3, n4⟩ := names_doc false [32] ws_sp names h.1
  obtain ⟨ds, h1, h2, h3⟩ := exists_docs false names.length row2 arrOf (wanted limit rows)
    (fun r hm => by
      have hr := h.2 r (wanted_mem hm)
      obtain ⟨d, g1, g2, g3, g4⟩ := cells_doc false [32] ws_sp r hr.2
      exact ⟨d, g1, g2, by rw [← g3]; rfl, by rw [← hr.1]; exact g4⟩)
  have hl : ds.length = (wanted limit rows).length := by have := congrArg List.length h2; simpa using this
  have hw := wanted_length limit rows
  obtain ⟨a1, a2, a3, a4⟩ := arrDoc_spec false names.length [32] [32] ws_sp ws_sp ds h3
  generalize hv : arrDoc [32] [32] ds = dv at a1 a2 a3 a4
  have kOk : ∀ s : String, (∀ c ∈ s.toList, 32 ≤ c.toNat ∧ c.toNat ≠ 34 ∧ c.toNat ≠ 92) → KeyOk false (plainPieces s) := by
    intro s hs
    refine ⟨?_, ?_⟩
    · intro p hp; obtain ⟨c, hc, rfl⟩ := List.mem_map.1 hp; exact hs c hc
    · intro _ p hp; obtain ⟨c, hc, rfl⟩ := List.mem_map.1 hp; exact ⟨c, rfl⟩
  let d : Doc := .obj (.cons [32] (plainPieces "names") [] [32] dn [] (.one [32] (plainPieces "values") [] [32] dv [32]))
  have d1 : d.Ok false := by
    simp only [d, Doc.Ok, Mems.Ok]
    exact ⟨ws_sp, kOk "names" (by decide), ws_nil, ws_sp, n1, ws_nil, ws_sp, kOk "values" (by decide), ws_nil, ws_sp, a1, ws_sp⟩
  have d2 : d.val = val2 names limit rows := by
    simp only [d, Doc.val, Mems.val, n2, a2, h2, val2]
    rw [show pval (plainPieces "names") = asc "names" by decide +kernel,
      show pval (plainPieces "values") = asc "values" by decide +kernel, JObj.insert, JObj.insert,
      if_neg (by decide), JObj.insert]
  have d3 : json2Out names limit rows = d.text ++ [32] := by
    simp only [d, Doc.text, Mems.text, memHead]
    rw [json2Out, if_neg hr, loop2_eq names limit rows hr, ← n3, a3, h1,
      show ptext (plainPieces "names") = asc "names" by decide +kernel,
      show ptext (plainPieces "values") = asc "values" by decide +kernel,
      show asc "{ \"names\": [ " = [123] ++ ([32] ++ ([34] ++ asc "names" ++ [34]) ++ [] ++ [58] ++ [32]) ++ (asc "[" ++ [32]) by decide,
      show asc " ], \"values\": [ " = [32] ++ asc "]" ++ [] ++ [44] ++ ([32] ++ ([34] ++ asc "values" ++ [34]) ++ [] ++ [58] ++ [32]) ++ [91, 32] by decide,
      show asc " ] } " = [32] ++ [93] ++ [32] ++ [125] ++ [32] by decide]
    simp
  refine ⟨⟨d, [32], ws_sp, d3, d.ok_mono d1, d2⟩, ?_⟩
  rw [d3, ← d2]
  have := parse_doc strict cap d [] [32] ws_nil ws_sp d1 (by intro h; rcases h with h | h | h <;> exact absurd h (by simp [d]))
    (by simp only [d, Doc.width, Mems.width]; omega)
  simpa using this

/-- **C185 refuted**: without rows the result is the empty string, which is no JSON text. -/
theorem C185_no_rows_refuted (names : List Str) (limit : Nat) : json2Out names limit [] = [] ∧
    ∀ d : Doc, d.text ≠ json2Out names limit [] := by
  refine ⟨rfl, fun d h => ?_⟩
  have h : d.text = [] := h
  cases d <;> simp [Doc.text, show asc "null" = [110, 117, 108, 108] by decide, show asc "true" = [116, 114, 117, 101] by decide,
    show asc "false" = [102, 97, 108, 115, 101] by decide] at h
  next n =>
    rw [dec] at h
    split at h
    · cases h
    · rw [decNat] at h; split at h <;> simp at h

example : json2Out [asc "a", asc "b"] 0 [[.int false 1, .null]] =
    asc "{ \"names\": [ \"a\", \"b\" ], \"values\": [ [1, null ] ] } " := by decide +kernel

end Verif.Sql.OutJson
