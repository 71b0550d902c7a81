import Verif.Sql.OutCsv

/-! # INSERT output reads back (C102) -/

namespace Verif.Sql.Out
open Verif

theorem sqlBody_id : ∀ (z : Str), 39 ∉ z → sqlBody z = z
  | [], _ => rfl
  | c :: z, h => by
    have hc : c ≠ 39 := fun e => h (e ▸ List.mem_cons_self)
    unfold sqlBody
    rw [if_neg hc, sqlBody_id z (fun hm => h (List.mem_cons_of_mem _ hm))]

theorem cstr_idem : ∀ (s : Str), cstr (cstr s) = cstr s
  | [] => rfl
  | c :: s => by
    have ih : (s.takeWhile (· ≠ 0)).takeWhile (· ≠ 0) = s.takeWhile (· ≠ 0) := cstr_idem s
    unfold cstr
    by_cases h : c = 0
    · simp [h]
    · simp only [List.takeWhile_cons, decide_true, h, ne_eq, not_false_eq_true, if_true]
      rw [ih]

theorem sqlQuoted_eq (s : Str) : sqlQuoted s = 39 :: (sqlBody (cstr s) ++ [39]) := by
  unfold sqlQuoted
  simp only
  split
  · rfl
  · rename_i h; rw [sqlBody_id _ h]; rfl

theorem rdText_body : ∀ (z t : Str), (∀ u, t ≠ 39 :: u) → rdText 39 (sqlBody z ++ 39 :: t) = some (z, t)
  | [], t, h => by
    show rdText 39 (39 :: t) = _
    cases t with
    | nil => simp [rdText]
    | cons d t =>
      have : d ≠ 39 := fun e => h t (by rw [e])
      simp [rdText, this]
  | c :: z, t, h => by
    have ih := rdText_body z t h
    unfold sqlBody
    by_cases hc : c = 39
    · subst hc
      rw [if_pos rfl]
      show rdText 39 (39 :: 39 :: (sqlBody z ++ 39 :: t)) = _
      simp only [rdText, if_true]
      rw [ih]; rfl
    · rw [if_neg hc]
      show rdText 39 (c :: (sqlBody z ++ 39 :: t)) = _
      have hx : ∃ d u, sqlBody z ++ 39 :: t = d :: u := by
        cases hz : sqlBody z with
        | nil => exact ⟨39, t, rfl⟩
        | cons d u => exact ⟨d, u ++ 39 :: t, rfl⟩
      obtain ⟨d, u, e⟩ := hx
      rw [e] at ih ⊢
      simp only [rdText, if_neg hc]
      rw [ih]; rfl

theorem rdName : ∀ (z t : Str), 34 ∉ z → (∀ u, t ≠ 34 :: u) → rdText 34 (z ++ 34 :: t) = some (z, t)
  | [], t, _, h => by
    show rdText 34 (34 :: t) = _
    cases t with
    | nil => simp [rdText]
    | cons d t =>
      have : d ≠ 34 := fun e => h t (by rw [e])
      simp [rdText, this]
  | c :: z, t, hz, h => by
    have ih := rdName z t (fun hm => hz (List.mem_cons_of_mem _ hm)) h
    have hc : c ≠ 34 := fun e => hz (e ▸ List.mem_cons_self)
    show rdText 34 (c :: (z ++ 34 :: t)) = _
    have hx : ∃ d u, z ++ 34 :: t = d :: u := by
      cases z with
      | nil => exact ⟨34, t, rfl⟩
      | cons d u => exact ⟨d, u ++ 34 :: t, rfl⟩
    obtain ⟨d, u, e⟩ := hx
    rw [e] at ih ⊢
    simp only [rdText, if_neg hc]
    rw [ih]; rfl

theorem hex_byte (c : UInt8) : hexVal (hexDigit (c / 16)) = some (c / 16) ∧ hexVal (hexDigit (c % 16)) = some (c % 16) ∧
    hexDigit (c / 16) ≠ 39 ∧ (c / 16) * 16 + c % 16 = c := by
  have : ∀ n : Fin 256, (fun c : UInt8 => hexVal (hexDigit (c / 16)) = some (c / 16) ∧ hexVal (hexDigit (c % 16)) = some (c % 16) ∧
    hexDigit (c / 16) ≠ 39 ∧ (c / 16) * 16 + c % 16 = c) (UInt8.ofNat n.val) := by decide +kernel
  have h := this ⟨c.toNat, c.toNat_lt⟩
  simpa using h

theorem rdBlob_hex : ∀ (b t : Str), rdBlob ((b.flatMap fun c => [hexDigit (c / 16), hexDigit (c % 16)]) ++ 39 :: t) = some (b, t)
  | [], t => by show rdBlob (39 :: t) = _; unfold rdBlob; rw [if_pos rfl]
  | c :: b, t => by
    obtain ⟨h1, h2, h3, h4⟩ := hex_byte c
    show rdBlob (hexDigit (c / 16) :: hexDigit (c % 16) :: ((b.flatMap fun c => [hexDigit (c / 16), hexDigit (c % 16)]) ++ 39 :: t)) = _
    unfold rdBlob
    rw [if_neg h3]
    simp only [h1, h2]
    rw [rdBlob_hex b t, Option.map_some, h4]

/-- Text of a number. -/
def NumTxt (t : Str) : Prop := t ≠ [] ∧ ∀ c ∈ t, numByte c = true

/-- A column whose text is as `sqlite3_column_type` says. -/
def Cell.ok : Cell → Prop
  | .num t => NumTxt t
  | _ => True

/-- The value of a column; a text ends at its first NUL. -/
def Cell.cut : Cell → Cell
  | .text s => .text (cstr s)
  | c => c

/-- What follows a literal. -/
def Sep (t : Str) : Prop := ∃ c u, t = c :: u ∧ c ≠ 39 ∧ numByte c = false

theorem takeWhile_num : ∀ (n t : Str), (∀ c ∈ n, numByte c = true) → Sep t →
    (n ++ t).takeWhile numByte = n ∧ (n ++ t).dropWhile numByte = t
  | [], t, _, ⟨c, u, e, _, h⟩ => by subst e; simp [h]
  | c :: n, t, hn, ht => by
    obtain ⟨a, b⟩ := takeWhile_num n t (fun x hx => hn x (List.mem_cons_of_mem _ hx)) ht
    have hc := hn c List.mem_cons_self
    simp [hc, a, b]

theorem rdLit_num (n t : Str) (hn : NumTxt n) (ht : Sep t) : rdLit (n ++ t) = some (.num n, t) := by
  obtain ⟨h1, h2⟩ := takeWhile_num n t hn.2 ht
  have hne := hn.1
  cases n with
  | nil => exact absurd rfl hne
  | cons c n =>
    have hc := hn.2 c List.mem_cons_self
    rw [List.cons_append] at h1 h2 ⊢
    unfold rdLit
    split
    · rename_i e; injection e with e _; subst e; exact absurd hc (by decide)
    · rename_i e; injection e with e _; subst e; exact absurd hc (by decide)
    · rename_i e; injection e with e _; subst e; exact absurd hc (by decide)
    · rw [h1, h2, if_neg (List.cons_ne_nil _ _)]

theorem rdLit_value (c : Cell) (hc : c.ok) (t : Str) (ht : Sep t) :
    rdLit (insValue c.isNull c ++ t) = some (c.cut, t) := by
  obtain ⟨x, u, e, h1, h2⟩ := ht
  cases c with
  | null => rfl
  | num n => exact rdLit_num n t hc ⟨x, u, e, h1, h2⟩
  | text s =>
    show rdLit (sqlQuoted (cstr s) ++ t) = _
    rw [sqlQuoted_eq, cstr_idem]
    show rdLit (39 :: (sqlBody (cstr s) ++ [39] ++ t)) = _
    have : rdLit (39 :: (sqlBody (cstr s) ++ [39] ++ t)) = (rdText 39 (sqlBody (cstr s) ++ [39] ++ t)).map fun q => (.text q.1, q.2) := rfl
    rw [this, List.append_assoc]
    show (rdText 39 (sqlBody (cstr s) ++ 39 :: t)).map _ = _
    rw [rdText_body _ _ (fun v hv => by rw [e] at hv; exact h1 (List.cons.inj hv).1)]; rfl
  | blob b =>
    show rdLit (88 :: 39 :: ((b.flatMap fun c => [hexDigit (c / 16), hexDigit (c % 16)]) ++ [39] ++ t)) = _
    have : ∀ v, rdLit (88 :: 39 :: v) = (rdBlob v).map fun q => (.blob q.1, q.2) := fun _ => rfl
    rw [this, List.append_assoc]
    show (rdBlob ((b.flatMap fun c => [hexDigit (c / 16), hexDigit (c % 16)]) ++ 39 :: t)).map _ = _
    rw [rdBlob_hex]; rfl

theorem rdLits_row : ∀ (r : List Cell), r ≠ [] → (∀ c ∈ r, c.ok) → ∀ (t : Str) (n : Nat), r.length ≤ n →
    rdLits n (insValues true ((r.map Cell.isNull).zip r) ++ 41 :: t) = some (r.map Cell.cut, t)
  | [], h, _, _, _, _ => absurd rfl h
  | [c], _, hc, t, n, hn => by
    obtain ⟨n, rfl⟩ : ∃ m, n = m + 1 := ⟨n - 1, by simp at hn; omega⟩
    show rdLits (n + 1) ([] ++ insValue c.isNull c ++ [] ++ 41 :: t) = _
    rw [List.nil_append, List.append_nil]
    unfold rdLits
    rw [rdLit_value c (hc c List.mem_cons_self) _ ⟨41, t, rfl, by decide, by decide⟩]; rfl
  | c :: d :: r, _, hc, t, n, hn => by
    obtain ⟨n, rfl⟩ : ∃ m, n = m + 1 := ⟨n - 1, by simp at hn; omega⟩
    have ih := rdLits_row (d :: r) (List.cons_ne_nil _ _) (fun x hx => hc x (List.mem_cons_of_mem _ hx)) t n (by simp at hn ⊢; omega)
    have e : insValues true (((c :: d :: r).map Cell.isNull).zip (c :: d :: r)) ++ 41 :: t =
        insValue c.isNull c ++ (44 :: (insValues true (((d :: r).map Cell.isNull).zip (d :: r)) ++ 41 :: t)) := by
      show ([] ++ insValue c.isNull c ++ ([44] ++ insValue d.isNull d ++ insValues false ((r.map Cell.isNull).zip r))) ++ 41 :: t =
        insValue c.isNull c ++ (44 :: (([] ++ insValue d.isNull d ++ insValues false ((r.map Cell.isNull).zip r)) ++ 41 :: t))
      simp
    rw [e]
    unfold rdLits
    rw [rdLit_value c (hc c List.mem_cons_self) _ ⟨44, _, rfl, by decide, by decide⟩]
    simp only
    rw [ih]; rfl

theorem skip_append (p s : Str) : skip p (p ++ s) = some s := by
  unfold skip
  rw [if_pos (by rw [List.isPrefixOf_iff_prefix]; exact List.prefix_append p s), List.drop_left]

theorem values_len : ∀ (r : List Cell) (b : Bool), (∀ c ∈ r, c.ok) → r.length ≤ (insValues b ((r.map Cell.isNull).zip r)).length + 1
  | [], _, _ => Nat.zero_le _
  | c :: r, b, h => by
    have ih := values_len r false (fun x hx => h x (List.mem_cons_of_mem _ hx))
    have hv : 1 ≤ (insValue c.isNull c).length := by
      have : insValue c.isNull c ≠ [] := by
        cases c with
        | null => decide
        | num n => exact (h _ List.mem_cons_self).1
        | text s => show sqlQuoted _ ≠ []; rw [sqlQuoted_eq]; exact List.cons_ne_nil _ _
        | blob b => exact List.cons_ne_nil _ _
      exact List.length_pos_iff.2 this
    show r.length + 1 ≤ ((if b then [] else [44]) ++ insValue c.isNull c ++ insValues false ((r.map Cell.isNull).zip r)).length + 1
    simp only [List.length_append]
    omega

/-- One statement. -/
def insStmt (tbl : Str) (nulls : List Bool) (r : List Cell) : Str :=
  asc "INSERT INTO \"" ++ cstr tbl ++ asc "\" VALUES(" ++ insValues true (nulls.zip r) ++ asc ");\n"

theorem rd_stmt (tbl : Str) (ht : 34 ∉ cstr tbl) (r : List Cell) (hr : r ≠ []) (hc : ∀ c ∈ r, c.ok) (s : Str) (n : Nat) :
    rdScript (n + 1) (insStmt tbl (r.map Cell.isNull) r ++ s) = (rdScript n s).map ((cstr tbl, r.map Cell.cut) :: ·) := by
  have e : insStmt tbl (r.map Cell.isNull) r ++ s =
      asc "INSERT INTO \"" ++ (cstr tbl ++ 34 :: (asc " VALUES(" ++ (insValues true ((r.map Cell.isNull).zip r) ++ 41 :: (asc ";\n" ++ s)))) := by
    unfold insStmt
    have h1 : asc "\" VALUES(" = 34 :: asc " VALUES(" := by decide +kernel
    have h2 : asc ");\n" = 41 :: asc ";\n" := by decide +kernel
    rw [h1, h2]
    simp
  rw [e]
  generalize ho : rdScript n s = out
  unfold rdScript
  rw [if_neg (by
    intro h
    have := congrArg List.length h
    have h3 : (asc "INSERT INTO \"").length = 13 := by decide +kernel
    simp only [List.length_append, h3, List.length_nil] at this
    omega)]
  rw [skip_append]
  simp only
  rw [rdName _ _ ht (fun u hu => by
    have h1 : asc " VALUES(" = 32 :: asc "VALUES(" := by decide +kernel
    rw [h1] at hu
    have := (List.cons.inj hu).1
    exact absurd this (by decide))]
  simp only
  rw [skip_append]
  simp only
  rw [rdLits_row r hr hc _ _ (by
    have := values_len r true hc
    simp only [List.length_append, List.length_cons]
    omega)]
  simp only
  rw [skip_append]
  simp only
  rw [ho]

theorem insLoop_cons (tbl : Str) (nulls : List Bool) (limit cnt : Nat) (r : List Cell) (rows : List (List Cell)) :
    insLoop tbl nulls limit cnt (r :: rows) =
      if limit ≠ 0 ∧ cnt + 1 ≥ limit then (insStmt tbl nulls r, rows, cnt + 1)
      else (insStmt tbl nulls r ++ (insLoop tbl nulls limit (cnt + 1) rows).1, (insLoop tbl nulls limit (cnt + 1) rows).2.1,
        (insLoop tbl nulls limit (cnt + 1) rows).2.2) := rfl

/-- The rows of a result that fit together: the same columns are NULL in all of them. -/
def SameNulls (rows : List (List Cell)) : Prop :=
  ∀ r ∈ rows, r.map Cell.isNull = (rows.headD []).map Cell.isNull

theorem rd_loop (tbl : Str) (ht : 34 ∉ cstr tbl) (nulls : List Bool) (limit : Nat) : ∀ (rows : List (List Cell)) (cnt : Nat),
    (∀ r ∈ rows, r.map Cell.isNull = nulls ∧ r ≠ [] ∧ ∀ c ∈ r, c.ok) → (limit = 0 ∨ cnt + rows.length ≤ limit) → ∀ n, rows.length < n →
    rdScript n (insLoop tbl nulls limit cnt rows).1 = some (rows.map fun r => (cstr tbl, r.map Cell.cut)) ∧
    (insLoop tbl nulls limit cnt rows).2.1 = []
  | [], _, _, _, n, hn => by
    obtain ⟨n, rfl⟩ : ∃ m, n = m + 1 := ⟨n - 1, by simp at hn; omega⟩
    exact ⟨rfl, rfl⟩
  | r :: rows, cnt, hr, hl, n, hn => by
    obtain ⟨n, rfl⟩ : ∃ m, n = m + 1 := ⟨n - 1, by simp at hn; omega⟩
    obtain ⟨h1, h2, h3⟩ := hr r List.mem_cons_self
    rw [insLoop_cons]
    by_cases hlim : limit ≠ 0 ∧ cnt + 1 ≥ limit
    · rw [if_pos hlim]
      have : rows = [] := by
        rcases hl with hl | hl
        · exact absurd hl hlim.1
        · simp only [List.length_cons] at hl
          exact List.length_eq_zero_iff.1 (by omega)
      subst this
      refine ⟨?_, rfl⟩
      have := rd_stmt tbl ht r h2 h3 [] n
      rw [List.append_nil, h1] at this
      show rdScript (n + 1) (insStmt tbl nulls r) = _
      rw [this]
      obtain ⟨n, rfl⟩ : ∃ m, n = m + 1 := ⟨n - 1, by simp at hn; omega⟩
      rfl
    · rw [if_neg hlim]
      obtain ⟨a, b⟩ := rd_loop tbl ht nulls limit rows (cnt + 1) (fun x hx => hr x (List.mem_cons_of_mem _ hx))
        (by simp only [List.length_cons] at hl; omega) n (by simp at hn; omega)
      refine ⟨?_, b⟩
      have := rd_stmt tbl ht r h2 h3 (insLoop tbl nulls limit (cnt + 1) rows).1 n
      rw [h1] at this
      show rdScript (n + 1) (insStmt tbl nulls r ++ (insLoop tbl nulls limit (cnt + 1) rows).1) = _
      rw [this, a]; rfl

theorem loop_len (tbl : Str) (nulls : List Bool) (limit : Nat) : ∀ (rows : List (List Cell)) (cnt : Nat),
    (limit = 0 ∨ cnt + rows.length ≤ limit) → rows.length ≤ (insLoop tbl nulls limit cnt rows).1.length
  | [], _, _ => Nat.zero_le _
  | r :: rows, cnt, hl => by
    rw [insLoop_cons]
    have hs : 1 ≤ (insStmt tbl nulls r).length := by
      have h3 : (asc "INSERT INTO \"").length = 13 := by decide +kernel
      simp only [insStmt, List.length_append, h3]
      omega
    simp only [List.length_cons] at hl
    split
    · rename_i hlim
      show rows.length + 1 ≤ (insStmt tbl nulls r).length
      omega
    · have := loop_len tbl nulls limit rows (cnt + 1) (by omega)
      show rows.length + 1 ≤ (insStmt tbl nulls r ++ (insLoop tbl nulls limit (cnt + 1) rows).1).length
      rw [List.length_append]
      omega

/-- **C102.** The INSERT statements that the mode `insert` makes of a result put exactly the rows of the result into
the table, of every length, with every text, blob and number in them, if the same columns are NULL in every row
and `limit` is not smaller than the number of rows.  Missing: other NULLs (`C102_null_refuted`), a `limit` that cuts
(`C102_limit_refuted`), quotes in the name of the table (`C102_table_refuted`), text with NUL (cut there). -/
theorem C102_insert_reads_back_partial (tbl sep : Str) (ht : 34 ∉ cstr tbl) (headers : Bool) (names : List Str) (limit : Nat)
    (rows : List (List Cell)) (hn : SameNulls rows) (hr : ∀ r ∈ rows, r ≠ [] ∧ ∀ c ∈ r, c.ok) (hl : limit = 0 ∨ rows.length ≤ limit) :
    readInserts (insOut tbl sep headers names limit rows) = some (rows.map fun r => (cstr tbl, r.map Cell.cut)) := by
  have hl' : limit = 0 ∨ 0 + rows.length ≤ limit := by omega
  obtain ⟨a, b⟩ := rd_loop tbl ht ((rows.headD []).map Cell.isNull) limit rows 0 (fun r h => ⟨hn r h, hr r h⟩) hl'
    ((insLoop tbl ((rows.headD []).map Cell.isNull) limit 0 rows).1.length + 1)
    (Nat.lt_succ_of_le (loop_len tbl _ limit rows 0 hl'))
  unfold insOut readInserts
  simp only
  rw [b]
  show rdScript ((insLoop tbl ((rows.headD []).map Cell.isNull) limit 0 rows).1 ++ []).length.succ
    ((insLoop tbl ((rows.headD []).map Cell.isNull) limit 0 rows).1 ++ []) = _
  rw [List.append_nil]
  exact a

/-- Two rows of three columns. -/
def sample : List (List Cell) := [[.null, .text (asc "it's"), .num (asc "-1.5e+10")], [.null, .blob [0, 255], .text []]]
example : SameNulls sample ∧ (∀ r ∈ sample, r ≠ [] ∧ ∀ c ∈ r, c.ok) := by
  unfold SameNulls sample
  constructor
  · decide
  · intro r hr
    rcases List.mem_cons.1 hr with rfl | hr
    · refine ⟨List.cons_ne_nil _ _, fun c hc => ?_⟩
      simp only [List.mem_cons, List.not_mem_nil, or_false] at hc
      rcases hc with rfl | rfl | rfl
      · trivial
      · trivial
      · exact ⟨by decide +kernel, by decide +kernel⟩
    · simp only [List.mem_cons, List.not_mem_nil, or_false] at hr
      subst hr
      refine ⟨List.cons_ne_nil _ _, fun c hc => ?_⟩
      simp only [List.mem_cons, List.not_mem_nil, or_false] at hc
      rcases hc with rfl | rfl | rfl <;> trivial
example : insOut (asc "t") (asc ",") false [] 0 sample =
    asc "INSERT INTO \"t\" VALUES(NULL,'it''s',-1.5e+10);\nINSERT INTO \"t\" VALUES(NULL,X'00ff','');\n" := by decide +kernel

/-- **C102, counterexample.** A column that is NULL in the first row is written as NULL in every row: the values of
the others are lost.  A NULL in a later row becomes an empty text. -/
theorem C102_null_refuted :
    readInserts (insOut (asc "t") (asc ",") false [] 0 [[.null], [.num (asc "7")], [.text (asc "x")]]) =
      some [(asc "t", [.null]), (asc "t", [.null]), (asc "t", [.null])] ∧
    readInserts (insOut (asc "t") (asc ",") false [] 0 [[.num (asc "7")], [.null]]) =
      some [(asc "t", [.num (asc "7")]), (asc "t", [.text []])] := by
  constructor <;> decide +kernel

/-- **C102, counterexample.** With a `limit` smaller than the number of rows, one more row follows in another format:
the text is not a script of INSERT statements. -/
theorem C102_limit_refuted :
    insOut (asc "t") (asc ",") false [] 1 [[.num (asc "7")], [.num (asc "8")], [.num (asc "9")]] =
      asc "INSERT INTO \"t\" VALUES(7);\n\n8" := by decide +kernel

/-- **C102, counterexample.** A quote in the name of the table ends the name. -/
theorem C102_table_refuted :
    readInserts (insOut (asc "a\"b") (asc ",") false [] 0 [[.num (asc "7")]]) = none := by decide +kernel

end Verif.Sql.Out
