import Verif.Sql.OutSpec

/-! # CSV output reads back (C101) -/

namespace Verif.Sql.Out
open Verif

/-- Bytes in front of the first field. -/
def addAll (z : Str) (rs : List (List Str)) : List (List Str) := z.foldr addC rs

theorem addAll_row : ∀ (z : Str) (f : Str) (r : List Str) (rs : List (List Str)),
    addAll z ((f :: r) :: rs) = ((z ++ f) :: r) :: rs
  | [], _, _, _ => rfl
  | c :: z, f, r, rs => by
    show addC c (addAll z ((f :: r) :: rs)) = _
    rw [addAll_row z f r rs]; rfl

/-- What may follow a field. -/
def Ends (sep : UInt8) (t : Str) : Prop := t = [] ∨ (∃ u, t = sep :: u) ∨ ∃ u, t = 10 :: u

theorem rd_end {sep : UInt8} (h1 : sep ≠ 34) {t : Str} (h : Ends sep t) :
    rdCsv sep .plain t = rdCsv sep .start t ∧ rdCsv sep .after t = rdCsv sep .start t := by
  rcases h with rfl | ⟨u, rfl⟩ | ⟨u, rfl⟩
  · exact ⟨rfl, rfl⟩
  · simp [rdCsv, h1]
  · simp [rdCsv]

theorem map_map' {α : Type} (o : Option α) (f g : α → α) : (o.map f).map g = o.map (fun x => g (f x)) := by
  cases o <;> rfl

theorem rd_plain (sep : UInt8) : ∀ (z : Str), (∀ c ∈ z, c ≠ 34 ∧ c ≠ sep ∧ c ≠ 10) → ∀ t,
    rdCsv sep .plain (z ++ t) = (rdCsv sep .plain t).map (addAll z)
  | [], _, t => by
    show rdCsv sep .plain t = (rdCsv sep .plain t).map id
    rw [Option.map_id]; rfl
  | c :: z, h, t => by
    obtain ⟨a, b, d⟩ := h c List.mem_cons_self
    rw [List.cons_append]
    simp only [rdCsv, if_neg a, if_neg b, if_neg d]
    rw [rd_plain sep z (fun x hx => h x (List.mem_cons_of_mem _ hx)), map_map']; rfl

theorem rd_start (sep : UInt8) (h1 : sep ≠ 34) (z : Str) (h : ∀ c ∈ z, c ≠ 34 ∧ c ≠ sep ∧ c ≠ 10) {t : Str} (ht : Ends sep t) :
    rdCsv sep .start (z ++ t) = (rdCsv sep .start t).map (addAll z) := by
  cases z with
  | nil =>
    show rdCsv sep .start t = (rdCsv sep .start t).map id
    rw [Option.map_id]; rfl
  | cons c z =>
    obtain ⟨a, b, d⟩ := h c List.mem_cons_self
    rw [List.cons_append]
    simp only [rdCsv, if_neg a, if_neg b, if_neg d]
    rw [rd_plain sep z (fun x hx => h x (List.mem_cons_of_mem _ hx)), map_map', (rd_end h1 ht).1]; rfl

theorem rd_quoted (sep : UInt8) : ∀ (z : Str) (t : Str),
    rdCsv sep .quoted (csvBody z ++ 34 :: t) = (rdCsv sep .after t).map (addAll z)
  | [], t => by
    show rdCsv sep .quoted (34 :: t) = (rdCsv sep .after t).map id
    rw [Option.map_id]
    simp [rdCsv]
  | c :: z, t => by
    unfold csvBody
    by_cases hc : c = 34
    · subst hc
      rw [if_pos rfl]
      show rdCsv sep .quoted (34 :: 34 :: (csvBody z ++ 34 :: t)) = _
      have e : rdCsv sep .quoted (34 :: 34 :: (csvBody z ++ 34 :: t)) =
          (rdCsv sep .quoted (csvBody z ++ 34 :: t)).map (addC 34) := by simp [rdCsv]
      rw [e, rd_quoted sep z t, map_map']; rfl
    · rw [if_neg hc]
      show rdCsv sep .quoted (c :: (csvBody z ++ 34 :: t)) = _
      have e : rdCsv sep .quoted (c :: (csvBody z ++ 34 :: t)) =
          (rdCsv sep .quoted (csvBody z ++ 34 :: t)).map (addC c) := by simp only [rdCsv, if_neg hc]
      rw [e, rd_quoted sep z t, map_map']; rfl

theorem scan_false {sep : UInt8} {z : Str} : ∀ {t : Str}, csvScan [sep] z t = false →
    ∀ c ∈ t, c ≠ 34 ∧ c ≠ sep ∧ c ≠ 10
  | [], _, c, hc => by cases hc
  | d :: t, h, c, hc => by
    unfold csvScan at h
    split at h
    · cases h
    · rename_i hn
      rcases List.mem_cons.1 hc with rfl | hc
      · refine ⟨fun e => hn ?_, fun e => hn ?_, fun e => hn ?_⟩
        · subst e; simp [needQuote]
        · subst e; simp
        · subst e; simp [needQuote]
      · exact scan_false h c hc

/-- What `f` writes is read as `v`. -/
def Writes (sep : UInt8) (x v : Str) : Prop :=
  ∀ t, Ends sep t → rdCsv sep .start (x ++ t) = (rdCsv sep .start t).map (addAll v)

theorem writes_cell {sep : UInt8} (h1 : sep ≠ 34) (s : Str) : Writes sep (csvCell [sep] s) (cstr s) := by
  intro t ht
  unfold csvCell
  simp only
  split
  · show rdCsv sep .start (34 :: (csvBody (cstr s) ++ [34] ++ t)) = _
    have e : rdCsv sep .start (34 :: (csvBody (cstr s) ++ [34] ++ t)) = rdCsv sep .quoted (csvBody (cstr s) ++ 34 :: t) := by
      simp [rdCsv]
    rw [e, rd_quoted, (rd_end h1 ht).2]
  · rename_i hn
    refine rd_start sep h1 _ (scan_false (z := cstr s) ?_) ht
    cases hs : csvScan [sep] (cstr s) (cstr s) with
    | false => rfl
    | true => exact absurd (Or.inr hs) hn

theorem row_rd {sep : UInt8} {f v : Str → Str} : ∀ (xs : List Str), (∀ x ∈ xs, Writes sep (f x) (v x)) → xs ≠ [] →
    ∀ {t : Str} {tbl : List (List Str)}, Ends sep t → rdCsv sep .start t = some ([[]] :: tbl) →
    sep ≠ 34 → rdCsv sep .start (joinSep [sep] f xs ++ t) = some (xs.map v :: tbl)
  | [], _, h, _, _, _, _, _ => absurd rfl h
  | [x], hw, _, t, tbl, ht, e, _ => by
    show rdCsv sep .start (f x ++ t) = _
    rw [hw x List.mem_cons_self t ht, e, Option.map_some, addAll_row, List.append_nil]; rfl
  | x :: y :: xs, hw, _, t, tbl, ht, e, hs => by
    have ih := row_rd (y :: xs) (fun z hz => hw z (List.mem_cons_of_mem _ hz)) (List.cons_ne_nil _ _) ht e hs
    show rdCsv sep .start (f x ++ [sep] ++ joinSep [sep] f (y :: xs) ++ t) = _
    have e1 : f x ++ [sep] ++ joinSep [sep] f (y :: xs) ++ t = f x ++ (sep :: (joinSep [sep] f (y :: xs) ++ t)) := by simp
    have e2 : rdCsv sep .start (sep :: (joinSep [sep] f (y :: xs) ++ t)) =
        (rdCsv sep .start (joinSep [sep] f (y :: xs) ++ t)).map newField := by
      simp [rdCsv, hs]
    rw [e1, hw x List.mem_cons_self _ (Or.inr (Or.inl ⟨_, rfl⟩)), e2, ih, Option.map_some, Option.map_some]
    show some (addAll (v x) (([] :: (y :: xs).map v) :: tbl)) = _
    rw [addAll_row, List.append_nil]; rfl

/-- The rows that `limit` lets through (0: all). -/
def limited {α : Type} (limit : Nat) (rows : List α) : List α := if limit = 0 then rows else rows.take limit

/-- The table a reader should get: the text of every column. -/
def tableOf (rows : List (List Cell)) : List (List Str) := rows.map fun r => r.map fun c => cstr (colText c)

theorem more_rd {sep : UInt8} (h1 : sep ≠ 34) (h2 : sep ≠ 10) (headers : Bool) (names : List Str) (limit : Nat) :
    ∀ (rows : List (List Cell)) (cnt : Nat), (∀ r ∈ rows, r ≠ []) → cnt ≠ 0 → (limit ≠ 0 → cnt < limit) →
    Ends sep (tabLoop [sep] (csvCell [sep]) headers names limit cnt rows) ∧
    rdCsv sep .start (tabLoop [sep] (csvCell [sep]) headers names limit cnt rows) =
      some ([[]] :: tableOf (if limit = 0 then rows else rows.take (limit - cnt)))
  | [], cnt, _, _, _ => by
    refine ⟨Or.inl rfl, ?_⟩
    simp [tabLoop, rdCsv, tableOf]
  | r :: rows, cnt, hr, hc, hl => by
    have hrow : ∀ (t : Str) (tbl : List (List Str)), Ends sep t → rdCsv sep .start t = some ([[]] :: tbl) →
        rdCsv sep .start (10 :: (joinSep [sep] (csvCell [sep]) (r.map colText) ++ t)) =
          some ([[]] :: (r.map fun c => cstr (colText c)) :: tbl) := by
      intro t tbl ht e
      have := row_rd (r.map colText) (fun x _ => writes_cell h1 x) (by simpa using hr r List.mem_cons_self) ht e h1
      have e2 : rdCsv sep .start (10 :: (joinSep [sep] (csvCell [sep]) (r.map colText) ++ t)) =
          (rdCsv sep .start (joinSep [sep] (csvCell [sep]) (r.map colText) ++ t)).map newRow := by
        simp [rdCsv, Ne.symm h2]
      rw [e2, this, Option.map_some, List.map_map]; rfl
    unfold tabLoop
    rw [if_neg (by omega), if_pos (Or.inl hc)]
    simp only [List.nil_append, List.append_assoc, List.cons_append]
    refine ⟨Or.inr (Or.inr ⟨_, rfl⟩), ?_⟩
    by_cases hlim : limit ≠ 0 ∧ cnt + 1 ≥ limit
    · rw [if_pos hlim, hrow [] [] (Or.inl rfl) rfl, if_neg hlim.1]
      have : limit - cnt = 1 := by have := hl hlim.1; omega
      rw [this]; rfl
    · rw [if_neg hlim]
      obtain ⟨a, b⟩ := more_rd h1 h2 headers names limit rows (cnt + 1) (fun x hx => hr x (List.mem_cons_of_mem _ hx)) (by omega)
        (fun h => by omega)
      rw [hrow _ _ a b]
      by_cases h0 : limit = 0
      · rw [if_pos h0, if_pos h0]; rfl
      · rw [if_neg h0, if_neg h0]
        have : limit - cnt = (limit - (cnt + 1)) + 1 := by omega
        rw [this, List.take_succ_cons]; rfl

theorem cell_ne (sep s : Str) : csvCell sep s ≠ [] := by
  unfold csvCell
  simp only
  split
  · exact List.cons_ne_nil _ _
  · rename_i h
    exact fun e => h (Or.inl e)

theorem join_ne {sep : Str} {f : Str → Str} (hf : ∀ x, f x ≠ []) : ∀ (xs : List Str), xs ≠ [] → joinSep sep f xs ≠ []
  | [], h => absurd rfl h
  | [x], _ => hf x
  | x :: y :: t, _ => by
    show f x ++ sep ++ joinSep sep f (y :: t) ≠ []
    simp [hf x]

/-- **C101.** With a separator of one byte, not a quote or line end, the CSV text of a result is read back by a
reader of CSV as exactly the rows of the result (as many as `limit` lets through), whatever is in the columns:
separators, quotes, line ends, any bytes.  The first row is the names of the columns if `headers` is set.
Missing: names that need quotes, text with NUL (cut there), separators of more than one byte, and
NULL, which cannot be told from an empty text. -/
theorem C101_csv_reads_back_partial (sep : UInt8) (h1 : sep ≠ 34) (h2 : sep ≠ 10) (headers : Bool) (names : List Str) (limit : Nat)
    (rows : List (List Cell)) (hr : ∀ r ∈ rows, r ≠ []) (hn : names ≠ []) (hq : ∀ n ∈ names, ∀ c ∈ n, c ≠ 34 ∧ c ≠ sep ∧ c ≠ 10) :
    readCsv sep (csvOut [sep] headers names limit rows) =
      some (match rows with
        | [] => []
        | _ => (if headers then [names.map cstr] else []) ++ tableOf (limited limit rows)) := by
  cases rows with
  | nil => rfl
  | cons r rows =>
    simp only
    unfold csvOut tabLoop
    have hrow : ∀ (t : Str) (tbl : List (List Str)), Ends sep t → rdCsv sep .start t = some ([[]] :: tbl) →
        rdCsv sep .start (joinSep [sep] (csvCell [sep]) (r.map colText) ++ t) =
          some ((r.map fun c => cstr (colText c)) :: tbl) := by
      intro t tbl ht e
      have := row_rd (r.map colText) (fun x _ => writes_cell h1 x) (by simpa using hr r List.mem_cons_self) ht e h1
      rw [this, List.map_map]; rfl
    have hrest : ∃ t tbl, (if limit ≠ 0 ∧ 0 + 1 ≥ limit then [] else
          tabLoop [sep] (csvCell [sep]) headers names limit (0 + 1) rows) = t ∧ Ends sep t ∧
        rdCsv sep .start t = some ([[]] :: tbl) ∧ tableOf (limited limit (r :: rows)) = (r.map fun c => cstr (colText c)) :: tbl := by
      by_cases hlim : limit ≠ 0 ∧ 0 + 1 ≥ limit
      · rw [if_pos hlim]
        have : limit = 1 := by omega
        subst this
        exact ⟨[], [], rfl, Or.inl rfl, rfl, rfl⟩
      · rw [if_neg hlim]
        obtain ⟨a, b⟩ := more_rd h1 h2 headers names limit rows (0 + 1) (fun x hx => hr x (List.mem_cons_of_mem _ hx)) (by omega)
          (fun h => by omega)
        refine ⟨_, _, rfl, a, b, ?_⟩
        unfold limited
        by_cases h0 : limit = 0
        · rw [if_pos h0, if_pos h0]; rfl
        · rw [if_neg h0, if_neg h0]
          have : limit = (limit - (0 + 1)) + 1 := by omega
          rw [this, List.take_succ_cons]; rfl
    obtain ⟨t, tbl, e0, e1, e2, e3⟩ := hrest
    rw [e0, e3]
    have e4 := hrow t tbl e1 e2
    cases headers with
    | false =>
      rw [if_neg (fun h => Bool.false_ne_true h.2), if_neg (fun h => h.elim (fun h => h rfl) Bool.false_ne_true)]
      simp only [List.nil_append, Bool.false_eq_true, if_false]
      unfold readCsv
      rw [if_neg (by simp [join_ne (f := csvCell [sep]) (cell_ne [sep]) (r.map colText) (by simpa using hr r List.mem_cons_self)])]
      exact e4
    | true =>
      rw [if_pos ⟨rfl, rfl⟩, if_pos (Or.inr rfl)]
      unfold readCsv
      rw [if_neg (by simp)]
      simp only [if_true, List.append_assoc, List.cons_append, List.nil_append]
      refine row_rd (f := cstr) (v := cstr) names (fun n hn' => fun t ht => rd_start sep h1 _ (fun c hc => hq n hn' c ?_) ht) hn
        (Or.inr (Or.inr ⟨_, rfl⟩)) ?_ h1
      · exact (List.takeWhile_sublist _).subset hc
      · have e5 : ∀ s, rdCsv sep .start (10 :: s) = (rdCsv sep .start s).map newRow := by
          intro s; simp [rdCsv, Ne.symm h2]
        rw [e5, e4]; rfl

/-- A table with separators, quotes, line ends and an empty text. -/
example : readCsv 44 (csvOut (asc ",") true [asc "a", asc "b"] 2 [[.text (asc "x,\"y\n"), .num (asc "1")], [.null, .text (asc "p q")], [.null, .null]]) =
    some [[asc "a", asc "b"], [asc "x,\"y\n", asc "1"], [[], asc "p q"]] := by decide +kernel

/-- **C101, counterexample.** With a separator of two bytes, a text that contains it - not at the start - is not
quoted, and the row gets one field more (the same text as two columns). -/
theorem C101_long_separator_refuted :
    csvOut (asc "::") false [asc "a"] 0 [[.text (asc "x::y")]] = csvOut (asc "::") false [asc "a", asc "b"] 0 [[.text (asc "x"), .text (asc "y")]] := by
  decide +kernel

/-- **C101, counterexample.** The name of a column is not quoted: `select 1 as "a,b"` has two names and one value. -/
theorem C101_header_refuted :
    readCsv 44 (csvOut (asc ",") true [asc "a,b"] 0 [[.num (asc "1")]]) = some [[asc "a", asc "b"], [asc "1"]] := by
  decide +kernel

end Verif.Sql.Out
