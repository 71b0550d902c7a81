import Verif.Sql.OutLine

/-!
# C188: the mode list of db.query
-/
namespace Verif.Sql.OutLine
open Verif
open Verif.Sql.Out (cstr colText Cell joinSep)

/-- `db.query(…, {mode:'list', separator:…, headers:…, limit:…})`. -/
def listOut (sep : Str) (headers : Bool) (names : List Str) (limit : Nat) (rows : List (List Cell)) : Str :=
  listLoop (cstr sep) headers names limit 0 rows

/-- A text cut at a character. -/
def cut (d : UInt8) : Str → List Str
  | [] => [[]]
  | c :: t => if c = d then [] :: cut d t else
    match cut d t with
    | [] => [[c]]
    | l :: r => (c :: l) :: r

theorem cut_app (d : UInt8) (a : Str) (ha : d ∉ a) (t : Str) : cut d (a ++ d :: t) = a :: cut d t := by
  induction a with
  | nil => simp [cut]
  | cons c a ih =>
    have hc : ¬ c = d := fun e => ha (by simp [e])
    rw [List.cons_append, cut, if_neg hc, ih (fun h => ha (by simp [h]))]

theorem cut_one (d : UInt8) (a : Str) (ha : d ∉ a) : cut d a = [a] := by
  induction a with
  | nil => rfl
  | cons c a ih =>
    have hc : ¬ c = d := fun e => ha (by simp [e])
    rw [cut, if_neg hc, ih (fun h => ha (by simp [h]))]

theorem cut_join (d : UInt8) : ∀ (a : Str) (t : List Str), (∀ s ∈ a :: t, d ∉ s) → cut d (joinSep [d] id (a :: t)) = a :: t
  | a, [], h => by rw [joinSep]; exact cut_one d a (h a (by simp))
  | a, b :: t, h => by
    rw [joinSep]
    have e : id a ++ [d] ++ joinSep [d] id (b :: t) = a ++ d :: joinSep [d] id (b :: t) := by simp
    rw [e, cut_app d a (h a (by simp)), cut_join d b t (fun s hs => h s (by simp [List.mem_cons.1 hs]))]

theorem lines_cut : ∀ s : Str, lines s = cut 10 s
  | [] => rfl
  | c :: t => by rw [lines, cut, lines_cut t]; rfl

/-- The loop from the second row on, or with the names written. -/
theorem listLoop_eq (sep : Str) (headers : Bool) (names : List Str) (limit : Nat) : ∀ (rows : List (List Cell)) (cnt : Nat),
    cnt ≠ 0 → limit = 0 ∨ cnt < limit →
    listLoop sep headers names limit cnt rows =
      (if limit = 0 then rows else rows.take (limit - cnt)).flatMap fun r => 10 :: joinSep sep id (r.map colText)
  | [], cnt, _, _ => by simp [listLoop]
  | r :: rows, cnt, h0, h => by
    rw [listLoop, if_neg (fun x => h0 x.1), if_pos (Or.inl h0)]
    by_cases hl : limit ≠ 0 ∧ cnt + 1 ≥ limit
    · have : limit - cnt = 1 := by omega
      rw [if_pos hl, if_neg hl.1, this]
      simp
    · rw [if_neg hl, listLoop_eq sep headers names limit rows (cnt + 1) (by omega) (by omega)]
      have e : (if limit = 0 then r :: rows else (r :: rows).take (limit - cnt)) =
          r :: (if limit = 0 then rows else rows.take (limit - (cnt + 1))) := by
        by_cases h1 : limit = 0
        · simp [h1]
        · rw [if_neg h1, if_neg h1, show limit - cnt = (limit - (cnt + 1)) + 1 by omega, List.take_succ_cons]
      rw [e, List.flatMap_cons]; simp

theorem glue_flat : ∀ (a : Str) (t : List Str), glue (a :: t) = a ++ t.flatMap fun s => 10 :: s
  | a, [] => by simp [glue]
  | a, b :: t => by rw [glue, glue_flat b t]; simp

/-- The text: the names if asked for, and the rows. -/
theorem listOut_eq (sep : Str) (headers : Bool) (names : List Str) (limit : Nat) (rows : List (List Cell)) (hr : rows ≠ []) :
    listOut sep headers names limit rows =
      glue ((if headers then [joinSep (cstr sep) cstr names] else []) ++
        (wanted limit rows).map fun r => joinSep (cstr sep) id (r.map colText)) := by
  cases rows with
  | nil => exact absurd rfl hr
  | cons r rows =>
    have e : wanted limit (r :: rows) = r :: (if limit = 0 then rows else rows.take (limit - 1)) := by
      rw [wanted]
      by_cases h1 : limit = 0
      · simp [h1]
      · rw [if_neg h1, if_neg h1]
        conv_lhs => rw [show limit = (limit - 1) + 1 by omega]
        rw [List.take_succ_cons]
    rw [listOut, listLoop, e]
    have rest : (if limit ≠ 0 ∧ 0 + 1 ≥ limit then [] else listLoop (cstr sep) headers names limit (0 + 1) rows) =
        ((if limit = 0 then rows else rows.take (limit - 1)).map fun r => joinSep (cstr sep) id (r.map colText)).flatMap
          fun s => 10 :: s := by
      rw [List.flatMap_map]
      by_cases hl : limit ≠ 0 ∧ 0 + 1 ≥ limit
      · have : limit = 1 := by omega
        rw [if_pos hl]; subst this; simp
      · rw [if_neg hl, listLoop_eq _ _ _ _ _ _ (by omega) (by omega)]
    rw [rest]
    cases headers with
    | true =>
      simp only [if_true, List.map_cons, List.cons_append, List.nil_append, glue_flat]
      simp
    | false =>
      simp only [Bool.false_eq_true, if_false, List.map_cons, List.nil_append, glue_flat]
      simp

theorem joinSep_cstr (sep : Str) : ∀ (names : List Str), (∀ n ∈ names, NoNul n) → joinSep sep cstr names = joinSep sep id names
  | [], _ => rfl
  | [a], h => by rw [joinSep, joinSep, cstr_id (h a (by simp))]; rfl
  | a :: b :: t, h => by
    rw [joinSep, joinSep, cstr_id (h a (by simp)), joinSep_cstr sep (b :: t) (fun n hn => h n (by simp [List.mem_cons.1 hn]))]; rfl

theorem join_clean (d : UInt8) (hd : d ≠ 10) : ∀ l : List Str, (∀ s ∈ l, (10 : UInt8) ∉ s) → (10 : UInt8) ∉ joinSep [d] id l
  | [], _ => by simp [joinSep]
  | [a], h => by rw [joinSep]; exact h a (by simp)
  | a :: b :: t, h => by
    rw [joinSep]
    intro hm
    rcases List.mem_append.1 hm with hm | hm
    · rcases List.mem_append.1 hm with hm | hm
      · exact h a (by simp) hm
      · exact hd (List.mem_singleton.1 hm).symm
    · exact join_clean d hd (b :: t) (fun s hs => h s (by simp [List.mem_cons.1 hs])) hm

/-- **C188 (part).** In the mode `list`, with a separator of one character, cutting the text into lines and each line at
the separator gives the names, if asked for, and the values of all the rows asked for; for names and values without line
feeds and separators (values with NUL in them are kept). -/
theorem C188_read_back_partial (d : UInt8) (headers : Bool) (names : List Str) (limit : Nat) (rows : List (List Cell))
    (hd : d ≠ 10 ∧ d ≠ 0) (hr : rows ≠ []) (hn : names ≠ [] ∧ ∀ n ∈ names, NoNul n ∧ d ∉ n ∧ (10 : UInt8) ∉ n)
    (hv : ∀ r ∈ rows, r ≠ [] ∧ ∀ c ∈ r, d ∉ colText c ∧ (10 : UInt8) ∉ colText c) :
    (lines (listOut [d] headers names limit rows)).map (cut d) =
      (if headers then [names] else []) ++ (wanted limit rows).map fun r => r.map colText := by
  have hs : cstr [d] = [d] := cstr_id (by intro c hc; rw [List.mem_singleton.1 hc]; exact hd.2)
  rw [listOut_eq _ _ _ _ _ hr, hs, joinSep_cstr [d] names (fun n h => (hn.2 n h).1)]
  have wm : ∀ r ∈ wanted limit rows, r ∈ rows := by
    intro c h; rw [wanted] at h; split at h
    · exact h
    · exact List.mem_of_mem_take h
  have ne : wanted limit rows ≠ [] := by
    rw [wanted]; split
    · exact hr
    · next h0 => cases rows with
      | nil => exact absurd rfl hr
      | cons a t =>
        rw [show limit = (limit - 1) + 1 by omega, List.take_succ_cons]; simp
  generalize wanted limit rows = l at wm ne
  have cl : ∀ s ∈ (if headers then [joinSep [d] id names] else []) ++ l.map (fun r => joinSep [d] id (r.map colText)),
      (10 : UInt8) ∉ s := by
    intro s hs
    rcases List.mem_append.1 hs with hs | hs
    · cases headers with
      | false => simp at hs
      | true =>
        simp only [if_true, List.mem_singleton] at hs
        rw [hs]; exact join_clean d hd.1 names (fun n h => (hn.2 n h).2.2)
    · obtain ⟨r, hrm, rfl⟩ := List.mem_map.1 hs
      refine join_clean d hd.1 _ ?_
      intro x hx
      obtain ⟨c, hc, rfl⟩ := List.mem_map.1 hx
      exact ((hv r (wm r hrm)).2 c hc).2
  have lg : ∀ q : List Str, q ≠ [] → (∀ s ∈ q, (10 : UInt8) ∉ s) → lines (glue q) = q := by
    intro q hq h
    cases q with
    | nil => exact absurd rfl hq
    | cons a t => exact lines_glue a t (fun s hs c hc e => h s hs (e ▸ hc))
  rw [lg _ (by simp [ne]) cl, List.map_append, List.map_map]
  congr 1
  · cases headers with
    | false => rfl
    | true =>
      obtain ⟨n0, nt, e⟩ := List.exists_cons_of_ne_nil hn.1
      simp only [if_true, List.map_cons, List.map_nil, e]
      rw [cut_join d n0 nt (by rw [← e]; exact fun s h => (hn.2 s h).2.1)]
  · refine List.map_congr_left ?_
    intro r hm
    have h := hv r (wm r hm)
    obtain ⟨c0, ct, e⟩ := List.exists_cons_of_ne_nil h.1
    subst e
    simp only [Function.comp, List.map_cons]
    refine cut_join d _ _ ?_
    intro s hs
    rw [← List.map_cons] at hs
    obtain ⟨c, hc, rfl⟩ := List.mem_map.1 hs
    exact (h.2 c hc).1

example : listOut (asc "|") true [asc "a", asc "b"] 1 [[.text (asc "x y"), .null], [.num (asc "2"), .null]] =
    asc "a|b\nx y|" := by decide +kernel

/-- **C188 refuted**: a value with the separator in it cannot be told from two values; nothing is quoted. -/
theorem C188_separator_refuted : listOut (asc "|") false [asc "a", asc "b"] 0 [[.text (asc "x|y"), .text (asc "z")]] =
    listOut (asc "|") false [asc "a", asc "b"] 0 [[.text (asc "x"), .text (asc "y|z")]] := by decide +kernel

/-- **C188 refuted**: without rows the names are not written. -/
theorem C188_no_rows_refuted (sep : Str) (names : List Str) (limit : Nat) : listOut sep true names limit [] = [] := rfl

end Verif.Sql.OutLine
