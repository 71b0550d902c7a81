import Verif.Sql.Out
import Mathlib.Tactic.Conv
import Mathlib.Tactic.Tauto
import Mathlib.Data.List.TakeWhile

/-!
# db.query in the modes column, line and list (src/jsiSqlite.c)

Modelled: the loops of `SqliteQueryCmd` for `list` (2767-2790), `column` (2792-2863) and `line` (2942-2971).
-/
namespace Verif.Sql.OutLine
open Verif
open Verif.Sql.Out (cstr colText Cell joinSep)

abbrev Str := List UInt8

def spaces (n : Nat) : Str := List.replicate n 32

/-- The loop of the mode `list` (src/jsiSqlite.c 2768-2788); names and values are appended as they are. -/
def listLoop (sep : Str) (headers : Bool) (names : List Str) (limit : Nat) : Nat → List (List Cell) → Str
  | _, [] => []
  | cnt, r :: rows =>
    (if cnt = 0 ∧ headers = true then joinSep sep cstr names else []) ++
    (if cnt ≠ 0 ∨ headers = true then [10] else []) ++
    joinSep sep id (r.map colText) ++
    (if limit ≠ 0 ∧ cnt + 1 ≥ limit then [] else listLoop sep headers names limit (cnt + 1) rows)

/-- `%*s` with a width (the names are C strings). -/
def padLeft (w : Nat) (s : Str) : Str := spaces (w - s.length) ++ s

/-- The width of the names in the mode `line`: at least 5 (src/jsiSqlite.c 2943-2953). -/
def lineWidth (names : List Str) : Nat := names.foldl (fun w n => max w (cstr n).length) 5

/-- One column of the mode `line` (src/jsiSqlite.c 2957-2963): `%*s = %s`. -/
def lineText (w : Nat) (p : Str × Cell) : Str := padLeft w (cstr p.1) ++ asc " = " ++ cstr (colText p.2)

/-- The loop of the mode `line` (src/jsiSqlite.c 2946-2968): a line feed before each column, but not in the first row. -/
def lineLoop (w : Nat) (names : List Str) (limit : Nat) : Nat → List (List Cell) → Str
  | _, [] => []
  | cnt, r :: rows =>
    ((names.zip r).flatMap fun p => (if cnt ≠ 0 then [10] else []) ++ lineText w p) ++
    (if limit ≠ 0 ∧ cnt + 1 ≥ limit then [] else lineLoop w names limit (cnt + 1) rows)

/-- `db.query(…, {mode:'line', limit:…})`. -/
def lineOut (names : List Str) (limit : Nat) (rows : List (List Cell)) : Str :=
  lineLoop (lineWidth names) names limit 0 rows

/-- The width of a column in the mode `column` (src/jsiSqlite.c 2804-2814): `opt` is the number at its place in the
option `width`, as an `int`, if there is one and it is positive. -/
def colWidth (name : Str) (opt : Option Nat) : Nat := opt.getD (max 10 (cstr name).length)

/-- A name at the top (src/jsiSqlite.c 2815-2819). -/
def colName (name : Str) (w : Nat) : Str :=
  (cstr name).take (min (cstr name).length w) ++ spaces (if (cstr name).length < w then w - (cstr name).length + 1 else 0)

/-- What is written before the first row (src/jsiSqlite.c 2801-2836). -/
def colHead (sep : Str) (headers : Bool) (names : List Str) (wids : List Nat) : Str :=
  ((names.zip wids).flatMap fun p => colName p.1 p.2) ++
  (if headers then (List.replicate (names.length - 1) (cstr sep)).flatten ++ [10] ++
    joinSep (cstr sep) id (wids.map fun w => List.replicate w 45) ++ [10] else [])

/-- A value in its column (src/jsiSqlite.c 2844-2855). -/
def fit (p : Nat × Cell) : Str :=
  if (colText p.2).length > p.1 then cstr ((colText p.2).take p.1)
  else cstr (colText p.2) ++ spaces (p.1 - (colText p.2).length)

/-- A row (src/jsiSqlite.c 2841-2856). -/
def colRow (sep : Str) (wids : List Nat) (r : List Cell) : Str := joinSep (cstr sep) id ((wids.zip r).map fit)

/-- The loop of the mode `column` (src/jsiSqlite.c 2795-2859). -/
def colLoop (sep : Str) (headers : Bool) (names : List Str) (wids : List Nat) (limit : Nat) : Nat → List (List Cell) → Str
  | _, [] => []
  | cnt, r :: rows =>
    (if cnt = 0 then colHead sep headers names wids else []) ++ (if cnt ≠ 0 then [10] else []) ++ colRow sep wids r ++
    (if limit ≠ 0 ∧ cnt + 1 ≥ limit then [] else colLoop sep headers names wids limit (cnt + 1) rows)

/-- `db.query(…, {mode:'column', width:…, headers:…, separator:…, limit:…})`. -/
def colOut (sep : Str) (headers : Bool) (names : List Str) (opts : List (Option Nat)) (limit : Nat)
    (rows : List (List Cell)) : Str :=
  colLoop sep headers names (names.zipWith colWidth opts) limit 0 rows

/-! ### C186: one line for each column -/

def NoNul (s : Str) : Prop := ∀ c ∈ s, c ≠ 0

theorem cstr_id {s : Str} (h : NoNul s) : cstr s = s := by
  rw [cstr, List.takeWhile_eq_self_iff]; intro x hx; simpa using h x hx

/-- The rows asked for. -/
def wanted {α : Type} (limit : Nat) (rows : List α) : List α := if limit = 0 then rows else rows.take limit

/-- The lines of a text. -/
def lines : Str → List Str
  | [] => [[]]
  | c :: t => if c = 10 then [] :: lines t else
    match lines t with
    | [] => [[c]]
    | l :: r => (c :: l) :: r

theorem lines_app (a : Str) (ha : ∀ c ∈ a, c ≠ 10) (t : Str) : lines (a ++ 10 :: t) = a :: lines t := by
  induction a with
  | nil => simp [lines]
  | cons c a ih =>
    rw [List.cons_append, lines, if_neg (ha c (by simp)), ih (fun x hx => ha x (by simp [hx]))]

theorem lines_one (a : Str) (ha : ∀ c ∈ a, c ≠ 10) : lines a = [a] := by
  induction a with
  | nil => rfl
  | cons c a ih => rw [lines, if_neg (ha c (by simp)), ih (fun x hx => ha x (by simp [hx]))]

/-- Lines run together with line feeds. -/
def glue : List Str → Str
  | [] => []
  | [a] => a
  | a :: b :: t => a ++ 10 :: glue (b :: t)

theorem lines_glue : ∀ (a : Str) (t : List Str), (∀ s ∈ a :: t, ∀ c ∈ s, c ≠ 10) → lines (glue (a :: t)) = a :: t
  | a, [], h => lines_one a (h a (by simp))
  | a, b :: t, h => by
    rw [glue, lines_app a (h a (by simp)), lines_glue b t (fun s hs => h s (by simp [List.mem_cons.1 hs]))]

/-- A table of one column. -/
theorem lineLoop_one (w : Nat) (n : Str) (limit : Nat) : ∀ (cells : List Cell) (cnt : Nat), limit = 0 ∨ cnt < limit →
    lineLoop w [n] limit cnt (cells.map fun c => [c]) =
      (if cnt ≠ 0 ∧ cells ≠ [] then [10] else []) ++
        glue ((if limit = 0 then cells else cells.take (limit - cnt)).map fun c => lineText w (n, c))
  | [], cnt, _ => by simp [lineLoop, glue]
  | c :: cells, cnt, h => by
    rw [List.map_cons, lineLoop]
    have z : [n].zip [c] = [(n, c)] := rfl
    rw [z]
    by_cases hl : limit ≠ 0 ∧ cnt + 1 ≥ limit
    · have : limit - cnt = 1 := by omega
      rw [if_pos hl, if_neg hl.1, this]
      simp [glue]
    · rw [if_neg hl, lineLoop_one w n limit cells (cnt + 1) (by omega)]
      have e : (if limit = 0 then c :: cells else (c :: cells).take (limit - cnt)) =
          c :: (if limit = 0 then cells else cells.take (limit - (cnt + 1))) := by
        by_cases h0 : limit = 0
        · simp [h0]
        · rw [if_neg h0, if_neg h0, show limit - cnt = (limit - (cnt + 1)) + 1 by omega, List.take_succ_cons]
      rw [e]
      cases cells with
      | nil => simp [glue]
      | cons r2 rows =>
        have : ∃ x t, (if limit = 0 then r2 :: rows else (r2 :: rows).take (limit - (cnt + 1))) = x :: t := by
          by_cases h0 : limit = 0
          · exact ⟨r2, rows, by simp [h0]⟩
          · exact ⟨r2, rows.take (limit - (cnt + 1) - 1), by
              rw [if_neg h0]
              conv_lhs => rw [show limit - (cnt + 1) = (limit - (cnt + 1) - 1) + 1 by omega]
              rw [List.take_succ_cons]⟩
        obtain ⟨x, t, e2⟩ := this
        rw [e2]
        simp only [List.map_cons, glue]
        simp

theorem lineText_clean (w : Nat) (n : Str) (c : Cell) (hn : ∀ x ∈ n, x ≠ 10) (hc : ∀ x ∈ colText c, x ≠ 10) :
    ∀ x ∈ lineText w (n, c), x ≠ 10 := by
  intro x hx
  simp only [lineText, padLeft, spaces] at hx
  have m : ∀ s : Str, x ∈ cstr s → x ∈ s := fun s h => List.IsPrefix.mem h (List.takeWhile_prefix _)
  rcases List.mem_append.1 hx with hx | hx
  · rcases List.mem_append.1 hx with hx | hx
    · rcases List.mem_append.1 hx with hx | hx
      · rw [(List.mem_replicate.1 hx).2]; decide
      · exact hn x (m _ hx)
    · have : x = 32 ∨ x = 61 := by
        rw [show asc " = " = [32, 61, 32] by decide] at hx; simp at hx; tauto
      rcases this with rfl | rfl <;> decide
  · exact hc x (m _ hx)

/-- **C186 (part).** In the mode `line` a query with one column gives one line for each row asked for: the name with
spaces before it up to the width, " = " and the value; for values and names without NUL and line feeds. -/
theorem C186_one_column_partial (n : Str) (limit : Nat) (cells : List Cell) (hc : cells ≠ [])
    (hn : NoNul n ∧ ∀ x ∈ n, x ≠ 10) (hv : ∀ c ∈ cells, NoNul (colText c) ∧ ∀ x ∈ colText c, x ≠ 10) :
    lines (lineOut [n] limit (cells.map fun c => [c])) =
      (wanted limit cells).map fun c => spaces (max 5 n.length - n.length) ++ n ++ [32, 61, 32] ++ colText c := by
  rw [lineOut, lineLoop_one _ n limit cells 0 (by omega), if_neg (by simp), List.nil_append]
  have w : (if limit = 0 then cells else cells.take (limit - 0)) = wanted limit cells := by simp [wanted]
  rw [w]
  have wm : ∀ c ∈ wanted limit cells, c ∈ cells := by
    intro c h; rw [wanted] at h; split at h
    · exact h
    · exact List.mem_of_mem_take h
  have ne : wanted limit cells ≠ [] := by
    rw [wanted]; split
    · exact hc
    · next h0 => cases cells with
      | nil => exact absurd rfl hc
      | cons a t =>
        rw [show limit = (limit - 1) + 1 by omega, List.take_succ_cons]; simp
  have lw : lineWidth [n] = max 5 n.length := by
    simp only [lineWidth, List.foldl_cons, List.foldl_nil, cstr_id hn.1]
  generalize wanted limit cells = l at wm ne
  cases l with
  | nil => exact absurd rfl ne
  | cons c t =>
    rw [List.map_cons, lines_glue]
    · refine (List.map_cons (f := fun c => lineText (lineWidth [n]) (n, c)) ..).symm.trans ?_
      refine List.map_congr_left ?_
      intro x hx
      rw [lineText, padLeft, cstr_id hn.1, cstr_id (hv x (wm x hx)).1, lw, show asc " = " = [32, 61, 32] by decide]
    · intro s hs
      have hs : s ∈ (c :: t).map (fun c => lineText (lineWidth [n]) (n, c)) := hs
      obtain ⟨x, hx, rfl⟩ := List.mem_map.1 hs
      exact lineText_clean _ n x hn.2 (hv x (wm x hx)).2

example : lineOut [asc "id"] 2 [[.num (asc "7")], [.text (asc "x y")], [.null]] = asc "   id = 7\n   id = x y" := by
  decide +kernel

/-- **C186 refuted**: with more columns the first row is run together on one line; the other rows are not. -/
theorem C186_first_row_refuted : lineOut [asc "id", asc "name"] 0 [[.num (asc "7"), .text (asc "x")], [.num (asc "8"), .null]] =
    asc "   id = 7 name = x\n   id = 8\n name = " := by decide +kernel

/-! ### C187: columns of fixed width -/

theorem fit_eq (w : Nat) (c : Cell) (h : NoNul (colText c)) : fit (w, c) = (colText c ++ spaces w).take w := by
  rw [fit]
  dsimp only
  by_cases hl : (colText c).length > w
  · rw [if_pos hl, List.take_append_of_le_length (by omega), cstr_id]
    exact fun x hx => h x (List.mem_of_mem_take hx)
  · rw [if_neg hl, cstr_id h, List.take_append, List.take_of_length_le (by omega), spaces, spaces, List.take_replicate]
    congr 2; omega

/-- What is where in the fields of a row. -/
theorem fields_eq : ∀ (wids : List Nat) (r : List Cell), (∀ c ∈ r, NoNul (colText c)) →
    (wids.zip r).map fit = (wids.zip r).map fun p => (colText p.2 ++ spaces p.1).take p.1
  | [], _, _ => by simp
  | _ :: _, [], _ => by simp
  | w :: ws, c :: t, h => by
    rw [List.zip_cons_cons, List.map_cons, List.map_cons, fields_eq ws t (fun x hx => h x (by simp [hx])), fit_eq w c (h c (by simp))]

theorem colLoop_eq (sep : Str) (headers : Bool) (names : List Str) (wids : List Nat) (limit : Nat) :
    ∀ (rows : List (List Cell)) (cnt : Nat), limit = 0 ∨ cnt < limit →
    colLoop sep headers names wids limit cnt rows =
      (if cnt = 0 ∧ rows ≠ [] then colHead sep headers names wids else []) ++ (if cnt ≠ 0 ∧ rows ≠ [] then [10] else []) ++
        glue ((if limit = 0 then rows else rows.take (limit - cnt)).map (colRow sep wids))
  | [], cnt, _ => by simp [colLoop, glue]
  | c :: cells, cnt, h => by
    rw [colLoop]
    by_cases hl : limit ≠ 0 ∧ cnt + 1 ≥ limit
    · have : limit - cnt = 1 := by omega
      rw [if_pos hl, if_neg hl.1, this]
      simp [glue]
    · rw [if_neg hl, colLoop_eq sep headers names wids limit cells (cnt + 1) (by omega)]
      have e : (if limit = 0 then c :: cells else (c :: cells).take (limit - cnt)) =
          c :: (if limit = 0 then cells else cells.take (limit - (cnt + 1))) := by
        by_cases h0 : limit = 0
        · simp [h0]
        · rw [if_neg h0, if_neg h0, show limit - cnt = (limit - (cnt + 1)) + 1 by omega, List.take_succ_cons]
      rw [e]
      cases cells with
      | nil => simp [glue]
      | cons r2 rows =>
        have : ∃ x t, (if limit = 0 then r2 :: rows else (r2 :: rows).take (limit - (cnt + 1))) = x :: t := by
          by_cases h0 : limit = 0
          · exact ⟨r2, rows, by simp [h0]⟩
          · exact ⟨r2, rows.take (limit - (cnt + 1) - 1), by
              rw [if_neg h0]
              conv_lhs => rw [show limit - (cnt + 1) = (limit - (cnt + 1) - 1) + 1 by omega]
              rw [List.take_succ_cons]⟩
        obtain ⟨x, t, e2⟩ := this
        rw [e2]
        simp only [List.map_cons, glue]
        simp

/-- The widths: the option's, or the length of the name and at least 10. -/
def widths (names : List Str) (opts : List (Option Nat)) : List Nat := names.zipWith (fun n o => o.getD (max 10 n.length)) opts

/-- **C187 (part).** In the mode `column` every row asked for is on a line of its own, in which each value is cut or
filled with spaces to the width of its column, with the separator between them; for rows of any number, values and
names without NUL. -/
theorem C187_rows_partial (sep : Str) (headers : Bool) (names : List Str) (opts : List (Option Nat)) (limit : Nat)
    (rows : List (List Cell)) (hs : NoNul sep) (hn : ∀ n ∈ names, NoNul n) (hr : rows ≠ [])
    (hv : ∀ r ∈ rows, ∀ c ∈ r, NoNul (colText c)) :
    ∃ head : Str, colOut sep headers names opts limit rows = head ++ glue ((wanted limit rows).map fun r =>
      joinSep sep id (((widths names opts).zip r).map fun p => (colText p.2 ++ spaces p.1).take p.1)) := by
  have hw : names.zipWith colWidth opts = widths names opts := by
    rw [widths]
    induction names generalizing opts with
    | nil => rfl
    | cons n t ih =>
      cases opts with
      | nil => rfl
      | cons o os =>
        rw [List.zipWith_cons_cons, List.zipWith_cons_cons, ih os (fun x hx => hn x (by simp [hx])), colWidth,
          cstr_id (hn n (by simp))]
  refine ⟨colHead sep headers names (widths names opts), ?_⟩
  rw [colOut, hw, colLoop_eq sep headers names _ limit rows 0 (by omega)]
  have w : (if limit = 0 then rows else rows.take (limit - 0)) = wanted limit rows := by simp [wanted]
  rw [w, if_pos ⟨rfl, hr⟩, if_neg (by simp), List.append_nil]
  congr 2
  refine List.map_congr_left ?_
  intro r hm
  have : r ∈ rows := by
    rw [wanted] at hm; split at hm
    · exact hm
    · exact List.mem_of_mem_take hm
  rw [colRow, cstr_id hs, fields_eq _ r (hv r this)]

/-- Each field is as wide as its column. -/
theorem fields_width (w : Nat) (v : Str) : ((v ++ spaces w).take w).length = w := by simp [spaces]

example : colOut (asc " ") true [asc "id", asc "name"] [some 3, none] 0 [[.num (asc "12345"), .text (asc "x")], [.null, .null]] =
    asc "id  name        \n--- ----------\n123 x         \n              " := by decide +kernel

/-- **C187 refuted**: without headers the names are written all the same, on the line of the first row. -/
theorem C187_no_headers_refuted : colOut (asc " ") false [asc "id"] [none] 0 [[.num (asc "7")]] =
    asc "id         7         " := by decide +kernel

/-- **C187 refuted**: names as wide as their columns have no separator behind them. -/
theorem C187_names_refuted : colOut (asc " ") true [asc "first", asc "second"] [some 5, some 6] 0 [[.num (asc "1"), .num (asc "2")]] =
    asc "firstsecond \n----- ------\n1     2     " := by decide +kernel

/-- **C187 refuted**: the width counts bytes, so a letter beyond ASCII can be cut in two. -/
theorem C187_cut_refuted : colOut (asc " ") true [asc "a"] [some 1] 0 [[.text [0xc3, 0xa9]]] = asc "a\n-\n" ++ [0xc3] := by
  decide +kernel

end Verif.Sql.OutLine
