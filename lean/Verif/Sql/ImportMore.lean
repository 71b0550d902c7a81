import Verif.Sql.ImportProps

/-! # `db.import`: files without quotes, wrong numbers of values, any file at all (C189) -/

namespace Verif.Sql.Import

open Verif
open Verif.Sql.Out (joinSep)

theorem loop_line {sep nullv : Str} (hs : SepOk sep) {nCol : Nat} (s : Str) (t : List Str)
    (h : ∀ x ∈ s :: t, (10 : UInt8) ∉ x ∧ sep.headD 0 ∉ x) (csv : Bool)
    (hc : csv = true → (34 : UInt8) ∉ joinSep sep id (s :: t)) (rest : Str) (n : Nat) (rows : List (List (Option Str))) :
    loop csv sep nullv nCol (n + 1) (getLines (joinSep sep id (s :: t) ++ 10 :: rest)) rows =
      if (s :: t).length = nCol then loop csv sep nullv nCol n (getLines rest) (rows ++ [(s :: t).map (bindVal nullv)])
      else .rollback := by
  have hl : (10 : UInt8) ∉ joinSep sep id (s :: t) := by
    clear hc
    induction t generalizing s with
    | nil => exact (h s (by simp)).1
    | cons g t ih =>
      have := ih g (fun x hx => h x (by simp [List.mem_cons.1 hx]))
      show (10 : UInt8) ∉ s ++ sep ++ joinSep sep id (g :: t)
      simp only [List.mem_append, not_or]
      exact ⟨⟨(h s (by simp)).1, hs.2.2⟩, this⟩
  have hlen : ∀ (s : Str) (t : List Str), t.length ≤ (joinSep sep id (s :: t)).length := by
    intro s t
    induction t generalizing s with
    | nil => simp
    | cons g t ih =>
      have := ih g
      show _ ≤ (s ++ sep ++ joinSep sep id (g :: t)).length
      have : sep.length ≠ 0 := by simpa using hs.1
      simp only [List.length_append, List.length_cons]; omega
  have hx : ¬(csv = true ∧ 34 ∈ joinSep sep id (s :: t)) := fun x => hc x.1 x.2
  rw [getLines_app _ hl, loop, if_neg hx]
  simp only [cols]
  rw [if_neg hx, plainCols_rec hs t s _ (fun x hx => (h x hx).2) (hlen s t)]
  by_cases e : (s :: t).length = nCol
  · rw [if_pos e, if_neg (by simpa using e)]
  · rw [if_neg e, if_pos e]

/-- **C189 (part).** Without `csv` quotes mean nothing: every line is a record, cut at the separators, whatever the values
are; NULL as with `csv`. -/
theorem C189_lines_partial (sep nullv : Str) (hs : SepOk sep) (nCol : Nat) (rs : List (List Str))
    (h : ∀ r ∈ rs, r ≠ [] ∧ r.length = nCol ∧ ∀ s ∈ r, (10 : UInt8) ∉ s ∧ sep.headD 0 ∉ s) :
    importFile false sep nullv nCol (rs.flatMap fun r => joinSep sep id r ++ [10]) =
      .commit (rs.map fun r => r.map fun s => if s = [] ∨ (nullv ≠ [] ∧ s = nullv) then none else some s) := by
  have key : ∀ (rs : List (List Str)) (rows : List (List (Option Str))) (n : Nat),
      (∀ r ∈ rs, r ≠ [] ∧ r.length = nCol ∧ ∀ s ∈ r, (10 : UInt8) ∉ s ∧ sep.headD 0 ∉ s) →
      loop false sep nullv nCol (rs.length + n) (getLines (rs.flatMap fun r => joinSep sep id r ++ [10])) rows =
        .commit (rows ++ rs.map fun r => r.map (bindVal nullv)) := by
    intro rs
    induction rs with
    | nil => intro rows n _; simp [getLines, loop_end]
    | cons r rs ih =>
      intro rows n h
      obtain ⟨h1, h2, h3⟩ := h r (by simp)
      cases r with
      | nil => exact absurd rfl h1
      | cons s t =>
        have e : ((s :: t) :: rs).flatMap (fun r => joinSep sep id r ++ [10]) =
            joinSep sep id (s :: t) ++ 10 :: rs.flatMap (fun r => joinSep sep id r ++ [10]) := by simp
        rw [e, show ((s :: t) :: rs).length + n = (rs.length + n) + 1 by simp; omega,
          loop_line hs s t h3 false (by simp), if_pos h2, ih _ n (fun x hx => h x (by simp [hx]))]
        simp
  have hk : ∀ rs : List (List Str), rs.length ≤ (getLines (rs.flatMap fun r => joinSep sep id r ++ [10])).length := by
    intro rs
    induction rs with
    | nil => simp
    | cons r rs ih =>
      have e : (r :: rs).flatMap (fun r => joinSep sep id r ++ [10]) =
          joinSep sep id r ++ 10 :: rs.flatMap (fun r => joinSep sep id r ++ [10]) := by simp
      have := lines_count (joinSep sep id r) (rs.flatMap fun r => joinSep sep id r ++ [10])
      rw [e, List.length_cons]; omega
  rw [importFile, ← Nat.add_sub_of_le (hk rs), key rs [] _ h, List.nil_append]
  congr 1
  refine List.map_congr_left ?_
  intro r _
  refine List.map_congr_left ?_
  intro s _
  rw [bindVal]
  congr 1
  exact propext Or.comm

example : importFile false (asc "--") (asc "N") 2 (asc "\"a--b\nN--c\"\n") =
    .commit [[some (asc "\"a"), some (asc "b")], [none, some (asc "c\"")]] :=
  C189_lines_partial (asc "--") (asc "N") ⟨by decide, by decide, by decide⟩ 2 [[asc "\"a", asc "b"], [asc "N", asc "c\""]]
    (by decide)

/-- **C189 (part).** A record without quotes that has too few or too many values is an error, and nothing of the file is in
the table, not even the good records before. -/
theorem C189_wrong_count_partial (sep nullv : Str) (hs : SepOk sep) (nCol : Nat) (rs : List (List Field))
    (h : ∀ r ∈ rs, RecOk sep nCol r) (bad : List Str) (hb : bad ≠ []) (hn : bad.length ≠ nCol)
    (hv : ∀ s ∈ bad, (34 : UInt8) ∉ s ∧ (10 : UInt8) ∉ s ∧ sep.headD 0 ∉ s) (rest : Str) :
    importFile true sep nullv nCol (fileText sep rs ++ (joinSep sep id bad ++ 10 :: rest)) = .rollback := by
  have hc := file_count sep (joinSep sep id bad ++ 10 :: rest) rs
  have hc2 := lines_count (joinSep sep id bad) rest
  rw [importFile]
  obtain ⟨k, hk⟩ : ∃ k, (getLines (fileText sep rs ++ (joinSep sep id bad ++ 10 :: rest))).length = rs.length + (k + 1) :=
    ⟨(getLines (fileText sep rs ++ (joinSep sep id bad ++ 10 :: rest))).length - rs.length - 1, by omega⟩
  rw [hk, loop_file hs _ rs _ [] h]
  cases bad with
  | nil => exact absurd rfl hb
  | cons s t =>
    rw [loop_line hs s t (fun x hx => (hv x hx).2) true, if_neg hn]
    intro _
    clear hn hb hc hc2 hk
    induction t generalizing s with
    | nil => exact (hv s (by simp)).1
    | cons g t ih =>
      have := ih g (fun x hx => hv x (by simp [List.mem_cons.1 hx]))
      show (34 : UInt8) ∉ s ++ sep ++ joinSep sep id (g :: t)
      simp only [List.mem_append, not_or]
      exact ⟨⟨(hv s (by simp)).1, hs.2.1⟩, this⟩

example : importFile true (asc ",") [] 2 (asc "\"a\",b\nc\n") = .rollback :=
  C189_wrong_count_partial (asc ",") [] ⟨by decide, by decide, by decide⟩ 2 [[.quoted (asc "a"), .plain (asc "b")]]
    (by intro r hr
        rw [List.mem_singleton.1 hr]
        exact ⟨rfl, by
          intro f hf; simp only [List.mem_cons, List.not_mem_nil, or_false] at hf
          rcases hf with rfl | rfl <;> simp only [Field.Ok] <;> decide, [.quoted (asc "a")], asc "b", rfl⟩)
    [asc "c"] (by decide) (by decide) (by decide) []

/-- What is in the table afterwards. -/
def End.rows : End → List (List (Option Str))
  | .commit r => r
  | .closed2 r => r
  | _ => []

/-- **C189 (part).** Whatever the file is, every row that is in the table afterwards has the right number of columns, and
none of them is an empty text or the text that stands for NULL. -/
theorem C189_rows_partial (csv : Bool) (sep nullv : Str) (nCol : Nat) (text : Str) :
    ∀ r ∈ (importFile csv sep nullv nCol text).rows, r.length = nCol ∧ ∀ v ∈ r, v ≠ some [] ∧ (nullv ≠ [] → v ≠ some nullv) := by
  have key : ∀ (n : Nat) (ls : List Str) (rows : List (List (Option Str))),
      (∀ r ∈ rows, r.length = nCol ∧ ∀ v ∈ r, v ≠ some [] ∧ (nullv ≠ [] → v ≠ some nullv)) →
      ∀ r ∈ (loop csv sep nullv nCol n ls rows).rows,
        r.length = nCol ∧ ∀ v ∈ r, v ≠ some [] ∧ (nullv ≠ [] → v ≠ some nullv) := by
    intro n
    induction n with
    | zero => intro ls rows h; simpa [loop, End.rows] using h
    | succ n ih =>
      intro ls rows h
      cases ls with
      | nil => simpa [loop, End.rows] using h
      | cons l ls =>
        rw [loop]
        generalize (if csv = true ∧ 34 ∈ l then agg l ls else some (l, ls)) = q
        cases q with
        | none => exact h
        | some q =>
          have hcol : ∀ f, cols csv sep nCol q.1 = .ok f → f.length = nCol := by
            intro f hf
            rw [cols] at hf
            split at hf
            · cases hx : csvCols sep (q.1.length + 2) q.1 with
              | none => rw [hx] at hf; cases hf
              | some g =>
                rw [hx] at hf
                dsimp only at hf
                split at hf
                · cases hf
                · split at hf
                  · cases hf
                  · rename_i h1; cases hf; omega
            · split at hf
              · cases hf
              · rename_i h1; cases hf; omega
          have herr : ∀ e, cols csv sep nCol q.1 = .error e → e.rows = [] := by
            intro e hf
            rw [cols] at hf
            split at hf
            · cases hx : csvCols sep (q.1.length + 2) q.1 with
              | none => rw [hx] at hf; cases hf; rfl
              | some g =>
                rw [hx] at hf
                dsimp only at hf
                split at hf
                · cases hf; rfl
                · split at hf
                  · cases hf; rfl
                  · cases hf
            · split at hf
              · cases hf; rfl
              · cases hf
          dsimp only
          cases hx : cols csv sep nCol q.1 with
          | error e => dsimp only; rw [herr e hx]; simp
          | ok f =>
            refine ih _ _ ?_
            intro r hr
            rcases List.mem_append.1 hr with hr | hr
            · exact h r hr
            · rw [List.mem_singleton.1 hr]
              refine ⟨by simp [hcol f hx], ?_⟩
              intro v hv
              obtain ⟨s, _, rfl⟩ := List.mem_map.1 hv
              rw [bindVal]
              split
              · simp
              · rename_i hne
                refine ⟨fun e => hne (Or.inr (Option.some.inj e)), fun h1 e => hne (Or.inl ⟨h1, Option.some.inj e⟩)⟩
  exact key _ _ [] (by simp)

end Verif.Sql.Import
