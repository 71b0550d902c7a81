import Verif.Sql.OutIns

/-! # HTML output reads back (C103) -/

namespace Verif.Sql.Out
open Verif

theorem html_markup : ∀ (z : Str), ∀ c ∈ htmlStr z, c ≠ 60 ∧ c ≠ 62 ∧ c ≠ 34 ∧ c ≠ 39
  | [], c, h => by cases h
  | d :: z, c, h => by
    unfold htmlStr at h
    rcases List.mem_append.1 h with h | h
    · have key : ∀ l : Str, (∀ x ∈ l, x ≠ 60 ∧ x ≠ 62 ∧ x ≠ 34 ∧ x ≠ 39) → c ∈ l → c ≠ 60 ∧ c ≠ 62 ∧ c ≠ 34 ∧ c ≠ 39 := fun l hl hc => hl c hc
      split at h
      · exact key _ (by decide +kernel) h
      · split at h
        · exact key _ (by decide +kernel) h
        · split at h
          · exact key _ (by decide +kernel) h
          · split at h
            · exact key _ (by decide +kernel) h
            · split at h
              · exact key _ (by decide +kernel) h
              · rename_i a b c' d' e'
                have := List.mem_singleton.1 h
                subst this
                exact ⟨a, b, d', e'⟩
    · exact html_markup z c h

theorem rdHtml_amp (p : Str) (v : UInt8) (n : Nat) (t : Str) (hp : (p, v) ∈ refs) :
    rdHtml (n + 1) (p ++ t) = (rdHtml n t).map fun q => (v :: q.1, q.2) := by
  simp only [refs, List.mem_cons, List.not_mem_nil, or_false, Prod.mk.injEq] at hp
  have e1 : asc "&lt;" = [38, 108, 116, 59] := by decide +kernel
  have e2 : asc "&gt;" = [38, 103, 116, 59] := by decide +kernel
  have e3 : asc "&amp;" = [38, 97, 109, 112, 59] := by decide +kernel
  have e4 : asc "&quot;" = [38, 113, 117, 111, 116, 59] := by decide +kernel
  have e5 : asc "&#39;" = [38, 35, 51, 57, 59] := by decide +kernel
  rcases hp with ⟨rfl, rfl⟩ | ⟨rfl, rfl⟩ | ⟨rfl, rfl⟩ | ⟨rfl, rfl⟩ | ⟨rfl, rfl⟩ <;>
    simp [rdHtml, refs, e1, e2, e3, e4, e5, List.find?, List.isPrefixOf]

theorem rdHtml_str : ∀ (z : Str) (t : Str), (t = [] ∨ ∃ u, t = 60 :: u) → ∀ n, z.length < n → rdHtml n (htmlStr z ++ t) = some (z, t)
  | [], t, ht, n, hn => by
    obtain ⟨n, rfl⟩ : ∃ m, n = m + 1 := ⟨n - 1, by simp at hn; omega⟩
    rcases ht with rfl | ⟨u, rfl⟩
    · rfl
    · simp [htmlStr, rdHtml]
  | c :: z, t, ht, n, hn => by
    obtain ⟨n, rfl⟩ : ∃ m, n = m + 1 := ⟨n - 1, by simp at hn; omega⟩
    have ih := rdHtml_str z t ht n (by simp at hn; omega)
    have amp : ∀ p v, (p, v) ∈ refs → rdHtml (n + 1) (p ++ htmlStr z ++ t) = some (v :: z, t) := by
      intro p v hp
      rw [List.append_assoc, rdHtml_amp p v n _ hp, ih]; rfl
    unfold htmlStr
    split
    · rename_i h; subst h; exact amp _ _ (by decide +kernel)
    · split
      · rename_i h; subst h; exact amp _ _ (by decide +kernel)
      · split
        · rename_i h; subst h; exact amp _ _ (by decide +kernel)
        · split
          · rename_i h; subst h; exact amp _ _ (by decide +kernel)
          · split
            · rename_i h; subst h; exact amp _ _ (by decide +kernel)
            · rename_i h1 _ h2 _ _
              show rdHtml (n + 1) (c :: (htmlStr z ++ t)) = _
              simp only [rdHtml, if_neg h1, if_neg h2]
              rw [ih]; rfl

/-- One cell. -/
def htmlCell (tag s : Str) : Str := asc "<" ++ tag ++ asc ">" ++ htmlStr (cstr s) ++ asc "</" ++ tag ++ asc ">"

theorem html_len : ∀ z : Str, z.length ≤ (htmlStr z).length
  | [] => Nat.le_refl _
  | c :: z => by
    unfold htmlStr
    rw [List.length_append, List.length_cons]
    have ih := html_len z
    have : 1 ≤ (if c = 60 then asc "&lt;" else if c = 62 then asc "&gt;" else if c = 38 then asc "&amp;"
      else if c = 34 then asc "&quot;" else if c = 39 then asc "&#39;" else [c]).length := by
      repeat' split
      all_goals first | decide +kernel | exact Nat.le_refl _
    omega

/-- A tag, TD or TH. -/
def IsTag (tag : Str) : Prop := tag = asc "TD" ∨ tag = asc "TH"

theorem cell_rd (tag : Str) (ht : IsTag tag) (s t : Str) (n : Nat) :
    rdCells tag (n + 1) (htmlCell tag s ++ t) = (rdCells tag n t).map fun q => (cstr s :: q.1, q.2) := by
  generalize ho : rdCells tag n t = out
  have hlt : asc "<" = [60] := by decide +kernel
  have hlt2 : asc "</" = [60, 47] := by decide +kernel
  have e : htmlCell tag s ++ t = (asc "<" ++ tag ++ asc ">") ++ (htmlStr (cstr s) ++ ((asc "</" ++ tag ++ asc ">") ++ t)) := by
    simp [htmlCell]
  rw [e]
  have h0 : skip (asc "</TR>") ((asc "<" ++ tag ++ asc ">") ++ (htmlStr (cstr s) ++ ((asc "</" ++ tag ++ asc ">") ++ t))) = none := by
    have e5 : asc "</TR>" = [60, 47, 84, 82, 62] := by decide +kernel
    have e6 : asc "TD" = [84, 68] := by decide +kernel
    have e7 : asc "TH" = [84, 72] := by decide +kernel
    rcases ht with rfl | rfl <;> simp [skip, e5, e6, e7, hlt, List.isPrefixOf]
  unfold rdCells
  rw [h0]
  simp only
  rw [skip_append]
  simp only
  rw [rdHtml_str (cstr s) _ (Or.inr ⟨47 :: tag ++ asc ">" ++ t, by rw [hlt2]; simp⟩) _ (by
    have := html_len (cstr s)
    simp only [List.length_append]
    omega)]
  simp only
  rw [skip_append]
  simp only
  rw [ho]

theorem cells_rd (tag : Str) (ht : IsTag tag) : ∀ (xs : List Str) (t : Str) (n : Nat), xs.length < n →
    rdCells tag n (xs.flatMap (htmlCell tag) ++ (asc "</TR>" ++ t)) = some (xs.map cstr, t)
  | [], t, n, hn => by
    obtain ⟨n, rfl⟩ : ∃ m, n = m + 1 := ⟨n - 1, by simp at hn; omega⟩
    show rdCells tag (n + 1) ([] ++ (asc "</TR>" ++ t)) = _
    rw [List.nil_append]
    unfold rdCells
    rw [skip_append]; rfl
  | x :: xs, t, n, hn => by
    obtain ⟨n, rfl⟩ : ∃ m, n = m + 1 := ⟨n - 1, by simp at hn; omega⟩
    rw [List.flatMap_cons, List.append_assoc, cell_rd tag ht, cells_rd tag ht xs t n (by simp at hn; omega)]; rfl

theorem cells_len (tag : Str) : ∀ xs : List Str, xs.length ≤ (xs.flatMap (htmlCell tag)).length
  | [] => Nat.le_refl _
  | x :: xs => by
    have ih := cells_len tag xs
    have hlt : (asc "<").length = 1 := by decide +kernel
    rw [List.flatMap_cons, List.length_append, List.length_cons]
    have : 1 ≤ (htmlCell tag x).length := by simp only [htmlCell, List.length_append, hlt]; omega
    omega

theorem htmlRow_eq (tag : Str) (xs : List Str) : htmlRow tag xs = asc "<TR>" ++ (xs.flatMap (htmlCell tag) ++ asc "</TR>") := by
  unfold htmlRow htmlCell
  simp

theorem htmlRow_len (tag : Str) (xs : List Str) : 1 ≤ (htmlRow tag xs).length := by
  have : (asc "<TR>").length = 4 := by decide +kernel
  rw [htmlRow_eq, List.length_append, this]; omega

/-- A row, and what is behind it. -/
theorem row_html (tag : Str) (ht : IsTag tag) (xs : List Str) (n : Nat) :
    rdRows tag (n + 1) (htmlRow tag xs) = some [xs.map cstr] ∧
    ∀ v, rdRows tag (n + 1) (htmlRow tag xs ++ (10 :: v)) = (rdRows tag n v).map (xs.map cstr :: ·) := by
  rw [htmlRow_eq]
  constructor
  · have hc := cells_rd tag ht xs [] ((xs.flatMap (htmlCell tag) ++ asc "</TR>").length + 1) (by
      have := cells_len tag xs
      simp only [List.length_append]; omega)
    rw [List.append_nil] at hc
    unfold rdRows
    rw [skip_append]
    simp only
    rw [hc]
    rfl
  · intro v
    generalize ho : rdRows tag n v = out
    have hc := cells_rd tag ht xs (10 :: v) ((xs.flatMap (htmlCell tag) ++ (asc "</TR>" ++ 10 :: v)).length + 1) (by
      have := cells_len tag xs
      simp only [List.length_append]; omega)
    have e : asc "<TR>" ++ (xs.flatMap (htmlCell tag) ++ asc "</TR>") ++ 10 :: v =
        asc "<TR>" ++ (xs.flatMap (htmlCell tag) ++ (asc "</TR>" ++ 10 :: v)) := by simp
    rw [e]
    unfold rdRows
    rw [skip_append]
    simp only
    rw [hc]
    simp only
    rw [if_neg (List.cons_ne_nil _ _)]
    have : skip [10] (10 :: v) = some v := skip_append [10] v
    rw [this]
    simp only
    rw [ho]

/-- What follows the first row: nothing, or a line end and the other rows. -/
theorem more_html (names : List Str) (limit : Nat) : ∀ (rows : List (List Cell)) (cnt : Nat), cnt ≠ 0 → (limit ≠ 0 → cnt < limit) →
    ∃ v, htmlLoop false names limit cnt rows = v ∧
      ((v = [] ∧ (if limit = 0 then rows else rows.take (limit - cnt)) = []) ∨
       ∃ w, v = 10 :: w ∧ ∀ n, w.length ≤ n →
        rdRows (asc "TD") n w = some (tableOf (if limit = 0 then rows else rows.take (limit - cnt))))
  | [], cnt, _, _ => ⟨[], rfl, Or.inl ⟨rfl, by simp⟩⟩
  | r :: rows, cnt, hc, hl => by
    refine ⟨_, rfl, Or.inr ?_⟩
    unfold htmlLoop
    rw [if_neg (by simp), if_pos (Or.inl hc)]
    simp only [List.nil_append, List.append_assoc, List.cons_append]
    refine ⟨_, rfl, fun n hn => ?_⟩
    have hlen := htmlRow_len (asc "TD") (r.map colText)
    obtain ⟨n, rfl⟩ : ∃ m, n = m + 1 := ⟨n - 1, by rw [List.length_append] at hn; omega⟩
    obtain ⟨k1, k2⟩ := row_html (asc "TD") (Or.inl rfl) (r.map colText) n
    have em : (r.map colText).map cstr = r.map fun c => cstr (colText c) := by rw [List.map_map]; rfl
    by_cases hlim : limit ≠ 0 ∧ cnt + 1 ≥ limit
    · rw [if_pos hlim, List.append_nil, k1, if_neg hlim.1]
      have : limit - cnt = 1 := by have := hl hlim.1; omega
      rw [this, em]; rfl
    · rw [if_neg hlim]
      rw [if_neg hlim] at hn
      obtain ⟨v, e, h⟩ := more_html names limit rows (cnt + 1) (by omega) (fun h => by omega)
      rw [e] at hn ⊢
      have et : (if limit = 0 then r :: rows else (r :: rows).take (limit - cnt)) =
          r :: (if limit = 0 then rows else rows.take (limit - (cnt + 1))) := by
        by_cases h0 : limit = 0
        · rw [if_pos h0, if_pos h0]
        · rw [if_neg h0, if_neg h0]
          have : limit - cnt = (limit - (cnt + 1)) + 1 := by omega
          rw [this, List.take_succ_cons]
      rw [et]
      rcases h with ⟨rfl, h⟩ | ⟨w, rfl, h⟩
      · rw [List.append_nil, k1, h, em]; rfl
      · rw [k2, h n (by rw [List.length_append, List.length_cons] at hn; omega), em]; rfl

/-- **C103.** The rows of HTML that the mode `html` makes of a result are read back as exactly the rows of the
result, whatever is in the columns: no text can end its cell, begin an element or make a reference.
Missing: text with NUL (cut there); NULL cannot be told from an empty text. -/
theorem C103_html_reads_back_partial (names : List Str) (limit : Nat) (rows : List (List Cell)) :
    readHtml (asc "TD") (htmlLoop false names limit 0 rows) = some (tableOf (limited limit rows)) := by
  cases rows with
  | nil => unfold limited; simp [readHtml, htmlLoop, tableOf]
  | cons r rows =>
    unfold htmlLoop
    rw [if_neg (by simp), if_neg (by simp)]
    simp only [List.nil_append]
    have hne : ∀ t, htmlRow (asc "TD") (r.map colText) ++ t ≠ [] := by
      intro t e
      have := congrArg List.length e
      have h1 := htmlRow_len (asc "TD") (r.map colText)
      simp only [List.length_append, List.length_nil] at this
      omega
    unfold readHtml
    rw [if_neg (hne _)]
    have em : (r.map colText).map cstr = r.map fun c => cstr (colText c) := by rw [List.map_map]; rfl
    by_cases hlim : limit ≠ 0 ∧ 0 + 1 ≥ limit
    · rw [if_pos hlim, List.append_nil, (row_html (asc "TD") (Or.inl rfl) (r.map colText) _).1, em]
      have : limit = 1 := by omega
      subst this
      rfl
    · rw [if_neg hlim]
      obtain ⟨v, e, h⟩ := more_html names limit rows (0 + 1) (by omega) (fun h => by omega)
      rw [e]
      have et : limited limit (r :: rows) = r :: (if limit = 0 then rows else rows.take (limit - (0 + 1))) := by
        unfold limited
        by_cases h0 : limit = 0
        · rw [if_pos h0, if_pos h0]
        · rw [if_neg h0, if_neg h0]
          have : limit = (limit - (0 + 1)) + 1 := by omega
          rw [this, List.take_succ_cons]
          rfl
      rw [et]
      rcases h with ⟨rfl, h⟩ | ⟨w, rfl, h⟩
      · rw [List.append_nil, (row_html (asc "TD") (Or.inl rfl) (r.map colText) _).1, h, em]; rfl
      · rw [(row_html (asc "TD") (Or.inl rfl) (r.map colText) _).2, h _ (by simp only [List.length_append, List.length_cons]; omega), em]; rfl

/-- No byte of a column or of a name can be markup: between the tags there is no `<`, `>` or quote. -/
theorem C103_no_markup (s : Str) : ∀ c ∈ htmlStr (cstr s), c ≠ 60 ∧ c ≠ 62 ∧ c ≠ 34 ∧ c ≠ 39 := html_markup _

example : readHtml (asc "TD") (htmlLoop false [] 0 0 [[.text (asc "</TD>&lt;<b>"), .null], [.num (asc "1"), .text (asc "a'b")]]) =
    some [[asc "</TD>&lt;<b>", []], [asc "1", asc "a'b"]] := by decide +kernel

end Verif.Sql.Out
