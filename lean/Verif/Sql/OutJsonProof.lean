import Verif.Sql.OutJson

namespace Verif.Sql.OutJson
open Verif Verif.Json
open Verif.Sql.Out (cstr)

theorem quoteN_body : ∀ (n : Nat) (s : Str), (∀ c ∈ s, c ≠ 0) → s.length ≤ n → quoteN n s = quoteBody s
  | 0, [], _, _ => by rw [quoteN, quoteBody]
  | 0, c :: t, _, h => by simp at h
  | n + 1, [], _, _ => by rw [quoteN, quoteBody]
  | n + 1, c :: t, h0, hl => by
    have hc : c ≠ 0 := h0 c (by simp)
    have hl' : t.length ≤ n := by simpa using hl
    have h1 := quoteN_body n t (fun x hx => h0 x (by simp [hx])) hl'
    have h2 := fun k => quoteN_body n (t.drop k) (fun x hx => h0 x (by simp [List.mem_of_mem_drop hx]))
      (by simp; omega)
    rw [quoteN, if_neg hc, quoteBody]
    cases shortEsc c with
    | some e => simp only [h1]
    | none =>
      by_cases hp : isprint c = true
      · simp only [hp, if_true, h1]
      · simp only [if_neg hp, h2]

theorem utf8_no_nul (cs : List Char) (h : ∀ c ∈ cs, c.toNat ≠ 0) : ∀ x ∈ utf8 cs, x ≠ 0 := by
  have := strBytes_good (o := false) (s := utf8 cs) rfl (fun _ => h)
  intro x hx e
  rw [strBytes] at this
  simp at this
  exact this x hx e

theorem cstr_id (s : Str) (h : ∀ c ∈ s, c ≠ 0) : cstr s = s := by
  rw [cstr, List.takeWhile_eq_self_iff]
  intro x hx; simpa using h x hx

theorem quoteZ_pieces {s : Str} (h : TextGood s) : ∃ ps : List Piece, (∀ p ∈ ps, p.Ok false) ∧ pval ps = s ∧
    quoteZ s = [34] ++ ptext ps ++ [34] := by
  obtain ⟨cs, rfl, h⟩ := h
  obtain ⟨ps, h1, h2, h3⟩ := quoteBody_utf8 cs (fun c hc => (h c hc).2)
  have hn := utf8_no_nul cs (fun c hc => (h c hc).1)
  refine ⟨ps, h1, h2, ?_⟩
  rw [quoteZ, quoteLen, cstr_id _ hn, quoteN_body _ _ hn (Nat.le_refl _), h3]
  simp

/-- Printable characters are quoted without a look at what is behind them. -/
theorem quoteN_print : ∀ (b r : Str), (∀ c ∈ b, 32 ≤ c ∧ c ≤ 126) → quoteN b.length (b ++ r) = quoteBody b
  | [], r, _ => by rw [quoteBody]; cases r <;> rfl
  | c :: t, r, h => by
    have hc := h c (by simp)
    have hz : c ≠ 0 := by rintro rfl; exact absurd hc.1 (by decide)
    have hp : isprint c = true := by simp [isprint, hc.1, hc.2]
    have ih := quoteN_print t r (fun x hx => h x (by simp [hx]))
    show quoteN (t.length + 1) (c :: (t ++ r)) = _
    rw [quoteN, if_neg hz, quoteBody]
    cases shortEsc c with
    | some e => simp only [ih]
    | none => simp only [hp, if_true, ih]

theorem print_utf8 (b : Str) (h : ∀ c ∈ b, 32 ≤ c ∧ c ≤ 126) : TextGood b := by
  refine ⟨b.map (fun c => Char.ofNat c.toNat), ?_, ?_⟩
  · induction b with
    | nil => rfl
    | cons c t ih =>
      have hc := h c (by simp)
      have e : String.utf8EncodeChar (Char.ofNat c.toNat) = [c] := by
        have : ∀ n : Fin 256, 32 ≤ UInt8.ofNat n.1 ∧ UInt8.ofNat n.1 ≤ 126 →
          String.utf8EncodeChar (Char.ofNat n.1) = [UInt8.ofNat n.1] := by decide +kernel
        have := this ⟨c.toNat, c.toNat_lt⟩
        simp only [UInt8.ofNat_toNat] at this
        exact this hc
      have := ih (fun x hx => h x (by simp [hx]))
      simp only [utf8, List.map_cons, List.flatMap_cons] at this ⊢
      rw [e, ← this]; rfl
  · intro c hc
    obtain ⟨x, hx, rfl⟩ := List.mem_map.1 hc
    have hc := h x hx
    have : ∀ n : Fin 256, 32 ≤ UInt8.ofNat n.1 ∧ UInt8.ofNat n.1 ≤ 126 →
      (Char.ofNat n.1).toNat ≠ 0 ∧ (Char.ofNat n.1).toNat < 0x10000 := by decide +kernel
    have := this ⟨x.toNat, x.toNat_lt⟩
    simp only [UInt8.ofNat_toNat] at this
    exact this hc

theorem colJson_doc {c : JCell} (h : CellGood c) : ∃ d : Doc, d.Ok false ∧ d.val = cellVal c ∧ colJson c = d.text ∧
    d.width = 0 := by
  cases c with
  | null => exact ⟨.null, by simp [Doc.Ok], rfl, rfl, by simp [Doc.width]⟩
  | int bd n =>
    by_cases h0 : bd = true ∧ n = 0
    · exact ⟨.false, by simp [Doc.Ok], by simp [cellVal, h0, Doc.val], by simp [colJson, h0, Doc.text], by simp [Doc.width]⟩
    · by_cases h1 : bd = true ∧ n = 1
      · exact ⟨.true, by simp [Doc.Ok], by simp [cellVal, h1, Doc.val], by simp [colJson, h1, Doc.text],
          by simp [Doc.width]⟩
      · exact ⟨.num n, by simp [Doc.Ok], by rw [cellVal, if_neg h0, if_neg h1, Doc.val],
          by rw [colJson, if_neg h0, if_neg h1, Doc.text], by simp [Doc.width]⟩
  | text s =>
    obtain ⟨ps, h1, h2, h3⟩ := quoteZ_pieces h
    exact ⟨.str ps, by simpa [Doc.Ok] using h1, by rw [Doc.val, h2]; rfl, by rw [colJson, h3, Doc.text], by simp [Doc.width]⟩
  | blob b r =>
    obtain ⟨ps, h1, h2, h3⟩ := quoteZ_pieces (print_utf8 b h.2)
    have hn : ∀ x ∈ b, x ≠ 0 := by
      intro x hx e; subst e; exact absurd (h.2 0 hx).1 (by decide)
    refine ⟨.str ps, by simpa [Doc.Ok] using h1, by rw [Doc.val, h2]; rfl, ?_, by simp [Doc.width]⟩
    rw [colJson, if_neg h.1, quoteLen, quoteN_print b r h.2, Doc.text, ← h3, quoteZ, quoteLen, cstr_id b hn,
      quoteN_body _ _ hn (Nat.le_refl _)]

/-- Documents for the elements of a list. -/
theorem exists_docs {α : Type} (full : Bool) (W : Nat) (f : α → Str) (v : α → JVal) : ∀ xs : List α,
    (∀ x ∈ xs, ∃ d : Doc, d.Ok full ∧ d.val = v x ∧ f x = d.text ∧ d.width ≤ W) →
    ∃ ds : List Doc, ds.map Doc.text = xs.map f ∧ ds.map Doc.val = xs.map v ∧ ∀ d ∈ ds, d.Ok full ∧ d.width ≤ W
  | [], _ => ⟨[], rfl, rfl, by simp⟩
  | x :: t, h => by
    obtain ⟨d, h1, h2, h3, h4⟩ := h x (by simp)
    obtain ⟨ds, g1, g2, g3⟩ := exists_docs full W f v t (fun y hy => h y (by simp [hy]))
    refine ⟨d :: ds, by simp [g1, h3], by simp [g2, h2], ?_⟩
    intro y hy
    rcases List.mem_cons.1 hy with rfl | hy
    · exact ⟨h1, h4⟩
    · exact g3 y hy

/-- The elements of an array: `w` before the first, a space before the others, `e` behind the last. -/
def elsOf (e : Str) : Str → Doc → List Doc → Els
  | w, d, [] => .one w d e
  | w, d, d2 :: t => .cons w d [] (elsOf e [32] d2 t)

theorem commas_cons (x y : Str) (t : List Str) : commas (x :: y :: t) = x ++ [44, 32] ++ commas (y :: t) := by
  rw [commas, asc_sep]

theorem elsOf_text (e : Str) : ∀ (w : Str) (d : Doc) (t : List Doc),
    (elsOf e w d t).text = w ++ commas ((d :: t).map Doc.text) ++ e
  | w, d, [] => by simp [elsOf, Els.text, commas]
  | w, d, d2 :: t => by
    rw [elsOf, Els.text, elsOf_text e [32] d2 t]
    simp only [List.map_cons]
    rw [commas_cons]
    simp

theorem elsOf_ok (full : Bool) (e : Str) (he : Ws e) : ∀ (w : Str) (d : Doc) (t : List Doc), Ws w →
    (∀ x ∈ d :: t, x.Ok full) → (elsOf e w d t).Ok full
  | w, d, [], hw, h => by rw [elsOf, Els.Ok]; exact ⟨hw, h d (by simp), he⟩
  | w, d, d2 :: t, hw, h => by
    rw [elsOf, Els.Ok]
    exact ⟨hw, h d (by simp), ws_nil, elsOf_ok full e he [32] d2 t ws_sp (fun x hx => h x (by simp [List.mem_cons.1 hx]))⟩

theorem elsOf_val (e : Str) : ∀ (w : Str) (d : Doc) (t : List Doc), (elsOf e w d t).val = toArr ((d :: t).map Doc.val)
  | w, d, [] => by simp [elsOf, Els.val, toArr]
  | w, d, d2 :: t => by rw [elsOf, Els.val, elsOf_val e [32] d2 t]; rfl

theorem elsOf_width (W : Nat) (e : Str) : ∀ (w : Str) (d : Doc) (t : List Doc) (n : Nat), (∀ x ∈ d :: t, x.width ≤ W) →
    (elsOf e w d t).width n ≤ max (n + (d :: t).length) W
  | w, d, [], n, h => by
    rw [elsOf, Els.width]
    have := h d (by simp)
    simp; omega
  | w, d, d2 :: t, n, h => by
    rw [elsOf, Els.width]
    have h1 := h d (by simp)
    have h2 := elsOf_width W e [32] d2 t (n + 1) (fun x hx => h x (by simp [List.mem_cons.1 hx]))
    simp at h2 ⊢; omega

/-- An array of documents with `w` behind the bracket and `e` before the other. -/
def arrDoc (w e : Str) : List Doc → Doc
  | [] => .arr0 (w ++ e)
  | d :: t => .arr (elsOf e w d t)

theorem arrDoc_spec (full : Bool) (W : Nat) (w e : Str) (hw : Ws w) (he : Ws e) (ds : List Doc)
    (h : ∀ d ∈ ds, d.Ok full ∧ d.width ≤ W) :
    (arrDoc w e ds).Ok full ∧ (arrDoc w e ds).val = .arr (toArr (ds.map Doc.val)) ∧
    (arrDoc w e ds).text = [91] ++ w ++ commas (ds.map Doc.text) ++ e ++ [93] ∧ (arrDoc w e ds).width ≤ max ds.length W := by
  cases ds with
  | nil =>
    refine ⟨?_, rfl, by simp [arrDoc, Doc.text, commas], by simp [arrDoc, Doc.width]⟩
    rw [arrDoc, Doc.Ok]
    intro c hc
    rcases List.mem_append.1 hc with hc | hc
    · exact hw c hc
    · exact he c hc
  | cons d t =>
    refine ⟨?_, ?_, ?_, ?_⟩
    · rw [arrDoc, Doc.Ok]; exact elsOf_ok full e he w d t hw (fun x hx => (h x hx).1)
    · rw [arrDoc, Doc.val, elsOf_val]
    · rw [arrDoc, Doc.text, elsOf_text]; simp
    · rw [arrDoc, Doc.width]
      have := elsOf_width W e w d t 0 (fun x hx => (h x hx).2)
      simpa using this

/-- The members of an object. -/
def memsOf : Str → (List Piece × Doc) → List (List Piece × Doc) → Mems
  | w, p, [] => .one w p.1 [] [] p.2 []
  | w, p, p2 :: t => .cons w p.1 [] [] p.2 [] (memsOf [32] p2 t)

def memText (p : List Piece × Doc) : Str := [34] ++ ptext p.1 ++ [34] ++ [58] ++ p.2.text

theorem memsOf_text : ∀ (w : Str) (p : List Piece × Doc) (t : List (List Piece × Doc)),
    (memsOf w p t).text = w ++ commas ((p :: t).map memText)
  | w, p, [] => by simp [memsOf, Mems.text, commas, memText, memHead]
  | w, p, p2 :: t => by
    rw [memsOf, Mems.text, memsOf_text [32] p2 t]
    simp only [List.map_cons]
    rw [commas_cons]
    simp [memText, memHead]

theorem memsOf_ok (full : Bool) : ∀ (w : Str) (p : List Piece × Doc) (t : List (List Piece × Doc)), Ws w →
    (∀ x ∈ p :: t, KeyOk full x.1 ∧ x.2.Ok full) → (memsOf w p t).Ok full
  | w, p, [], hw, h => by
    rw [memsOf, Mems.Ok]; have := h p (by simp); exact ⟨hw, this.1, ws_nil, ws_nil, this.2, ws_nil⟩
  | w, p, p2 :: t, hw, h => by
    rw [memsOf, Mems.Ok]
    have := h p (by simp)
    exact ⟨hw, this.1, ws_nil, ws_nil, this.2, ws_nil, memsOf_ok full [32] p2 t ws_sp (fun x hx => h x (by simp [List.mem_cons.1 hx]))⟩

/-- Members put into an object one after another. -/
def foldMems (o : JObj) : List (List Piece × Doc) → JObj
  | [] => o
  | p :: t => foldMems (o.insert (pval p.1) p.2.val) t

theorem memsOf_val : ∀ (w : Str) (p : List Piece × Doc) (t : List (List Piece × Doc)) (o : JObj),
    (memsOf w p t).val o = foldMems o (p :: t)
  | w, p, [], o => by simp [memsOf, Mems.val, foldMems]
  | w, p, p2 :: t, o => by rw [memsOf, Mems.val, memsOf_val [32] p2 t]; simp [foldMems]

theorem memsOf_width : ∀ (w : Str) (p : List Piece × Doc) (t : List (List Piece × Doc)),
    (∀ x ∈ p :: t, x.2.width = 0) → (memsOf w p t).width = 0
  | w, p, [], h => by rw [memsOf, Mems.width]; exact h p (by simp)
  | w, p, p2 :: t, h => by
    rw [memsOf, Mems.width, h p (by simp), memsOf_width [32] p2 t (fun x hx => h x (by simp [List.mem_cons.1 hx]))]
    rfl

/-- Names that can be written as keys. -/
def KeyWritten (full : Bool) (n : Str) : Prop :=
  ∃ ps : List Piece, KeyOk full ps ∧ pval ps = n ∧ quoteZ n = [34] ++ ptext ps ++ [34]

theorem exists_mems (full : Bool) : ∀ (l : List (Str × JCell)), (∀ x ∈ l, KeyWritten full x.1 ∧ CellGood x.2) →
    ∃ ms : List (List Piece × Doc), ms.map memText = l.map member ∧ (∀ o, foldMems o ms = toObj o l) ∧
      ∀ x ∈ ms, (KeyOk full x.1 ∧ x.2.Ok full) ∧ x.2.width = 0
  | [], _ => ⟨[], rfl, fun _ => rfl, by simp⟩
  | (n, c) :: t, h => by
    obtain ⟨⟨ps, h1, h2, h3⟩, hc⟩ := h (n, c) (by simp)
    obtain ⟨d, g1, g2, g3, g4⟩ := colJson_doc hc
    obtain ⟨ms, e1, e2, e3⟩ := exists_mems full t (fun y hy => h y (by simp [hy]))
    refine ⟨(ps, d) :: ms, ?_, ?_, ?_⟩
    · simp only [List.map_cons, e1, memText, member]
      rw [show quoteZ (n, c).1 = _ from h3, show colJson (n, c).2 = _ from g3]
      rfl
    · intro o; simp only [foldMems, toObj, e2, h2, g2]
    · intro x hx
      rcases List.mem_cons.1 hx with rfl | hx
      · refine ⟨⟨h1, ?_⟩, g4⟩
        cases full with
        | false => exact g1
        | true => exact d.ok_mono g1
      · exact e3 x hx

theorem rowObj_doc (full : Bool) (names : List Str) (r : List JCell) (hn : ∀ n ∈ names, KeyWritten full n)
    (hr : ∀ c ∈ r, CellGood c) :
    ∃ d : Doc, d.Ok full ∧ d.val = objOf names r ∧ rowObj names r = d.text ∧ d.width ≤ 0 := by
  obtain ⟨ms, e1, e2, e3⟩ := exists_mems full (names.zip r) (fun x hx => by
    have := List.of_mem_zip (a := x.1) (b := x.2) hx
    exact ⟨hn _ this.1, hr _ this.2⟩)
  cases ms with
  | nil =>
    refine ⟨.obj0 [], ?_, ?_, ?_, by simp [Doc.width]⟩
    · rw [Doc.Ok]; exact ws_nil
    · rw [Doc.val, objOf, ← e2]; rfl
    · rw [rowObj, ← e1, Doc.text]; rfl
  | cons p t =>
    refine ⟨.obj (memsOf [] p t), ?_, ?_, ?_, ?_⟩
    · rw [Doc.Ok]; exact memsOf_ok full [] p t ws_nil (fun x hx => (e3 x hx).1)
    · rw [Doc.val, memsOf_val, objOf, e2]
    · rw [rowObj, ← e1, Doc.text, memsOf_text]; rfl
    · rw [Doc.width, memsOf_width [] p t (fun x hx => (e3 x hx).2)]

theorem ok_up (full : Bool) (d : Doc) (h : d.Ok false) : d.Ok full := by
  cases full with
  | false => exact h
  | true => exact d.ok_mono h

/-- An array of cells, with `e` before the closing bracket. -/
theorem cells_doc (full : Bool) (e : Str) (he : Ws e) (r : List JCell) (hr : ∀ c ∈ r, CellGood c) :
    ∃ d : Doc, d.Ok full ∧ d.val = arrOf r ∧ asc "[" ++ commas (r.map colJson) ++ (e ++ asc "]") = d.text ∧ d.width ≤ r.length := by
  obtain ⟨ds, h1, h2, h3⟩ := exists_docs full 0 colJson cellVal r (fun c hc => by
    obtain ⟨d, g1, g2, g3, g4⟩ := colJson_doc (hr c hc)
    exact ⟨d, ok_up full d g1, g2, g3, by omega⟩)
  obtain ⟨a1, a2, a3, a4⟩ := arrDoc_spec full 0 [] e ws_nil he ds h3
  have hl : ds.length = r.length := by have := congrArg List.length h2; simpa using this
  refine ⟨arrDoc [] e ds, a1, by rw [a2, h2]; rfl, ?_, by omega⟩
  rw [a3, h1, show asc "[" = [91] by decide, show asc "]" = [93] by decide]; simp

/-- An array of names, with `w` inside the brackets. -/
theorem names_doc (full : Bool) (w : Str) (hw : Ws w) (names : List Str) (hn : ∀ n ∈ names, TextGood n) :
    ∃ d : Doc, d.Ok full ∧ d.val = namesOf names ∧ asc "[" ++ w ++ commas (names.map quoteZ) ++ w ++ asc "]" = d.text ∧
      d.width ≤ names.length := by
  obtain ⟨ds, h1, h2, h3⟩ := exists_docs full 0 quoteZ (fun s => JVal.str true s) names (fun n hm => by
    obtain ⟨ps, g1, g2, g3⟩ := quoteZ_pieces (hn n hm)
    exact ⟨.str ps, ok_up full _ (by simpa [Doc.Ok] using g1), by rw [Doc.val, g2], by rw [g3, Doc.text], by simp [Doc.width]⟩)
  obtain ⟨a1, a2, a3, a4⟩ := arrDoc_spec full 0 w w hw hw ds h3
  have hl : ds.length = names.length := by have := congrArg List.length h2; simpa using this
  refine ⟨arrDoc w w ds, a1, by rw [a2, h2]; rfl, ?_, by omega⟩
  rw [a3, h1, show asc "[" = [91] by decide, show asc "]" = [93] by decide]

end Verif.Sql.OutJson
