import Verif.Json.Gen

/-! Whole JSON texts: `parse` and `check` on the text of a document. -/

namespace Verif.Json

/-- Closing the outermost container. -/
theorem closeTok_top (ts : List Tok) (typ : Typ) (start n pos : Nat) (p : P) (hts : ∀ t ∈ ts, t.stop ≠ none)
    (hp : p.toks = opened [] typ start n ts) (hi : In p 0) :
    ∃ p', closeTok p typ pos = some p' ∧ p'.toks = ⟨typ, start, some (pos + 1), n⟩ :: ts := by
  have h1 : typAt p (some 0) = some typ := by simp [typAt, hp, opened]
  have h2 : setStop 0 pos p.toks = ⟨typ, start, some (pos + 1), n⟩ :: ts := by
    rw [hp, opened, setStop]; rfl
  refine ⟨⟨setStop 0 pos p.toks, lastOpen (setStop 0 pos p.toks), p.index,
        some ((lastOpen (setStop 0 pos p.toks)).getD 0)⟩,
      by unfold closeTok; rw [hi.last]; simp only [h1, if_true], h2⟩

theorem loop_end (strict q : Bool) (pos : Nat) (p : P) (w : List UInt8) (hw : Ws w) (h : lastOpen p.toks = none) :
    loop strict q pos p w = some p := by
  have := loop_ws strict q w [] hw pos p
  rw [List.append_nil] at this
  rw [this, loop, if_pos h]

/-- A container as the whole text. -/
theorem loop_top (strict q ar : Bool) (pos : Nat) (body w : List UInt8) (hw : Ws w) (n : Nat) (ts : List Tok)
    (hts : ∀ t ∈ ts, t.stop ≠ none)
    (hb : ∀ p1 : P, In p1 0 → p1.toks = [⟨if ar then .array else .object, pos, none, 0⟩] →
      ∃ p2, loop strict q (pos + 1) p1 (body ++ (if ar then 93 else 125) :: w) =
          loop strict q (pos + 1 + body.length) p2 ((if ar then 93 else 125) :: w) ∧
        p2.toks = bumpN 0 n p1.toks ++ ts ∧ In p2 0) :
    ∃ p', loop strict q pos init ((if ar then 91 else 123) :: (body ++ (if ar then 93 else 125) :: w)) = some p' ∧
      p'.toks = ⟨if ar then .array else .object, pos, some (pos + 1 + body.length + 1), n⟩ :: ts := by
  have h1 : (openTok init (if ar then .array else .object) pos).toks = [⟨if ar then .array else .object, pos, none, 0⟩] := rfl
  have h2 := openTok_in init (if ar then .array else .object) pos (by cases ar <;> trivial)
  obtain ⟨p2, e2, t2, i2⟩ := hb _ h2 h1
  have t2' : p2.toks = opened [] (if ar then .array else .object) pos n ts := by
    rw [t2, h1]; simp [bumpN, opened]
  obtain ⟨p3, e3, t3⟩ := closeTok_top ts (if ar then .array else .object) pos n (pos + 1 + body.length) p2 hts t2' i2
  refine ⟨p3, ?_, t3⟩
  rw [loop_open, e2, loop_close strict q ar _ p2 w p3 e3]
  apply loop_end _ _ _ _ _ hw
  rw [t3]
  exact lastOpen_closed _ (by simpa using hts)

/-- Documents the tokeniser takes as a whole: containers and strings. -/
def Doc.Big : Doc → Prop
  | .str _ | .arr0 _ | .arr _ | .obj0 _ | .obj _ => True
  | _ => False

theorem bumpN_zero (l : List Tok) (i : Nat) : bumpN i 0 l = l := by
  unfold bumpN; exact List.modify_id i l

/-- The tokens of a container or a string. -/
theorem loop_doc_top (strict q full : Bool) (pos : Nat) (d : Doc) (w : List UInt8) (hd : d.Ok full) (hw : Ws w) (hb : d.Big) :
    ∃ p, loop strict q pos init (d.text ++ w) = some p ∧
      p.toks = match d with
        | .str s => [⟨.string, pos + 1, some (pos + 1 + (ptext s).length), if q then 1 else 0⟩]
        | d => dtoks pos d := by
  cases d with
  | null => exact hb.elim
  | true => exact hb.elim
  | false => exact hb.elim
  | num n => exact hb.elim
  | str s =>
    simp only [Doc.Ok] at hd
    have h := scanStr_pieces full s w hd
    have := loop_str strict q pos init (ptext s) w h
    simp only [Doc.text, List.append_assoc, List.cons_append, List.nil_append]
    rw [this]
    refine ⟨addString q init pos (ptext s).length, ?_, ?_⟩
    · apply loop_end _ _ _ _ _ hw
      cases q <;> simp [addString, init, bump, lastOpen]
    · cases q <;> simp [addString, init, bump]
  | arr0 w' =>
    simp only [Doc.Ok] at hd
    obtain ⟨p, h1, h2⟩ := loop_top strict q Bool.true pos w' w hw 0 [] (by simp) (by
      intro p1 i1 t1
      refine ⟨p1, loop_ws strict q w' _ hd _ _, ?_, i1⟩
      rw [bumpN_zero, List.append_nil])
    refine ⟨p, ?_, ?_⟩
    · simpa [Doc.text] using h1
    · rw [h2]; simp [dtoks]
  | obj0 w' =>
    simp only [Doc.Ok] at hd
    obtain ⟨p, h1, h2⟩ := loop_top strict q Bool.false pos w' w hw 0 [] (by simp) (by
      intro p1 i1 t1
      refine ⟨p1, loop_ws strict q w' _ hd _ _, ?_, i1⟩
      rw [bumpN_zero, List.append_nil])
    refine ⟨p, ?_, ?_⟩
    · simpa [Doc.text] using h1
    · rw [h2]; simp [dtoks]
  | arr e =>
    simp only [Doc.Ok] at hd
    obtain ⟨p, h1, h2⟩ := loop_top strict q Bool.true pos e.text w hw e.count (etoks (pos + 1) e) (etoks_closed e _) (by
        intro p1 i1 t1
        exact loop_els strict q full e _ (pos + 1) p1 _ hd i1 ⟨93, w, rfl, by decide⟩)
    refine ⟨p, ?_, ?_⟩
    · simpa [Doc.text] using h1
    · rw [h2]; simp [dtoks]
  | obj m =>
    simp only [Doc.Ok] at hd
    obtain ⟨p, h1, h2⟩ := loop_top strict q Bool.false pos m.text w hw m.count (mtoks (pos + 1) m) (mtoks_closed m _) (by
        intro p1 i1 t1
        refine loop_mems strict q full m _ (pos + 1) p1 _ hd i1 ?_ ⟨125, w, rfl, by decide⟩
        rw [t1]; rfl)
    refine ⟨p, ?_, ?_⟩
    · simpa [Doc.text] using h1
    · rw [h2]; simp [dtoks]

theorem els_count_pos (e : Els) : e.count ≠ 0 := by cases e <;> simp [Els.count]
theorem mems_count_pos (m : Mems) : m.count ≠ 0 := by cases m <;> simp [Mems.count]

/-- The tokens become the value. -/
theorem parseTokens_doc (strict : Bool) (cap : Nat) (d : Doc) (w : List UInt8) (hd : d.Ok false) (hw : Ws w)
    (hb : d.Big) (hc : d.width ≤ cap) : parseTokens strict cap (d.text ++ w) = .ok d.val := by
  obtain ⟨p, h1, h2⟩ := loop_doc_top strict (decide ((d.text ++ w).head? = some 34)) false 0 d w hd hw hb
  unfold parseTokens
  rw [h1]
  simp only
  cases d with
  | null => exact hb.elim
  | true => exact hb.elim
  | false => exact hb.elim
  | num n => exact hb.elim
  | str s =>
    simp only [Doc.Ok] at hd
    simp only [Doc.text, List.append_assoc, List.cons_append, List.nil_append, List.head?_cons, decide_true, if_true] at h2
    have ht : p.toks[0]? = some ⟨.string, 1, some (1 + (ptext s).length), 1⟩ := by rw [h2]; rfl
    rw [ht]
    simp only [Nat.one_ne_zero, if_false]
    rw [gen1, ht]
    simp only
    rw [tokText_eq _ (ptext s) ([34] ++ w) .string 1 1 (by simp [Doc.text]), unquote_pieces s hd]
    rfl
  | arr0 w' =>
    simp only [dtoks] at h2
    rw [h2]
    rfl
  | obj0 w' =>
    simp only [dtoks] at h2
    rw [h2]
    rfl
  | arr e =>
    simp only [Doc.Ok] at hd
    simp only [Doc.width] at hc
    simp only [dtoks] at h2
    have ht : p.toks[0]? = some ⟨.array, 0, some (0 + 1 + e.text.length + 1), e.count⟩ := by rw [h2]; rfl
    rw [ht]
    simp only
    rw [if_neg (els_count_pos e), gen1, ht]
    simp only
    have h3 := gen_els ((Doc.arr e).text ++ w) p.toks cap e (3 * p.toks.length + 2) 1 1 0 ([93] ++ w) [] hd hc
      (by rw [h2]; simp; omega) ⟨93, w, rfl, by decide⟩ (by simp [Doc.text]) (by rw [h2]; simp)
    rw [Nat.zero_add] at h3
    rw [h3]
    rfl
  | obj m =>
    simp only [Doc.Ok] at hd
    simp only [Doc.width] at hc
    simp only [dtoks] at h2
    have ht : p.toks[0]? = some ⟨.object, 0, some (0 + 1 + m.text.length + 1), m.count⟩ := by rw [h2]; rfl
    rw [ht]
    simp only
    rw [if_neg (mems_count_pos m), gen1, ht]
    simp only
    have h3 := gen_mems ((Doc.obj m).text ++ w) p.toks cap m (3 * p.toks.length + 2) 1 1 0 .nil ([125] ++ w) [] hd hc
      (by rw [h2]; simp; omega) ⟨125, w, rfl, by decide⟩ (by simp [Doc.text]) (by rw [h2]; simp)
    rw [Nat.zero_add] at h3
    rw [h3]
    rfl

theorem Ws.isspace {w : List UInt8} (h : Ws w) : ∀ c ∈ w, isspace c = true := by
  intro c hc; rcases h c hc with rfl | rfl | rfl | rfl <;> decide

theorem dropWhile_ws {w r : List UInt8} (h : Ws w) (hr : ∀ c t, r = c :: t → isspace c = false) :
    (w ++ r).dropWhile isspace = r := by
  induction w with
  | nil =>
    cases r with
    | nil => rfl
    | cons c t => simp [hr c t rfl]
  | cons c w ih =>
    rw [List.cons_append, List.dropWhile_cons_of_pos (h.isspace c (by simp))]
    exact ih (fun x hx => h x (by simp [hx]))

/-- The first character of a text. -/
def Doc.head : Doc → UInt8
  | .null => 110
  | .true => 116
  | .false => 102
  | .num n => (dec n).headD 0
  | .str _ => 34
  | .arr0 _ => 91
  | .arr _ => 91
  | .obj0 _ => 123
  | .obj _ => 123

theorem Doc.text_head (d : Doc) : ∃ t, d.text = d.head :: t := by
  cases d with
  | num n =>
    obtain ⟨c, b, h, _⟩ := dec_shape n
    exact ⟨b, by simp [Doc.text, Doc.head, h]⟩
  | null => exact ⟨_, asc_null⟩
  | true => exact ⟨_, asc_true⟩
  | false => exact ⟨_, asc_false⟩
  | str s => exact ⟨ptext s ++ [34], by simp [Doc.text, Doc.head]⟩
  | arr0 w => exact ⟨w ++ [93], by simp [Doc.text, Doc.head]⟩
  | arr w => exact ⟨w.text ++ [93], by simp [Doc.text, Doc.head]⟩
  | obj0 w => exact ⟨w ++ [125], by simp [Doc.text, Doc.head]⟩
  | obj w => exact ⟨w.text ++ [125], by simp [Doc.text, Doc.head]⟩

theorem dec_head (n : Int) : ∃ c t, dec n = c :: t ∧ (isdig c = true ∨ c = 45) := by
  unfold dec
  split
  · exact ⟨45, _, rfl, Or.inr rfl⟩
  · cases h : decNat n.natAbs with
    | nil => exact absurd h (decNat_ne _)
    | cons c t => exact ⟨c, t, rfl, Or.inl (decNat_digits n.natAbs c (by rw [h]; simp))⟩

theorem Doc.head_nospace (d : Doc) : Json.isspace d.head = Bool.false := by
  cases d with
  | num n =>
    obtain ⟨c, b, h, h2⟩ := dec_head n
    simp only [Doc.head, h, List.headD_cons]
    rcases h2 with h2 | rfl
    · simp only [isdig, Bool.and_eq_true, decide_eq_true_eq, UInt8.le_iff_toNat_le] at h2
      simp only [Json.isspace, Bool.or_eq_false_iff, Bool.and_eq_false_iff, decide_eq_false_iff_not, UInt8.le_iff_toNat_le,
        ← UInt8.toNat_inj]
      simp at h2 ⊢; omega
    · rfl
  | _ => rfl

/-- `JSON.parse` of a text with the value it stands for. -/
theorem parse_doc (strict : Bool) (cap : Nat) (d : Doc) (w0 w1 : List UInt8) (h0 : Ws w0) (h1 : Ws w1) (hd : d.Ok false)
    (hs : d = .null ∨ d = .true ∨ d = .false → w1 = []) (hc : d.width ≤ cap) :
    parse strict cap (w0 ++ d.text ++ w1) = .ok d.val := by
  obtain ⟨t, ht⟩ := d.text_head
  have hj : (w0 ++ d.text ++ w1).dropWhile isspace = d.head :: (t ++ w1) := by
    rw [List.append_assoc]
    rw [dropWhile_ws h0]
    · rw [ht]; rfl
    · intro c u he
      rw [ht] at he
      simp only [List.cons_append, List.cons.injEq] at he
      rw [← he.1]; exact d.head_nospace
  have hk : d.head :: (t ++ w1) = d.text ++ w1 := by rw [ht]; rfl
  unfold parse
  rw [hj]
  simp only
  rw [hk]
  have big : d.Big → (d.head = 34 ∨ d.head = 91 ∨ d.head = 123) := by
    cases d <;> simp [Doc.Big, Doc.head]
  by_cases hb : d.Big
  · have hh := big hb
    have e1 : d.text ++ w1 ≠ asc "true" := by
      rw [← hk, asc_true]; intro e; injection e with e _; rw [e] at hh; revert hh; decide
    have e2 : d.text ++ w1 ≠ asc "false" := by
      rw [← hk, asc_false]; intro e; injection e with e _; rw [e] at hh; revert hh; decide
    have e3 : d.text ++ w1 ≠ asc "null" := by
      rw [← hk, asc_null]; intro e; injection e with e _; rw [e] at hh; revert hh; decide
    have e4 : ¬ (isdig d.head = true ∨ d.head = 45) := by
      rcases hh with e | e | e <;> rw [e] <;> decide
    rw [if_neg e1, if_neg e2, if_neg e3, if_neg e4]
    exact parseTokens_doc strict cap d w1 hd h1 hb hc
  · cases d with
    | null => rw [hs (by simp)]; simp only [Doc.text, List.append_nil, Doc.val]; rw [if_neg (by decide), if_neg (by decide), if_pos trivial]
    | true => rw [hs (by simp)]; simp only [Doc.text, List.append_nil, Doc.val]; rw [if_pos trivial]
    | false => rw [hs (by simp)]; simp only [Doc.text, List.append_nil, Doc.val]; rw [if_neg (by decide), if_pos trivial]
    | num n =>
      obtain ⟨c, b, h, h2⟩ := dec_head n
      have hd' : (Doc.num n).head = c := by simp [Doc.head, h]
      have ne : ∀ x : List UInt8, (∀ y, x.head? = some y → isdig y = false ∧ y ≠ 45) → (Doc.num n).text ++ w1 ≠ x := by
        rintro x hx rfl
        rw [← hk] at hx
        have := hx _ rfl
        rw [hd'] at this
        rcases h2 with h2 | h2
        · rw [this.1] at h2; exact absurd h2 (by decide)
        · exact this.2 h2
      rw [if_neg (ne _ (by decide)), if_neg (ne _ (by decide)), if_neg (ne _ (by decide)), hd', if_pos h2]
      simp only [getDouble, Doc.text]
      rw [strtod_dec n w1 h1.noNum]
      simp only
      rw [if_pos (List.all_eq_true.2 (fun x hx => h1.isspace x hx))]
      rfl
    | str _ => exact (hb trivial).elim
    | arr0 _ => exact (hb trivial).elim
    | arr _ => exact (hb trivial).elim
    | obj0 _ => exact (hb trivial).elim
    | obj _ => exact (hb trivial).elim

theorem Piece.ok_mono (p : Piece) (h : p.Ok false) : p.Ok true := by
  cases p with
  | raw c => exact h
  | esc e => exact ⟨h.1, by simp⟩
  | uni a b c d => exact h
  | pair => exact absurd h.1 (by simp)

mutual
theorem Doc.ok_mono : ∀ d : Doc, d.Ok Bool.false → d.Ok Bool.true
  | .null, _ | .true, _ | .false, _ | .num _, _ => by simp [Doc.Ok]
  | .str s, h => by
    simp only [Doc.Ok] at h ⊢
    exact fun p hp => p.ok_mono (h p hp)
  | .arr0 _, h | .obj0 _, h => by simpa [Doc.Ok] using h
  | .arr e, h => by simp only [Doc.Ok] at h ⊢; exact e.ok_mono h
  | .obj m, h => by simp only [Doc.Ok] at h ⊢; exact m.ok_mono h
theorem Els.ok_mono : ∀ e : Els, e.Ok Bool.false → e.Ok Bool.true
  | .one _ d _, h => by simp only [Els.Ok] at h ⊢; exact ⟨h.1, d.ok_mono h.2.1, h.2.2⟩
  | .cons _ d _ t, h => by simp only [Els.Ok] at h ⊢; exact ⟨h.1, d.ok_mono h.2.1, h.2.2.1, t.ok_mono h.2.2.2⟩
theorem Mems.ok_mono : ∀ m : Mems, m.Ok Bool.false → m.Ok Bool.true
  | .one _ _ _ _ d _, h => by
    simp only [Mems.Ok] at h ⊢
    exact ⟨h.1, ⟨fun p hp => p.ok_mono (h.2.1.1 p hp), by simp⟩, h.2.2.1, h.2.2.2.1, d.ok_mono h.2.2.2.2.1, h.2.2.2.2.2⟩
  | .cons _ _ _ _ d _ t, h => by
    simp only [Mems.Ok] at h ⊢
    exact ⟨h.1, ⟨fun p hp => p.ok_mono (h.2.1.1 p hp), by simp⟩, h.2.2.1, h.2.2.2.1, d.ok_mono h.2.2.2.2.1, h.2.2.2.2.2.1,
      t.ok_mono h.2.2.2.2.2.2⟩
end

end Verif.Json
