import Verif.Json.Clean
/-!
# Values passed between interpreters: objects (C199)

Texts as in `Verif.Json.Spec`, but a key may be a name without quotes.  The proofs are those of `Verif.Json.Tokens`, `Gen`, `Top` and
`Out`, with such keys.
-/
namespace Verif.Json.Bare

/-- A key: without quotes, and what is written. -/
structure Key where
  bare : Bool
  ps : List Piece

def Key.text (k : Key) : List UInt8 := if k.bare then ptext k.ps else [34] ++ ptext k.ps ++ [34]
def Key.val (k : Key) : List UInt8 := pval k.ps
def Key.tok (k : Key) (pos : Nat) : Tok :=
  if k.bare then ⟨.prim, pos, some (pos + (ptext k.ps).length), 0⟩ else ⟨.string, pos + 1, some (pos + 1 + (ptext k.ps).length), 0⟩

/-- Without quotes: a name. -/
def Key.Ok (full : Bool) (k : Key) : Prop :=
  KeyOk full k.ps ∧ (k.bare = true → ∃ c b, ptext k.ps = c :: b ∧ nameStart c = true ∧ ∀ x ∈ b, nameChar x = true)

mutual
inductive Doc
  | null | true | false
  | num (n : Int)
  | str (s : List Piece)
  /-- `[ ws ]` -/
  | arr0 (w : List UInt8)
  | arr (e : Els)
  /-- `{ ws }` -/
  | obj0 (w : List UInt8)
  | obj (m : Mems)
/-- One or more array elements with the space around them. -/
inductive Els
  | one (w1 : List UInt8) (d : Doc) (w2 : List UInt8)
  | cons (w1 : List UInt8) (d : Doc) (w2 : List UInt8) (t : Els)
/-- One or more members, each: space, key, space, colon, space, value, space. -/
inductive Mems
  | one (w1 : List UInt8) (k : Key) (w2 w3 : List UInt8) (d : Doc) (w4 : List UInt8)
  | cons (w1 : List UInt8) (k : Key) (w2 w3 : List UInt8) (d : Doc) (w4 : List UInt8) (t : Mems)
end

def memHead (w1 : List UInt8) (k : Key) (w2 w3 : List UInt8) : List UInt8 :=
  w1 ++ k.text ++ w2 ++ [58] ++ w3

mutual
def Doc.text : Doc → List UInt8
  | .null => asc "null"
  | .true => asc "true"
  | .false => asc "false"
  | .num n => dec n
  | .str s => [34] ++ ptext s ++ [34]
  | .arr0 w => [91] ++ w ++ [93]
  | .arr e => [91] ++ e.text ++ [93]
  | .obj0 w => [123] ++ w ++ [125]
  | .obj m => [123] ++ m.text ++ [125]
def Els.text : Els → List UInt8
  | .one w1 d w2 => w1 ++ d.text ++ w2
  | .cons w1 d w2 t => w1 ++ d.text ++ w2 ++ [44] ++ t.text
def Mems.text : Mems → List UInt8
  | .one w1 k w2 w3 d w4 => memHead w1 k w2 w3 ++ d.text ++ w4
  | .cons w1 k w2 w3 d w4 t => memHead w1 k w2 w3 ++ d.text ++ w4 ++ [44] ++ t.text
end
mutual
def Doc.Ok (full : Bool) : Doc → Prop
  | .null => True
  | .true => True
  | .false => True
  | .num _ => True
  | .str s => ∀ p ∈ s, p.Ok full
  | .arr0 w => Ws w
  | .arr e => e.Ok full
  | .obj0 w => Ws w
  | .obj m => m.Ok full
def Els.Ok (full : Bool) : Els → Prop
  | .one w1 d w2 => Ws w1 ∧ d.Ok full ∧ Ws w2
  | .cons w1 d w2 t => Ws w1 ∧ d.Ok full ∧ Ws w2 ∧ t.Ok full
def Mems.Ok (full : Bool) : Mems → Prop
  | .one w1 k w2 w3 d w4 => Ws w1 ∧ k.Ok full ∧ Ws w2 ∧ Ws w3 ∧ d.Ok full ∧ Ws w4
  | .cons w1 k w2 w3 d w4 t => Ws w1 ∧ k.Ok full ∧ Ws w2 ∧ Ws w3 ∧ d.Ok full ∧ Ws w4 ∧ t.Ok full
end

mutual
/-- What a text means (strings as string objects, which is what `JSON.parse` makes). -/
def Doc.val : Doc → JVal
  | .null => .null
  | .true => .bool Bool.true
  | .false => .bool Bool.false
  | .num n => .num n
  | .str s => .str Bool.true (pval s)
  | .arr0 _ => .arr .nil
  | .arr e => .arr e.val
  | .obj0 _ => .obj .nil
  | .obj m => .obj (m.val .nil)
def Els.val : Els → JArr
  | .one _ d _ => .cons d.val .nil
  | .cons _ d _ t => .cons d.val t.val
def Mems.val (o : JObj) : Mems → JObj
  | .one _ k _ _ d _ => o.insert k.val d.val
  | .cons _ k _ _ d _ t => t.val (o.insert k.val d.val)
end

mutual
/-- The longest array in a text. -/
def Doc.width : Doc → Nat
  | .arr e => e.width 0
  | .obj m => m.width
  | _ => 0
def Els.width (n : Nat) : Els → Nat
  | .one _ d _ => max (n + 1) d.width
  | .cons _ d _ t => max d.width (t.width (n + 1))
def Mems.width : Mems → Nat
  | .one _ _ _ _ d _ => d.width
  | .cons _ _ _ _ d _ t => max d.width t.width
end
mutual
def Els.count : Els → Nat
  | .one _ _ _ => 1
  | .cons _ _ _ t => t.count + 1
end
def Mems.count : Mems → Nat
  | .one _ _ _ _ _ _ => 2
  | .cons _ _ _ _ _ _ t => t.count + 2

mutual
/-- The tokens of a text that starts at `pos`. -/
def dtoks (pos : Nat) : Doc → List Tok
  | .null => [⟨.prim, pos, some (pos + 4), 0⟩]
  | .true => [⟨.prim, pos, some (pos + 4), 0⟩]
  | .false => [⟨.prim, pos, some (pos + 5), 0⟩]
  | .num n => [⟨.prim, pos, some (pos + (dec n).length), 0⟩]
  | .str s => [⟨.string, pos + 1, some (pos + 1 + (ptext s).length), 0⟩]
  | .arr0 w => [⟨.array, pos, some (pos + 1 + w.length + 1), 0⟩]
  | .arr e => ⟨.array, pos, some (pos + 1 + e.text.length + 1), e.count⟩ :: etoks (pos + 1) e
  | .obj0 w => [⟨.object, pos, some (pos + 1 + w.length + 1), 0⟩]
  | .obj m => ⟨.object, pos, some (pos + 1 + m.text.length + 1), m.count⟩ :: mtoks (pos + 1) m
def etoks (pos : Nat) : Els → List Tok
  | .one w1 d _ => dtoks (pos + w1.length) d
  | .cons w1 d w2 t => dtoks (pos + w1.length) d ++ etoks (pos + w1.length + d.text.length + w2.length + 1) t
def mtoks (pos : Nat) : Mems → List Tok
  | .one w1 k w2 w3 d _ => k.tok (pos + w1.length) ::
      dtoks (pos + (memHead w1 k w2 w3).length) d
  | .cons w1 k w2 w3 d w4 t => k.tok (pos + w1.length) ::
      (dtoks (pos + (memHead w1 k w2 w3).length) d ++
        mtoks (pos + (memHead w1 k w2 w3).length + d.text.length + w4.length + 1) t)
end

theorem name_prim {c : UInt8} (h : nameChar c = true) : primEnd false c = false ∧ 32 ≤ c ∧ c < 127 := by
  have : ∀ n : Fin 256, nameChar (UInt8.ofNat n.1) = true → primEnd false (UInt8.ofNat n.1) = false ∧ 32 ≤ UInt8.ofNat n.1 ∧ UInt8.ofNat n.1 < 127 := by
    decide +kernel
  have h2 := this ⟨c.toNat, c.toNat_lt⟩
  simp only [UInt8.ofNat_toNat] at h2
  exact h2 h

theorem name_first {c : UInt8} (h : nameStart c = true) : nameChar c = true := by unfold nameChar; rw [h]; rfl

theorem Key.tok_stop (k : Key) (pos : Nat) : (k.tok pos).stop ≠ none := by
  unfold Key.tok; cases k.bare <;> simp

/-- A key is followed by something that ends a name. -/
def ColonEnds (rest : List UInt8) : Prop := ∃ c t, rest = c :: t ∧ primEnd false c = true

theorem colonEnds {w : List UInt8} (hw : Ws w) (r : List UInt8) : ColonEnds (w ++ ([58] ++ r)) := by
  cases w with
  | nil => exact ⟨58, r, rfl, by decide⟩
  | cons c w =>
    refine ⟨c, w ++ ([58] ++ r), rfl, ?_⟩
    rcases hw c (by simp) with rfl | rfl | rfl | rfl <;> decide

theorem scanPrim_name (b rest : List UInt8) (hb : ∀ c ∈ b, primEnd false c = false ∧ 32 ≤ c ∧ c < 127) (hr : ColonEnds rest) :
    scanPrim false (b ++ rest) = some b.length := by
  induction b with
  | nil =>
    obtain ⟨c, t, rfl, hc⟩ := hr
    rw [List.nil_append, scanPrim, if_pos hc]; rfl
  | cons c b ih =>
    obtain ⟨h1, h2, h3⟩ := hb c (by simp)
    have hn : ¬(c < 32 ∨ 127 ≤ c) := by
      rw [UInt8.le_iff_toNat_le] at h2
      rw [UInt8.lt_iff_toNat_lt] at h3
      rw [UInt8.lt_iff_toNat_lt, UInt8.le_iff_toNat_le]
      have e1 : (32 : UInt8).toNat = 32 := rfl
      have e2 : (127 : UInt8).toNat = 127 := rfl
      omega
    rw [List.cons_append, scanPrim, if_neg (by rw [h1]; simp), if_neg hn, ih (fun x hx => hb x (by simp [hx]))]
    simp

/-- A key inside an object. -/
theorem loop_key (q full : Bool) (k : Key) (rest : List UInt8) (pos : Nat) (p : P) (s : Nat) (hi : In p s)
    (hk : k.Ok full) (hr : ColonEnds rest) :
    ∃ p', loop Bool.false q pos p (k.text ++ rest) = loop Bool.false q (pos + k.text.length) p' rest ∧
      p'.toks = bumpN s 1 p.toks ++ [k.tok pos] ∧ In p' s := by
  obtain ⟨bare, ps⟩ := k
  cases bare with
  | false =>
    obtain ⟨p', h1, h2, h3⟩ := loop_string Bool.false q full ps rest pos p s hi hk.1.1
    refine ⟨p', ?_, h2, h3⟩
    show loop Bool.false q pos p ([34] ++ ptext ps ++ [34] ++ rest) = loop Bool.false q (pos + ([34] ++ ptext ps ++ [34]).length) p' rest
    rw [h1]
    congr 1
    simp
  | true =>
    obtain ⟨c, b, h1, h2, h3⟩ := hk.2 rfl
    simp only at h1
    have hs := scanPrim_name (c :: b) rest (by
      intro x hx
      rcases List.mem_cons.1 hx with rfl | hx
      · exact name_prim (name_first h2)
      · exact name_prim (h3 x hx)) hr
    obtain ⟨a1, a2⟩ := hi.addPrim pos (b.length + 1)
    refine ⟨_, ?_, ?_, a2⟩
    · show loop Bool.false q pos p (ptext ps ++ rest) = loop Bool.false q (pos + (ptext ps).length) _ rest
      rw [h1, List.cons_append, loop]
      rw [List.cons_append] at hs
      have hd : (b ++ rest).drop (b.length + 1 - 1) = rest := by simp
      have hne : c ≠ 123 ∧ c ≠ 91 ∧ c ≠ 125 ∧ c ≠ 93 ∧ c ≠ 34 ∧ c ≠ 58 ∧ c ≠ 44 ∧ ¬ (c = 9 ∨ c = 13 ∨ c = 10 ∨ c = 32) := by
        refine ⟨?_, ?_, ?_, ?_, ?_, ?_, ?_, ?_⟩
        all_goals first | (rintro rfl; exact absurd h2 (by decide)) | (rintro (rfl | rfl | rfl | rfl) <;> exact absurd h2 (by decide))
      obtain ⟨n1, n2, n3, n4, n5, n6, n7, n8⟩ := hne
      rw [if_neg n1, if_neg n2, if_neg n3, if_neg n4, if_neg n5, if_neg n6, if_neg n7, if_neg n8, if_neg (by simp), hs]
      simp only [List.length_cons, hd]
    · rw [a1]
      show _ = bumpN s 1 p.toks ++ [⟨.prim, pos, some (pos + (ptext ps).length), 0⟩]
      rw [h1]; rfl

theorem Key.drop_eq (k : Key) (js w1 r : List UInt8) (pos : Nat) (hj : js.drop pos = w1 ++ (k.text ++ r)) :
    js.drop (pos + w1.length + if k.bare then 0 else 1) = ptext k.ps ++ ((if k.bare then [] else [34]) ++ r) := by
  obtain ⟨bare, ps⟩ := k
  have h := drop_step hj
  cases bare with
  | true => simpa [Key.text] using h
  | false =>
    have h2 : js.drop (pos + w1.length) = [34] ++ (ptext ps ++ ([34] ++ r)) := by simpa [Key.text] using h
    exact drop_step (a := [34]) h2

theorem Key.tokText_tok (k : Key) (js r : List UInt8) (pos : Nat) (hk : js.drop (pos + if k.bare then 0 else 1) = ptext k.ps ++ r)
    (h : k.Ok false) : tokText js (k.tok pos) = k.val := by
  obtain ⟨bare, ps⟩ := k
  have e : ptext ps = pval ps := key_text ps h.1
  cases bare with
  | true =>
    have := tokText_eq js (ptext ps) r .prim pos 0 (by simpa using hk)
    show tokText js ⟨.prim, pos, some (pos + (ptext ps).length), 0⟩ = pval ps
    rw [this, e]
  | false =>
    have := tokText_eq js (ptext ps) r .string (pos + 1) 0 (by simpa using hk)
    show tokText js ⟨.string, pos + 1, some (pos + 1 + (ptext ps).length), 0⟩ = pval ps
    rw [this, e]

mutual
theorem dtoks_closed : ∀ (d : Doc) (pos : Nat), ∀ t ∈ dtoks pos d, t.stop ≠ none
  | .null, _ | .true, _ | .false, _ | .num _, _ | .str _, _ | .arr0 _, _ | .obj0 _, _ => by simp [dtoks]
  | .arr e, pos => by
    have := etoks_closed e (pos + 1)
    simp only [dtoks, List.mem_cons]
    rintro t (rfl | h)
    · simp
    · exact this t h
  | .obj m, pos => by
    have := mtoks_closed m (pos + 1)
    simp only [dtoks, List.mem_cons]
    rintro t (rfl | h)
    · simp
    · exact this t h
theorem etoks_closed : ∀ (e : Els) (pos : Nat), ∀ t ∈ etoks pos e, t.stop ≠ none
  | .one w1 d w2, pos => by simp only [etoks]; exact dtoks_closed d _
  | .cons w1 d w2 e, pos => by
    simp only [etoks, List.mem_append]
    rintro t (h | h)
    · exact dtoks_closed d _ t h
    · exact etoks_closed e _ t h
theorem mtoks_closed : ∀ (m : Mems) (pos : Nat), ∀ t ∈ mtoks pos m, t.stop ≠ none
  | .one w1 k w2 w3 d w4, pos => by
    simp only [mtoks, List.mem_cons]
    rintro t (rfl | h)
    · exact k.tok_stop _
    · exact dtoks_closed d _ t h
  | .cons w1 k w2 w3 d w4 m, pos => by
    simp only [mtoks, List.mem_cons, List.mem_append]
    rintro t (rfl | h | h)
    · exact k.tok_stop _
    · exact dtoks_closed d _ t h
    · exact mtoks_closed m _ t h
end
mutual
/-- A value inside a container. -/
theorem loop_doc (q full : Bool) : ∀ (d : Doc) (rest : List UInt8) (pos : Nat) (p : P) (s : Nat), d.Ok full →
    In p s → Ends rest →
    ∃ p', loop Bool.false q pos p (d.text ++ rest) = loop Bool.false q (pos + d.text.length) p' rest ∧
      p'.toks = bumpN s 1 p.toks ++ dtoks pos d ∧ In p' s
  | .null, rest, pos, p, s, _, hi, he => by
    have := loop_word Bool.false q (asc "null") rest pos p s hi he ⟨_, _, asc_null, by decide⟩ (by decide +kernel)
    exact this
  | .true, rest, pos, p, s, _, hi, he => by
    have := loop_word Bool.false q (asc "true") rest pos p s hi he ⟨_, _, asc_true, by decide⟩ (by decide +kernel)
    exact this
  | .false, rest, pos, p, s, _, hi, he => by
    have := loop_word Bool.false q (asc "false") rest pos p s hi he ⟨_, _, asc_false, by decide⟩ (by decide +kernel)
    exact this
  | .num n, rest, pos, p, s, _, hi, he => by
    obtain ⟨c, b, h1, h2, h3⟩ := dec_shape n
    exact loop_word Bool.false q (dec n) rest pos p s hi he ⟨c, b, h1, h2⟩ h3
  | .str x, rest, pos, p, s, hd, hi, he => by
    simp only [Doc.Ok] at hd
    obtain ⟨p', h1, h2, h3⟩ := loop_string Bool.false q full x rest pos p s hi hd
    refine ⟨p', ?_, h2, h3⟩
    simp only [Doc.text]
    rw [h1]
    congr 1
    simp
  | .arr0 w, rest, pos, p, s, hd, hi, he => by
    simp only [Doc.Ok] at hd
    obtain ⟨p', h1, h2, h3⟩ := loop_container Bool.false q Bool.true w rest pos p s hi 0 [] (by simp) (by
      intro p1 i1 t1
      refine ⟨p1, loop_ws Bool.false q w _ hd _ _, ?_, i1⟩
      have : ∀ l : List Tok, ∀ i, bumpN i 0 l = l := by
        intro l i; unfold bumpN; exact List.modify_id i l
      rw [this]; simp)
    refine ⟨p', ?_, h2, h3⟩
    simp only [Doc.text, if_true, List.cons_append, List.nil_append, List.append_assoc] at h1 ⊢
    rw [h1]
    congr 1
    simp; omega
  | .obj0 w, rest, pos, p, s, hd, hi, he => by
    simp only [Doc.Ok] at hd
    obtain ⟨p', h1, h2, h3⟩ := loop_container Bool.false q Bool.false w rest pos p s hi 0 [] (by simp) (by
      intro p1 i1 t1
      refine ⟨p1, loop_ws Bool.false q w _ hd _ _, ?_, i1⟩
      have : ∀ l : List Tok, ∀ i, bumpN i 0 l = l := by
        intro l i; unfold bumpN; exact List.modify_id i l
      rw [this]; simp)
    refine ⟨p', ?_, h2, h3⟩
    simp only [Doc.text, Bool.false_eq_true, if_false, List.cons_append, List.nil_append, List.append_assoc] at h1 ⊢
    rw [h1]
    congr 1
    simp; omega
  | .arr e, rest, pos, p, s, hd, hi, he => by
    simp only [Doc.Ok] at hd
    obtain ⟨p', h1, h2, h3⟩ := loop_container Bool.false q Bool.true e.text rest pos p s hi e.count (etoks (pos + 1) e)
      (etoks_closed e _) (by
        intro p1 i1 t1
        exact loop_els q full e _ (pos + 1) p1 _ hd i1 ⟨93, rest, rfl, by decide⟩)
    refine ⟨p', ?_, h2, h3⟩
    simp only [Doc.text, if_true, List.cons_append, List.nil_append, List.append_assoc] at h1 ⊢
    rw [h1]
    congr 1
    simp; omega
  | .obj m, rest, pos, p, s, hd, hi, he => by
    simp only [Doc.Ok] at hd
    obtain ⟨p', h1, h2, h3⟩ := loop_container Bool.false q Bool.false m.text rest pos p s hi m.count (mtoks (pos + 1) m)
      (mtoks_closed m _) (by
        intro p1 i1 t1
        refine loop_mems q full m _ (pos + 1) p1 _ hd i1 ?_ ⟨125, rest, rfl, by decide⟩
        rw [t1, ← bumpN_length s 1 p.toks]
        simp [ty])
    refine ⟨p', ?_, h2, h3⟩
    simp only [Doc.text, Bool.false_eq_true, if_false, List.cons_append, List.nil_append, List.append_assoc] at h1 ⊢
    rw [h1]
    congr 1
    simp; omega
theorem loop_els (q full : Bool) : ∀ (e : Els) (rest : List UInt8) (pos : Nat) (p : P) (s : Nat), e.Ok full →
    In p s → Ends rest →
    ∃ p', loop Bool.false q pos p (e.text ++ rest) = loop Bool.false q (pos + e.text.length) p' rest ∧
      p'.toks = bumpN s e.count p.toks ++ etoks pos e ∧ In p' s
  | .one w1 d w2, rest, pos, p, s, he, hi, hr => by
    simp only [Els.Ok] at he
    obtain ⟨h1, h2, h3⟩ := he
    obtain ⟨p', e1, t1, i1⟩ := loop_doc q full d (w2 ++ rest) (pos + w1.length) p s h2 hi (hr.ws h3)
    refine ⟨p', ?_, t1, i1⟩
    simp only [Els.text, List.append_assoc]
    rw [loop_ws Bool.false q w1 _ h1, e1, loop_ws Bool.false q w2 _ h3]
    congr 1
    simp; omega
  | .cons w1 d w2 t, rest, pos, p, s, he, hi, hr => by
    simp only [Els.Ok] at he
    obtain ⟨h1, h2, h3, h4⟩ := he
    obtain ⟨p1, e1, t1, i1⟩ := loop_doc q full d (w2 ++ ([44] ++ (t.text ++ rest))) (pos + w1.length) p s h2 hi
      (Ends.ws h3 ⟨44, _, rfl, by decide⟩)
    obtain ⟨p2, e2, t2, i2⟩ := loop_els q full t rest (pos + w1.length + d.text.length + w2.length + 1) p1 s h4 i1 hr
    refine ⟨p2, ?_, ?_, i2⟩
    · simp only [Els.text, List.append_assoc]
      rw [loop_ws Bool.false q w1 _ h1, e1, loop_ws Bool.false q w2 _ h3]
      rw [List.cons_append, List.nil_append, loop_comma _ _ _ _ _ (comma_ok i1), e2]
      congr 1
      simp; omega
    · rw [t2, t1, bumpN_append _ _ _ _ (by rw [bumpN_length]; exact hi.lt), bumpN_bumpN]
      simp only [etoks, Els.count, List.append_assoc]
      rw [Nat.add_comm 1]
theorem loop_mems (q full : Bool) : ∀ (m : Mems) (rest : List UInt8) (pos : Nat) (p : P) (s : Nat), m.Ok full →
    In p s → ty p.toks s = some .object → Ends rest →
    ∃ p', loop Bool.false q pos p (m.text ++ rest) = loop Bool.false q (pos + m.text.length) p' rest ∧
      p'.toks = bumpN s m.count p.toks ++ mtoks pos m ∧ In p' s
  | .one w1 k w2 w3 d w4, rest, pos, p, s, he, hi, ho, hr => by
    simp only [Mems.Ok] at he
    obtain ⟨h1, h2, h3, h4, h5, h6⟩ := he
    obtain ⟨p1, e1, t1, i1⟩ := loop_key q full k (w2 ++ ([58] ++ (w3 ++ (d.text ++ (w4 ++ rest))))) (pos + w1.length)
      p s hi h2 (colonEnds h3 _)
    have ho1 : ty p1.toks s = some .object := by
      rw [t1]; apply ty_append; rw [ty_bumpN]; exact ho
    obtain ⟨p2, e2, t2, i2⟩ := loop_doc q full d (w4 ++ rest) (pos + (memHead w1 k w2 w3).length) p1 s h5 i1 (hr.ws h6)
    refine ⟨p2, ?_, ?_, i2⟩
    · simp only [Mems.text, memHead, List.append_assoc] at e1 e2 ⊢
      rw [loop_ws Bool.false q w1 _ h1, e1, loop_ws Bool.false q w2 _ h3, List.cons_append, List.nil_append,
        loop_colon _ _ _ _ _ (comma_ok i1) (colon_ok i1 ho1), loop_ws Bool.false q w3 _ h4]
      have e : pos + w1.length + k.text.length + w2.length + 1 + w3.length =
        pos + (w1 ++ (k.text ++ (w2 ++ ([58] ++ w3)))).length := by simp; omega
      rw [e, e2, loop_ws Bool.false q w4 _ h6]
      congr 1
      simp; omega
    · rw [t2, t1, bumpN_append _ _ _ _ (by rw [bumpN_length]; exact hi.lt), bumpN_bumpN]
      simp only [mtoks, Mems.count, List.append_assoc, List.cons_append, List.nil_append]
  | .cons w1 k w2 w3 d w4 m, rest, pos, p, s, he, hi, ho, hr => by
    simp only [Mems.Ok] at he
    obtain ⟨h1, h2, h3, h4, h5, h6, h7⟩ := he
    obtain ⟨p1, e1, t1, i1⟩ := loop_key q full k
      (w2 ++ ([58] ++ (w3 ++ (d.text ++ (w4 ++ ([44] ++ (m.text ++ rest))))))) (pos + w1.length) p s hi h2 (colonEnds h3 _)
    have ho1 : ty p1.toks s = some .object := by
      rw [t1]; apply ty_append; rw [ty_bumpN]; exact ho
    obtain ⟨p2, e2, t2, i2⟩ := loop_doc q full d (w4 ++ ([44] ++ (m.text ++ rest)))
      (pos + (memHead w1 k w2 w3).length) p1 s h5 i1 (Ends.ws h6 ⟨44, _, rfl, by decide⟩)
    have ho2 : ty p2.toks s = some .object := by
      rw [t2]; apply ty_append; rw [ty_bumpN]; exact ho1
    obtain ⟨p3, e3, t3, i3⟩ := loop_mems q full m rest
      (pos + (memHead w1 k w2 w3).length + d.text.length + w4.length + 1) p2 s h7 i2 ho2 hr
    refine ⟨p3, ?_, ?_, i3⟩
    · simp only [Mems.text, memHead, List.append_assoc] at e1 e2 e3 ⊢
      rw [loop_ws Bool.false q w1 _ h1, e1, loop_ws Bool.false q w2 _ h3, List.cons_append, List.nil_append,
        loop_colon _ _ _ _ _ (comma_ok i1) (colon_ok i1 ho1), loop_ws Bool.false q w3 _ h4]
      have e : pos + w1.length + k.text.length + w2.length + 1 + w3.length =
        pos + (w1 ++ (k.text ++ (w2 ++ ([58] ++ w3)))).length := by simp; omega
      have hc : ∀ pos, loop Bool.false q pos p2 ([44] ++ (m.text ++ rest)) = loop Bool.false q (pos + 1) p2 (m.text ++ rest) :=
        fun pos => loop_comma _ _ _ _ _ (comma_ok i2)
      rw [e, e2, loop_ws Bool.false q w4 _ h6, hc, e3]
      congr 1
      simp; omega
    · have lt := hi.lt
      have lt1 : s < (bumpN s 1 p.toks).length := by rw [bumpN_length]; exact lt
      rw [t3, t2, bumpN_append _ _ _ _ (by rw [bumpN_length]; exact i1.lt), bumpN_bumpN, t1,
        bumpN_append _ _ _ _ lt1, bumpN_bumpN]
      simp only [mtoks, Mems.count, List.append_assoc, List.cons_append, List.nil_append]
      rw [show 1 + (1 + m.count) = m.count + 2 by omega]
end
theorem els_width : ∀ (t : Els) (n : Nat), n < t.width n
  | .one _ _ _, n => by simp only [Els.width]; omega
  | .cons _ _ _ t, n => by have := els_width t (n + 1); simp only [Els.width]; omega

mutual
theorem dtoks_pos : ∀ (d : Doc) (pos : Nat), 0 < (dtoks pos d).length
  | .null, _ | .true, _ | .false, _ | .num _, _ | .str _, _ | .arr0 _, _ | .obj0 _, _ => by simp [dtoks]
  | .arr e, pos => by simp [dtoks]
  | .obj m, pos => by simp [dtoks]
end
mutual
theorem gen_doc (js : List UInt8) (toks : List Tok) (cap : Nat) : ∀ (d : Doc) (fuel i pos : Nat) (post : List UInt8) (B : List Tok),
    d.Ok false → d.width ≤ cap → 2 * (dtoks pos d).length ≤ fuel → Ends post → js.drop pos = d.text ++ post →
    toks.drop i = dtoks pos d ++ B →
    gen1 js toks cap fuel i = .ok (d.val, i + (dtoks pos d).length - 1)
  | .null, fuel + 1, i, pos, post, B, _, _, _, he, hj, ht => by
    have := tokText_eq js (asc "null") post .prim pos 0 hj
    rw [gen1, get_of_drop ht]
    have h4 : (asc "null").length = 4 := by decide
    rw [h4] at this
    simp [primVal, this, Doc.val, Except.map, dtoks]
  | .true, fuel + 1, i, pos, post, B, _, _, _, he, hj, ht => by
    have := tokText_eq js (asc "true") post .prim pos 0 hj
    rw [gen1, get_of_drop ht]
    have h4 : (asc "true").length = 4 := by decide
    rw [h4] at this
    have n1 : asc "true" ≠ asc "null" := by decide
    simp [primVal, this, n1, Doc.val, Except.map, dtoks]
  | .false, fuel + 1, i, pos, post, B, _, _, _, he, hj, ht => by
    have := tokText_eq js (asc "false") post .prim pos 0 hj
    rw [gen1, get_of_drop ht]
    have h4 : (asc "false").length = 5 := by decide
    rw [h4] at this
    have n1 : asc "false" ≠ asc "null" := by decide
    have n2 : asc "false" ≠ asc "true" := by decide
    simp [primVal, this, n1, n2, Doc.val, Except.map, dtoks]
  | .num n, fuel + 1, i, pos, post, B, _, _, _, he, hj, ht => by
    rw [gen1, get_of_drop ht]
    simp only
    rw [primVal_dec js post pos n he hj 0]
    simp [Except.map, Doc.val, dtoks]
  | .str s, fuel + 1, i, pos, post, B, hd, _, _, he, hj, ht => by
    simp only [Doc.Ok] at hd
    have hj' : js.drop (pos + 1) = ptext s ++ ([34] ++ post) := by
      have := drop_step (js := js) (a := [34]) (b := ptext s ++ ([34] ++ post)) (pos := pos) (by rw [hj]; simp [Doc.text])
      exact this
    rw [gen1, get_of_drop ht]
    simp only
    rw [tokText_eq js (ptext s) _ .string (pos + 1) 0 hj', unquote_pieces s hd]
    simp [Doc.val, dtoks]
  | .arr0 w, fuel + 1, i, pos, post, B, _, _, hf, he, hj, ht => by
    rw [gen1, get_of_drop ht]
    simp only [dtoks, List.length_cons, List.length_nil] at hf
    obtain ⟨f, rfl⟩ : ∃ f, fuel = f + 1 := ⟨fuel - 1, by omega⟩
    simp only
    rw [genArr]
    simp [Except.map, Doc.val, dtoks]
  | .obj0 w, fuel + 1, i, pos, post, B, _, _, hf, he, hj, ht => by
    rw [gen1, get_of_drop ht]
    simp only [dtoks, List.length_cons, List.length_nil] at hf
    obtain ⟨f, rfl⟩ : ∃ f, fuel = f + 1 := ⟨fuel - 1, by omega⟩
    simp only
    have : genObj js toks cap (f + 1) 0 (i + 1) 0 .nil = .ok (.nil, i + 1) := by
      rw [genObj]; split <;> simp
    rw [this]
    simp [Except.map, Doc.val, dtoks]
  | .arr e, fuel + 1, i, pos, post, B, hd, hw, hf, he, hj, ht => by
    simp only [Doc.Ok] at hd
    simp only [Doc.width] at hw
    simp only [dtoks, List.length_cons] at hf
    rw [gen1, get_of_drop ht]
    simp only
    have h1 := gen_els js toks cap e fuel (i + 1) (pos + 1) 0 ([93] ++ post) B hd hw (by omega) ⟨93, post, rfl, by decide⟩
      (drop_step (a := [91]) (by rw [hj]; simp [Doc.text])) (tail_of_drop ht)
    rw [Nat.zero_add] at h1
    rw [h1]
    simp only [Except.map, Doc.val, dtoks, List.length_cons, Except.ok.injEq, Prod.mk.injEq, true_and]
    omega
  | .obj m, fuel + 1, i, pos, post, B, hd, hw, hf, he, hj, ht => by
    simp only [Doc.Ok] at hd
    simp only [Doc.width] at hw
    simp only [dtoks, List.length_cons] at hf
    rw [gen1, get_of_drop ht]
    simp only
    have h1 := gen_mems js toks cap m fuel (i + 1) (pos + 1) 0 .nil ([125] ++ post) B hd hw (by omega) ⟨125, post, rfl, by decide⟩
      (drop_step (a := [123]) (by rw [hj]; simp [Doc.text])) (tail_of_drop ht)
    rw [Nat.zero_add] at h1
    rw [h1]
    simp only [Except.map, Doc.val, dtoks, List.length_cons, Except.ok.injEq, Prod.mk.injEq, true_and]
    omega
  | d, 0, i, pos, post, B, _, _, hf, _, _, _ => by
    have := dtoks_pos d pos
    omega
theorem gen_els (js : List UInt8) (toks : List Tok) (cap : Nat) : ∀ (e : Els) (fuel i pos n : Nat) (post : List UInt8) (B : List Tok),
    e.Ok false → e.width n ≤ cap → 2 * (etoks pos e).length + 1 ≤ fuel → Ends post → js.drop pos = e.text ++ post →
    toks.drop i = etoks pos e ++ B →
    genArr js toks cap fuel (n + e.count) i n = .ok (e.val, i + (etoks pos e).length)
  | .one w1 d w2, fuel + 1, i, pos, n, post, B, hd, hw, hf, he, hj, ht => by
    simp only [Els.Ok] at hd
    simp only [Els.width] at hw
    simp only [etoks, Els.text, List.append_assoc] at hf hj ht ⊢
    have hp := dtoks_pos d (pos + w1.length)
    have hi : i < toks.length := by
      by_contra hn
      rw [List.drop_eq_nil_of_le (by omega)] at ht
      have := congrArg List.length ht
      simp at this; omega
    have hg := gen_doc js toks cap d fuel i (pos + w1.length) (w2 ++ post) B hd.2.1 (by omega) (by omega) (he.ws hd.2.2)
      (drop_step hj) ht
    rw [genArr, if_pos ⟨hi, by simp [Els.count]⟩, if_neg (by omega), hg]
    obtain ⟨f, rfl⟩ : ∃ f, fuel = f + 1 := ⟨fuel - 1, by omega⟩
    simp only
    rw [genArr, if_neg (by simp [Els.count])]
    simp only [Except.map, Els.val, Except.ok.injEq, Prod.mk.injEq, true_and]
    omega
  | .cons w1 d w2 t, fuel + 1, i, pos, n, post, B, hd, hw, hf, he, hj, ht => by
    simp only [Els.Ok] at hd
    simp only [Els.width] at hw
    simp only [etoks, Els.text, List.append_assoc, List.length_append] at hf hj ht ⊢
    have hp := dtoks_pos d (pos + w1.length)
    have hi : i < toks.length := by
      by_contra hn
      rw [List.drop_eq_nil_of_le (by omega)] at ht
      have := congrArg List.length ht
      simp at this; omega
    have hj1 := drop_step hj
    have hj2 := drop_step hj1
    have hj3 := drop_step hj2
    have hj4 := drop_step hj3
    have hwn : n < cap := by
      have := els_width t (n + 1)
      omega
    have hg := gen_doc js toks cap d fuel i (pos + w1.length) (w2 ++ ([44] ++ (t.text ++ post))) _ hd.2.1 (by omega) (by omega)
      (Ends.ws hd.2.2.1 ⟨44, _, rfl, by decide⟩) hj1 ht
    have ht' := gen_els js toks cap t fuel (i + (dtoks (pos + w1.length) d).length)
      (pos + w1.length + d.text.length + w2.length + 1) (n + 1) post B hd.2.2.2 (by omega) (by omega) he hj4 (toks_step ht)
    rw [genArr, if_pos ⟨hi, by simp [Els.count]⟩, if_neg (by omega), hg]
    simp only
    rw [show i + (dtoks (pos + w1.length) d).length - 1 + 1 = i + (dtoks (pos + w1.length) d).length by omega,
      show n + (Els.cons w1 d w2 t).count = n + 1 + t.count by simp [Els.count]; omega, ht']
    simp only [Except.map, Els.val, Except.ok.injEq, Prod.mk.injEq, true_and]
    omega
  | e, 0, i, pos, n, post, B, _, _, hf, _, _, _ => by omega
theorem gen_mems (js : List UInt8) (toks : List Tok) (cap : Nat) : ∀ (m : Mems) (fuel i pos n : Nat) (o : JObj) (post : List UInt8)
    (B : List Tok),
    m.Ok false → m.width ≤ cap → 2 * (mtoks pos m).length + 1 ≤ fuel → Ends post → js.drop pos = m.text ++ post →
    toks.drop i = mtoks pos m ++ B →
    genObj js toks cap fuel (n + m.count) i n o = .ok (m.val o, i + (mtoks pos m).length)
  | .one w1 k w2 w3 d w4, fuel + 1, i, pos, n, o, post, B, hd, hw, hf, he, hj, ht => by
    simp only [Mems.Ok] at hd
    obtain ⟨h1, h2, h3, h4, h5, h6⟩ := hd
    simp only [Mems.width] at hw
    simp only [mtoks, Mems.text, List.append_assoc, List.length_cons, List.cons_append] at hf hj ht ⊢
    have hp := dtoks_pos d (pos + (memHead w1 k w2 w3).length)
    have hk := k.drop_eq js w1 (w2 ++ ([58] ++ (w3 ++ (d.text ++ (w4 ++ post))))) pos (by rw [hj]; simp [memHead])
    have hg := gen_doc js toks cap d fuel (i + 1) (pos + (memHead w1 k w2 w3).length) (w4 ++ post) B h5 (by omega) (by omega)
      (he.ws h6) (drop_step hj) (tail_of_drop ht)
    rw [genObj, get_of_drop ht]
    simp only
    rw [if_pos (by simp [Mems.count]), if_neg (by simp [Mems.count]; try omega), hg]
    simp only
    rw [k.tokText_tok js _ _ hk h2]
    obtain ⟨f, rfl⟩ : ∃ f, fuel = f + 1 := ⟨fuel - 1, by omega⟩
    have hend : ∀ j o', genObj js toks cap (f + 1) (n + (Mems.one w1 k w2 w3 d w4).count) j (n + 2) o' = .ok (o', j) := by
      intro j o'
      rw [genObj]
      cases toks[j]? with
      | none => rfl
      | some t => simp [Mems.count]
    rw [hend]
    simp only [Mems.val, Except.ok.injEq, Prod.mk.injEq, true_and]
    omega
  | .cons w1 k w2 w3 d w4 m, fuel + 1, i, pos, n, o, post, B, hd, hw, hf, he, hj, ht => by
    simp only [Mems.Ok] at hd
    obtain ⟨h1, h2, h3, h4, h5, h6, h7⟩ := hd
    simp only [Mems.width] at hw
    simp only [mtoks, Mems.text, List.append_assoc, List.length_cons, List.cons_append, List.length_append] at hf hj ht ⊢
    have hp := dtoks_pos d (pos + (memHead w1 k w2 w3).length)
    have hk := k.drop_eq js w1 (w2 ++ ([58] ++ (w3 ++ (d.text ++ (w4 ++ ([44] ++ (m.text ++ post))))))) pos (by rw [hj]; simp [memHead])
    have hj1 := drop_step hj
    have hj2 := drop_step hj1
    have hj3 := drop_step hj2
    have hj4 := drop_step (a := [44]) hj3
    have hg := gen_doc js toks cap d fuel (i + 1) (pos + (memHead w1 k w2 w3).length) (w4 ++ ([44] ++ (m.text ++ post))) _ h5 (by omega)
      (by omega) (Ends.ws h6 ⟨44, _, rfl, by decide⟩) hj1 (tail_of_drop ht)
    have ht' := gen_mems js toks cap m fuel (i + 1 + (dtoks (pos + (memHead w1 k w2 w3).length) d).length)
      (pos + (memHead w1 k w2 w3).length + d.text.length + w4.length + 1) (n + 2) (o.insert (k.val) d.val) post B h7 (by omega)
      (by omega) he hj4 (toks_step (tail_of_drop ht))
    rw [genObj, get_of_drop ht]
    simp only
    rw [if_pos (by simp [Mems.count]), if_neg (by simp [Mems.count]; try omega), hg]
    simp only
    rw [k.tokText_tok js _ _ hk h2]
    rw [show i + 1 + (dtoks (pos + (memHead w1 k w2 w3).length) d).length - 1 + 1 =
        i + 1 + (dtoks (pos + (memHead w1 k w2 w3).length) d).length by omega,
      show n + (Mems.cons w1 k w2 w3 d w4 m).count = n + 2 + m.count by simp [Mems.count]; omega, ht']
    simp only [Mems.val, Except.ok.injEq, Prod.mk.injEq, true_and]
    omega
  | m, 0, i, pos, n, o, post, B, _, _, hf, _, _, _ => by omega
end
def Doc.Big : Doc → Prop
  | .str _ | .arr0 _ | .arr _ | .obj0 _ | .obj _ => True
  | _ => False

theorem loop_doc_top (q full : Bool) (pos : Nat) (d : Doc) (w : List UInt8) (hd : d.Ok full) (hw : Ws w) (hb : d.Big) :
    ∃ p, loop Bool.false q pos init (d.text ++ w) = some p ∧
      p.toks = match d with
        | .str s => [⟨.string, pos + 1, some (pos + 1 + (ptext s).length), if q then 1 else 0⟩]
        | d => dtoks pos d := by
  cases d with
  | null => exact hb.elim
  | true => exact hb.elim
  | false => exact hb.elim
  | num n => exact hb.elim
  | str s =>
    simp only [Doc.Ok] at hd
    have h := scanStr_pieces full s w hd
    have := loop_str Bool.false q pos init (ptext s) w h
    simp only [Doc.text, List.append_assoc, List.cons_append, List.nil_append]
    rw [this]
    refine ⟨addString q init pos (ptext s).length, ?_, ?_⟩
    · apply loop_end _ _ _ _ _ hw
      cases q <;> simp [addString, init, bump, lastOpen]
    · cases q <;> simp [addString, init, bump]
  | arr0 w' =>
    simp only [Doc.Ok] at hd
    obtain ⟨p, h1, h2⟩ := loop_top Bool.false q Bool.true pos w' w hw 0 [] (by simp) (by
      intro p1 i1 t1
      refine ⟨p1, loop_ws Bool.false q w' _ hd _ _, ?_, i1⟩
      rw [bumpN_zero, List.append_nil])
    refine ⟨p, ?_, ?_⟩
    · simpa [Doc.text] using h1
    · rw [h2]; simp [dtoks]
  | obj0 w' =>
    simp only [Doc.Ok] at hd
    obtain ⟨p, h1, h2⟩ := loop_top Bool.false q Bool.false pos w' w hw 0 [] (by simp) (by
      intro p1 i1 t1
      refine ⟨p1, loop_ws Bool.false q w' _ hd _ _, ?_, i1⟩
      rw [bumpN_zero, List.append_nil])
    refine ⟨p, ?_, ?_⟩
    · simpa [Doc.text] using h1
    · rw [h2]; simp [dtoks]
  | arr e =>
    simp only [Doc.Ok] at hd
    obtain ⟨p, h1, h2⟩ := loop_top Bool.false q Bool.true pos e.text w hw e.count (etoks (pos + 1) e) (etoks_closed e _) (by
        intro p1 i1 t1
        exact loop_els q full e _ (pos + 1) p1 _ hd i1 ⟨93, w, rfl, by decide⟩)
    refine ⟨p, ?_, ?_⟩
    · simpa [Doc.text] using h1
    · rw [h2]; simp [dtoks]
  | obj m =>
    simp only [Doc.Ok] at hd
    obtain ⟨p, h1, h2⟩ := loop_top Bool.false q Bool.false pos m.text w hw m.count (mtoks (pos + 1) m) (mtoks_closed m _) (by
        intro p1 i1 t1
        refine loop_mems q full m _ (pos + 1) p1 _ hd i1 ?_ ⟨125, w, rfl, by decide⟩
        rw [t1]; rfl)
    refine ⟨p, ?_, ?_⟩
    · simpa [Doc.text] using h1
    · rw [h2]; simp [dtoks]

theorem els_count_pos (e : Els) : e.count ≠ 0 := by cases e <;> simp [Els.count]
theorem mems_count_pos (m : Mems) : m.count ≠ 0 := by cases m <;> simp [Mems.count]

/-- The tokens become the value. -/
theorem parseTokens_doc (cap : Nat) (d : Doc) (w : List UInt8) (hd : d.Ok false) (hw : Ws w)
    (hb : d.Big) (hc : d.width ≤ cap) : parseTokens Bool.false cap (d.text ++ w) = .ok d.val := by
  obtain ⟨p, h1, h2⟩ := loop_doc_top (decide ((d.text ++ w).head? = some 34)) false 0 d w hd hw hb
  unfold parseTokens
  rw [h1]
  simp only
  cases d with
  | null => exact hb.elim
  | true => exact hb.elim
  | false => exact hb.elim
  | num n => exact hb.elim
  | str s =>
    simp only [Doc.Ok] at hd
    simp only [Doc.text, List.append_assoc, List.cons_append, List.nil_append, List.head?_cons, decide_true, if_true] at h2
    have ht : p.toks[0]? = some ⟨.string, 1, some (1 + (ptext s).length), 1⟩ := by rw [h2]; rfl
    rw [ht]
    simp only [Nat.one_ne_zero, if_false]
    rw [gen1, ht]
    simp only
    rw [tokText_eq _ (ptext s) ([34] ++ w) .string 1 1 (by simp [Doc.text]), unquote_pieces s hd]
    rfl
  | arr0 w' =>
    simp only [dtoks] at h2
    rw [h2]
    rfl
  | obj0 w' =>
    simp only [dtoks] at h2
    rw [h2]
    rfl
  | arr e =>
    simp only [Doc.Ok] at hd
    simp only [Doc.width] at hc
    simp only [dtoks] at h2
    have ht : p.toks[0]? = some ⟨.array, 0, some (0 + 1 + e.text.length + 1), e.count⟩ := by rw [h2]; rfl
    rw [ht]
    simp only
    rw [if_neg (els_count_pos e), gen1, ht]
    simp only
    have h3 := gen_els ((Doc.arr e).text ++ w) p.toks cap e (3 * p.toks.length + 2) 1 1 0 ([93] ++ w) [] hd hc
      (by rw [h2]; simp; omega) ⟨93, w, rfl, by decide⟩ (by simp [Doc.text]) (by rw [h2]; simp)
    rw [Nat.zero_add] at h3
    rw [h3]
    rfl
  | obj m =>
    simp only [Doc.Ok] at hd
    simp only [Doc.width] at hc
    simp only [dtoks] at h2
    have ht : p.toks[0]? = some ⟨.object, 0, some (0 + 1 + m.text.length + 1), m.count⟩ := by rw [h2]; rfl
    rw [ht]
    simp only
    rw [if_neg (mems_count_pos m), gen1, ht]
    simp only
    have h3 := gen_mems ((Doc.obj m).text ++ w) p.toks cap m (3 * p.toks.length + 2) 1 1 0 .nil ([125] ++ w) [] hd hc
      (by rw [h2]; simp; omega) ⟨125, w, rfl, by decide⟩ (by simp [Doc.text]) (by rw [h2]; simp)
    rw [Nat.zero_add] at h3
    rw [h3]
    rfl
def Doc.head : Doc → UInt8
  | .null => 110
  | .true => 116
  | .false => 102
  | .num n => (dec n).headD 0
  | .str _ => 34
  | .arr0 _ => 91
  | .arr _ => 91
  | .obj0 _ => 123
  | .obj _ => 123

theorem Doc.text_head (d : Doc) : ∃ t, d.text = d.head :: t := by
  cases d with
  | num n =>
    obtain ⟨c, b, h, _⟩ := dec_shape n
    exact ⟨b, by simp [Doc.text, Doc.head, h]⟩
  | null => exact ⟨_, asc_null⟩
  | true => exact ⟨_, asc_true⟩
  | false => exact ⟨_, asc_false⟩
  | str s => exact ⟨ptext s ++ [34], by simp [Doc.text, Doc.head]⟩
  | arr0 w => exact ⟨w ++ [93], by simp [Doc.text, Doc.head]⟩
  | arr w => exact ⟨w.text ++ [93], by simp [Doc.text, Doc.head]⟩
  | obj0 w => exact ⟨w ++ [125], by simp [Doc.text, Doc.head]⟩
  | obj w => exact ⟨w.text ++ [125], by simp [Doc.text, Doc.head]⟩

theorem Doc.head_nospace (d : Doc) : Json.isspace d.head = Bool.false := by
  cases d with
  | num n =>
    obtain ⟨c, b, h, h2⟩ := dec_head n
    simp only [Doc.head, h, List.headD_cons]
    rcases h2 with h2 | rfl
    · simp only [isdig, Bool.and_eq_true, decide_eq_true_eq, UInt8.le_iff_toNat_le] at h2
      simp only [Json.isspace, Bool.or_eq_false_iff, Bool.and_eq_false_iff, decide_eq_false_iff_not, UInt8.le_iff_toNat_le,
        ← UInt8.toNat_inj]
      simp at h2 ⊢; omega
    · rfl
  | _ => rfl

/-- `JSON.parse` of a text with the value it stands for. -/
theorem parse_doc (cap : Nat) (d : Doc) (w0 w1 : List UInt8) (h0 : Ws w0) (h1 : Ws w1) (hd : d.Ok false)
    (hs : d = .null ∨ d = .true ∨ d = .false → w1 = []) (hc : d.width ≤ cap) :
    parse Bool.false cap (w0 ++ d.text ++ w1) = .ok d.val := by
  obtain ⟨t, ht⟩ := d.text_head
  have hj : (w0 ++ d.text ++ w1).dropWhile isspace = d.head :: (t ++ w1) := by
    rw [List.append_assoc]
    rw [dropWhile_ws h0]
    · rw [ht]; rfl
    · intro c u he
      rw [ht] at he
      simp only [List.cons_append, List.cons.injEq] at he
      rw [← he.1]; exact d.head_nospace
  have hk : d.head :: (t ++ w1) = d.text ++ w1 := by rw [ht]; rfl
  unfold parse
  rw [hj]
  simp only
  rw [hk]
  have big : d.Big → (d.head = 34 ∨ d.head = 91 ∨ d.head = 123) := by
    cases d <;> simp [Doc.Big, Doc.head]
  by_cases hb : d.Big
  · have hh := big hb
    have e1 : d.text ++ w1 ≠ asc "true" := by
      rw [← hk, asc_true]; intro e; injection e with e _; rw [e] at hh; revert hh; decide
    have e2 : d.text ++ w1 ≠ asc "false" := by
      rw [← hk, asc_false]; intro e; injection e with e _; rw [e] at hh; revert hh; decide
    have e3 : d.text ++ w1 ≠ asc "null" := by
      rw [← hk, asc_null]; intro e; injection e with e _; rw [e] at hh; revert hh; decide
    have e4 : ¬ (isdig d.head = true ∨ d.head = 45) := by
      rcases hh with e | e | e <;> rw [e] <;> decide
    rw [if_neg e1, if_neg e2, if_neg e3, if_neg e4]
    exact parseTokens_doc cap d w1 hd h1 hb hc
  · cases d with
    | null => rw [hs (by simp)]; simp only [Doc.text, List.append_nil, Doc.val]; rw [if_neg (by decide), if_neg (by decide), if_pos trivial]
    | true => rw [hs (by simp)]; simp only [Doc.text, List.append_nil, Doc.val]; rw [if_pos trivial]
    | false => rw [hs (by simp)]; simp only [Doc.text, List.append_nil, Doc.val]; rw [if_neg (by decide), if_pos trivial]
    | num n =>
      obtain ⟨c, b, h, h2⟩ := dec_head n
      have hd' : (Doc.num n).head = c := by simp [Doc.head, h]
      have ne : ∀ x : List UInt8, (∀ y, x.head? = some y → isdig y = false ∧ y ≠ 45) → (Doc.num n).text ++ w1 ≠ x := by
        rintro x hx rfl
        rw [← hk] at hx
        have := hx _ rfl
        rw [hd'] at this
        rcases h2 with h2 | h2
        · rw [this.1] at h2; exact absurd h2 (by decide)
        · exact this.2 h2
      rw [if_neg (ne _ (by decide)), if_neg (ne _ (by decide)), if_neg (ne _ (by decide)), hd', if_pos h2]
      simp only [getDouble, Doc.text]
      rw [strtod_dec n w1 h1.noNum]
      simp only
      rw [if_pos (List.all_eq_true.2 (fun x hx => h1.isspace x hx))]
      rfl
    | str _ => exact (hb trivial).elim
    | arr0 _ => exact (hb trivial).elim
    | arr _ => exact (hb trivial).elim
    | obj0 _ => exact (hb trivial).elim
    | obj _ => exact (hb trivial).elim

theorem strNArr_false (kw : List (List UInt8)) (md d : Nat) (v : JVal) (t : JArr) :
    strNArr kw md d false (.cons v t) = (strNArr kw md d true (.cons v t)).map (fun b => asc ", " ++ b) := by
  rw [strNArr, strNArr]
  cases strN kw md d v with
  | none => rfl
  | some a => cases strNArr kw md d false t <;> simp

theorem strNObj_false (kw : List (List UInt8)) (md d : Nat) (k : List UInt8) (v : JVal) (t : JObj) (hv : v ≠ .undef) :
    strNObj kw md d false (.cons k v t) = (strNObj kw md d true (.cons k v t)).map (fun b => asc ", " ++ b) := by
  rw [strNObj, strNObj, if_neg hv, if_neg hv]
  cases strN kw md d v with
  | none => rfl
  | some a => cases strNObj kw md d false t <;> simp

/-- A key as it is written. -/
theorem key_of (kw : List (List UInt8)) {k : List UInt8} (h : KeyGood k) :
    ∃ ps : Key, ps.Ok false ∧ ps.text = keyText kw k ∧ ps.val = k := by
  obtain ⟨ps, h1, h2, h3⟩ := key_pieces h
  refine ⟨⟨bareKey kw k, ps⟩, ⟨h1, ?_⟩, ?_, h3⟩
  · intro hb
    simp only at hb ⊢
    rw [h2]
    cases k with
    | nil => cases hb
    | cons c b =>
      unfold bareKey at hb
      simp only [Bool.and_eq_true, List.all_eq_true] at hb
      exact ⟨c, b, rfl, hb.1.1, hb.1.2⟩
  · unfold Key.text keyText
    simp only
    rw [h2]

mutual
theorem strN_doc (kw : List (List UInt8)) (cap md : Nat) : ∀ (v : JVal) (d : Nat), v.Good → v.Fits cap → DOk md d v.depth →
    ∃ D : Doc, strN kw md d v = some D.text ∧ D.Ok false ∧ D.val = v.boxed ∧ D.width ≤ cap
  | .undef, _, hg, _, _ => by simp only [JVal.Good] at hg
  | .null, d, _, _, hd => ⟨.null, by rw [strN, if_neg hd.not]; rfl, trivial, rfl, by simp [Doc.width]⟩
  | .bool b, d, _, _, hd => by
    cases b with
    | true => exact ⟨.true, by rw [strN, if_neg hd.not]; rfl, trivial, rfl, by simp [Doc.width]⟩
    | false => exact ⟨.false, by rw [strN, if_neg hd.not]; rfl, trivial, rfl, by simp [Doc.width]⟩
  | .num n, d, _, _, hd => ⟨.num n, by rw [strN, if_neg hd.not]; rfl, trivial, rfl, by simp [Doc.width]⟩
  | .str o s, d, hg, _, hd => by
    simp only [JVal.Good] at hg
    obtain ⟨cs, h1, h2, h3⟩ := hg
    obtain ⟨ps, p1, p2, p3⟩ := quoteBody_utf8 cs h2
    refine ⟨.str ps, ?_, p1, ?_, by simp [Doc.width]⟩
    · rw [strN, if_neg hd.not]
      simp only [strBytes_good h1 h3]
      rw [quote, h1, p3]; simp [Doc.text]
    · simp only [Doc.val, JVal.boxed, p2, h1]
  | .arr .nil, d, _, _, hd => ⟨.arr0 [], by rw [strN, if_neg hd.not]; rfl, ws_nil, rfl, by simp [Doc.width]⟩
  | .obj .nil, d, _, _, hd => ⟨.obj0 [], by rw [strN, if_neg hd.not]; rfl, ws_nil, rfl, by simp [Doc.width]⟩
  | .arr (.cons v t), d, hg, hf, hd => by
    simp only [JVal.Good] at hg
    simp only [JVal.Fits] at hf
    have hn := hd.not
    simp only [JVal.depth] at hd
    obtain ⟨E, b, e1, e2, e3, e4, e5⟩ := strNArr_doc kw cap md (.cons v t) (d + 1) 0 (by simp) hg hf.2 (by simpa using hf.1) (by unfold DOk at *; omega)
    refine ⟨.arr E, ?_, e3, ?_, e5⟩
    · rw [strN, if_neg hn]
      rw [e1]
      simp only [Option.map_some, Doc.text, e2]
      rw [show asc "[ " = [91, 32] by decide, show asc " ]" = [32, 93] by decide]
      simp
    · simp only [Doc.val, JVal.boxed, e4]
  | .obj (.cons k v t), d, hg, hf, hd => by
    simp only [JVal.Good] at hg
    simp only [JVal.Fits] at hf
    have hn := hd.not
    simp only [JVal.depth] at hd
    obtain ⟨M, b, e1, e2, e3, e4, e5⟩ := strNObj_doc kw cap md (.cons k v t) (d + 1) (by simp) hg hf (by unfold DOk at *; omega)
    refine ⟨.obj M, ?_, e3, ?_, e5⟩
    · rw [strN, if_neg hn]
      rw [e1]
      simp only [Option.map_some, Doc.text, e2]
      rw [show asc "{ " = [123, 32] by decide, show asc " }" = [32, 125] by decide]
      simp
    · simp only [Doc.val, JVal.boxed]
      rw [e4 .nil (by simp [JObj.keys])]; rfl
theorem strNArr_doc (kw : List (List UInt8)) (cap md : Nat) : ∀ (l : JArr) (d n : Nat), l ≠ .nil → l.Good → l.Fits cap →
    n + l.length ≤ cap → DOk md d l.depth →
    ∃ (E : Els) (b : List UInt8), strNArr kw md d true l = some b ∧ E.text = [32] ++ b ++ [32] ∧ E.Ok false ∧
      E.val = l.boxed ∧ E.width n ≤ cap
  | .nil, _, _, hn, _, _, _, _ => absurd rfl hn
  | .cons v .nil, d, n, _, hg, hf, hl, hd => by
    simp only [JArr.Good] at hg
    simp only [JArr.Fits] at hf
    simp only [JArr.length] at hl
    simp only [JArr.depth] at hd
    obtain ⟨D, d1, d2, d3, d4⟩ := strN_doc kw cap md v d hg.1 hf.1 (by unfold DOk at *; omega)
    refine ⟨.one [32] D [32], D.text, ?_, by simp [Els.text], ⟨ws_sp, d2, ws_sp⟩, ?_, ?_⟩
    · rw [strNArr, d1]; simp [strNArr]
    · simp only [Els.val, JArr.boxed, d3]
    · simp only [Els.width]; omega
  | .cons v (.cons v' t), d, n, _, hg, hf, hl, hd => by
    rw [JArr.Good] at hg
    rw [JArr.Fits] at hf
    rw [JArr.length] at hl
    rw [JArr.depth] at hd
    obtain ⟨D, d1, d2, d3, d4⟩ := strN_doc kw cap md v d hg.1 hf.1 (by unfold DOk at *; omega)
    obtain ⟨E, b, e1, e2, e3, e4, e5⟩ := strNArr_doc kw cap md (.cons v' t) d (n + 1) (by simp) hg.2 hf.2 (by omega) (by unfold DOk at *; omega)
    refine ⟨.cons [32] D [] E, D.text ++ asc ", " ++ b, ?_, ?_, ⟨ws_sp, d2, ws_nil, e3⟩, ?_, ?_⟩
    · rw [strNArr, d1]
      simp only [Option.bind_some]
      rw [strNArr_false, e1]; simp
    · simp [Els.text, e2, asc_sep]
    · simp only [Els.val, d3, e4]; simp only [JArr.boxed]
    · simp only [Els.width]; omega
theorem strNObj_doc (kw : List (List UInt8)) (cap md : Nat) : ∀ (l : JObj) (d : Nat), l ≠ .nil → l.Good →
    l.Fits cap → DOk md d l.depth →
    ∃ (M : Mems) (b : List UInt8), strNObj kw md d true l = some b ∧ M.text = [32] ++ b ++ [32] ∧ M.Ok false ∧
      (∀ o : JObj, (∀ x ∈ l.keys, x ∉ o.keys) → M.val o = o.append l.boxed) ∧ M.width ≤ cap
  | .nil, _, hn, _, _, _ => absurd rfl hn
  | .cons k v .nil, d, _, hg, hf, hd => by
    simp only [JObj.Good] at hg
    simp only [JObj.Fits] at hf
    simp only [JObj.depth] at hd
    have hv : v ≠ .undef := by rintro rfl; have := hg.2.1; simp only [JVal.Good] at this
    obtain ⟨D, d1, d2, d3, d4⟩ := strN_doc kw cap md v d hg.2.1 hf.1 (by unfold DOk at *; omega)
    obtain ⟨ps, k1, k2, k3⟩ := key_of kw hg.1
    refine ⟨.one [32] ps [] [] D [32], keyText kw k ++ [58] ++ D.text, ?_, ?_, ⟨ws_sp, k1, ws_nil, ws_nil, d2, ws_sp⟩, ?_, ?_⟩
    · rw [strNObj, if_neg hv, d1]; simp [strNObj]
    · simp [Mems.text, memHead, k2]
    · intro o ho
      simp only [Mems.val, d3, k3]
      rw [JObj.insert_new k _ o (ho k (by simp [JObj.keys]))]
      simp only [JObj.boxed]
    · simp only [Mems.width]; omega
  | .cons k v (.cons k' v' t), d, _, hg, hf, hd => by
    rw [JObj.Good] at hg
    rw [JObj.Fits] at hf
    rw [JObj.depth] at hd
    have hv : v ≠ .undef := by rintro rfl; have := hg.2.1; simp only [JVal.Good] at this
    have hg' := hg.2.2.2
    have hv' : v' ≠ .undef := by
      rintro rfl; simp only [JObj.Good, JVal.Good] at hg'; exact hg'.2.1
    obtain ⟨D, d1, d2, d3, d4⟩ := strN_doc kw cap md v d hg.2.1 hf.1 (by unfold DOk at *; omega)
    obtain ⟨M, b, e1, e2, e3, e4, e5⟩ := strNObj_doc kw cap md (.cons k' v' t) d (by simp) hg.2.2.2 hf.2 (by unfold DOk at *; omega)
    obtain ⟨ps, k1, k2, k3⟩ := key_of kw hg.1
    refine ⟨.cons [32] ps [] [] D [] M, keyText kw k ++ [58] ++ D.text ++ asc ", " ++ b, ?_, ?_,
      ⟨ws_sp, k1, ws_nil, ws_nil, d2, ws_nil, e3⟩, ?_, ?_⟩
    · rw [strNObj, if_neg hv, d1]
      simp only [Option.bind_some]
      rw [strNObj_false _ _ _ _ _ _ hv', e1]; simp
    · simp [Mems.text, memHead, k2, e2, asc_sep]
    · intro o ho
      have hk := ho k (by simp [JObj.keys])
      simp only [Mems.val, d3, k3]
      rw [JObj.insert_new k _ o hk, e4]
      · rw [JObj.append_assoc]
        simp only [JObj.boxed, JObj.append]
      · intro x hx
        rw [JObj.keys_append]
        simp only [JObj.keys, List.mem_append, List.mem_cons, List.not_mem_nil, or_false, not_or]
        refine ⟨ho x (by rw [JObj.keys]; exact List.mem_cons_of_mem _ hx), ?_⟩
        rintro rfl
        exact hg.2.2.1 hx
    · simp only [Mems.width]; omega
end

/-! ## Theorem -/

/-- **C199 (part).** Arrays and objects, nested, are copied (with strings as string objects), if they contain no undefined, only
strings of Unicode's basic plane and keys that need no escape, are not nested deeper than `maxDepth` and have no array longer than the
limit. -/
theorem C199_copy_partial (kw : List (List UInt8)) (md cap : Nat) (k : Bool) (v : JVal) (hv : (∃ l, v = .arr l) ∨ ∃ l, v = .obj l)
    (hg : v.Good) (hf : v.Fits cap) (hd : md = 0 ∨ v.depth ≤ md) : clean kw md cap k v = some v.boxed := by
  obtain ⟨D, h1, h2, h3, h4⟩ := strN_doc kw cap md v 0 hg hf (by unfold DOk; omega)
  have h5 := parse_doc cap D [] [] ws_nil ws_nil h2 (fun _ => rfl) h4
  rw [h3] at h5
  simp only [List.nil_append, List.append_nil] at h5
  have e : clean kw md cap k v = cleanText kw md cap v := by rcases hv with ⟨l, rfl⟩ | ⟨l, rfl⟩ <;> rfl
  rw [e, cleanText, h1]
  dsimp only
  rw [h5]

/-- A case: `[1, "é", {ab: [true]}]`. -/
example : clean [asc "in"] 0 3 false sampleArr = some sampleArr.boxed :=
  C199_copy_partial _ _ _ _ _ (Or.inl ⟨_, rfl⟩)
    (by simp only [sampleArr, JVal.Good, JObj.Good, JArr.Good, JObj.keys]
        exact ⟨trivial, ⟨['é'], by decide +kernel, by decide +kernel, by decide +kernel⟩,
          ⟨⟨['a', 'b'], by decide +kernel, by decide +kernel⟩, ⟨trivial, trivial⟩, by simp, trivial⟩, trivial⟩)
    (by simp [sampleArr, JVal.Fits, JObj.Fits, JArr.Fits, JArr.length]) (Or.inl rfl)

end Verif.Json.Bare
