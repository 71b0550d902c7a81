import Verif.Json.Tokens

/-! From the tokens of a JSON text to its value. -/

namespace Verif.Json

/-! ### Strings -/

theorem u8_of_lt {c : UInt8} {n : Nat} (h : c.toNat = n) : c = UInt8.ofNat n := by rw [← h]; simp

theorem fromHex_val {c : UInt8} (h : IsHex c) : (Hex.fromHexChar c).toNat = hexVal c ∧ hexVal c < 16 := by
  have key : ∀ n : Fin 256, Hex.isxdigit (UInt8.ofNat n.1) = true →
      (Hex.fromHexChar (UInt8.ofNat n.1)).toNat = hexVal (UInt8.ofNat n.1) ∧ hexVal (UInt8.ofNat n.1) < 16 := by
    decide +kernel
  have := key ⟨c.toNat, UInt8.toNat_lt c⟩
  simp only [UInt8.ofNat_toNat] at this
  exact this ((isHex_iff c).2 h)

theorem unquote_other {c : UInt8} (t : List UInt8) (h : c ≠ 92) : unquote (c :: t) = c :: unquote t := by
  rw [unquote.eq_def]; simp [h]

theorem unquote_plain (b r : List UInt8) (h : ∀ c ∈ b, c ≠ 92) : unquote (b ++ r) = b ++ unquote r := by
  induction b with
  | nil => rfl
  | cons c b ih => rw [List.cons_append, unquote_other _ (h c (by simp)), ih (fun x hx => h x (by simp [hx]))]; rfl

theorem unquote_esc (e : UInt8) (t : List UInt8) (h : e ≠ 117) : unquote (92 :: e :: t) = unEsc e ++ unquote t := by
  rw [unquote.eq_def]; simp [h]

theorem unquote_u (a b c d : UInt8) (t : List UInt8) (ha : IsHex a) (hb : IsHex b) (hc : IsHex c) (hd : IsHex d) :
    unquote (92 :: 117 :: a :: b :: c :: d :: t) = utfDecode a b c d ++ unquote t := by
  rw [unquote.eq_def]
  simp [(isHex_iff _).2 ha, (isHex_iff _).2 hb, (isHex_iff _).2 hc, (isHex_iff _).2 hd]

/-- `Jsi_UtfDecode` writes the UTF-8 encoding of the code point. -/
theorem utfDecode_eq (a b c d : UInt8) (ha : IsHex a) (hb : IsHex b) (hc : IsHex c) (hd : IsHex d)
    (hv : hexVal4 a b c d < 0xD800 ∨ 0xE000 ≤ hexVal4 a b c d) :
    utfDecode a b c d = String.utf8EncodeChar (Char.ofNat (hexVal4 a b c d)) := by
  have h1 := fromHex_val ha
  have h2 := fromHex_val hb
  have h3 := fromHex_val hc
  have h4 := fromHex_val hd
  have hlt : hexVal4 a b c d < 0x10000 := by unfold hexVal4; omega
  have hch : (Char.ofNat (hexVal4 a b c d)).toNat = hexVal4 a b c d := by
    have hvalid : Nat.isValidChar (hexVal4 a b c d) := by
      rcases hv with h | h
      · exact Or.inl h
      · exact Or.inr ⟨by omega, by omega⟩
    rw [Char.ofNat, dif_pos hvalid]; rfl
  unfold utfDecode
  simp only [h1.1, h2.1, h3.1, h4.1]
  have hfold : hexVal a * 4096 + hexVal b * 256 + hexVal c * 16 + hexVal d = hexVal4 a b c d := rfl
  rw [hfold]
  have e : (Char.ofNat (hexVal4 a b c d)).val.toNat = hexVal4 a b c d := hch
  unfold String.utf8EncodeChar
  simp only [e]
  generalize hexVal4 a b c d = v at *
  have o1 : ∀ x, x < 64 → (0xc0 ||| x) = x + 0xc0 := fun x hx => by
    have := Utf8.or_add_lo 3 x 6 hx; simp only [Nat.reducePow, Nat.reduceMul] at this; omega
  have o2 : ∀ x, x < 64 → (0x80 ||| x) = x + 0x80 := fun x hx => by
    have := Utf8.or_add_lo 2 x 6 hx; simp only [Nat.reducePow, Nat.reduceMul] at this; omega
  have o3 : ∀ x, x < 16 → (0xe0 ||| x) = x + 0xe0 := fun x hx => by
    have := Utf8.or_add_lo 14 x 4 hx; simp only [Nat.reducePow, Nat.reduceMul] at this; omega
  have f0 := Utf8.and_mask v 6
  have f1 := Utf8.and_mask (v / 64) 6
  simp only [Nat.reducePow, Nat.reduceSub] at f0 f1
  have s6 : v >>> 6 = v / 64 := by rw [Nat.shiftRight_eq_div_pow]
  have s12 : v >>> 12 = v / 4096 := by rw [Nat.shiftRight_eq_div_pow]
  rw [s6, s12, f0, f1]
  by_cases c1 : v < 0x80
  · rw [if_pos c1, if_pos (by omega)]
  rw [if_neg c1, if_neg (show ¬ v ≤ 0x7f by omega)]
  by_cases c2 : v < 0x800
  · rw [if_pos c2, if_pos (by omega), o1 _ (by omega), o2 _ (by omega), Nat.mod_eq_of_lt (show v / 64 < 0x20 by omega)]
  rw [if_neg c2, if_neg (show ¬ v ≤ 0x7ff by omega), if_pos (by omega), o3 _ (by omega), o2 _ (by omega), o2 _ (by omega),
    Nat.mod_eq_of_lt (show v / 4096 < 0x10 by omega)]

theorem unquote_piece (p : Piece) (r : List UInt8) (h : p.Ok false) : unquote (p.text ++ r) = p.val ++ unquote r := by
  cases p with
  | raw c => exact unquote_plain _ _ (fun x hx => (raw_bytes c h x hx).2)
  | esc e =>
    obtain ⟨h1, h2⟩ := h
    have h2 := h2 rfl
    have he : e = 34 ∨ e = 92 ∨ e = 98 ∨ e = 102 ∨ e = 110 ∨ e = 114 ∨ e = 116 := by
      unfold escVal at h1
      by_contra hn
      simp only [not_or] at hn
      simp [hn, h2] at h1
    simp only [Piece.text, Piece.val, List.cons_append, List.nil_append]
    rcases he with rfl | rfl | rfl | rfl | rfl | rfl | rfl <;>
      (rw [unquote_esc _ _ (by decide)]; simp [unEsc, escVal])
  | uni a b c d =>
    obtain ⟨ha, hb, hc, hd, hv⟩ := h
    simp only [Piece.text, Piece.val, List.cons_append, List.nil_append]
    rw [unquote_u a b c d r ha hb hc hd, utfDecode_eq a b c d ha hb hc hd hv]
  | pair => exact absurd h.1 (by simp)

theorem unquote_pieces (s : List Piece) (h : ∀ p ∈ s, p.Ok false) : unquote (ptext s) = pval s := by
  induction s with
  | nil => simp [ptext, pval, unquote]
  | cons p s ih =>
    have e : ptext (p :: s) = p.text ++ ptext s := by simp [ptext]
    have e' : pval (p :: s) = p.val ++ pval s := by simp [pval]
    rw [e, e', unquote_piece p _ (h p (by simp)), ih (fun x hx => h x (by simp [hx]))]

theorem key_text (k : List Piece) (h : KeyOk false k) : ptext k = pval k := by
  have := h.2 rfl
  unfold ptext pval
  have aux : ∀ l : List Piece, (∀ p ∈ l, ∃ c, p = .raw c) → l.flatMap Piece.text = l.flatMap Piece.val := by
    intro l
    induction l with
    | nil => intro _; rfl
    | cons p l ih =>
      intro hl
      obtain ⟨c, rfl⟩ := hl p (by simp)
      simp only [List.flatMap_cons]
      rw [ih (fun x hx => hl x (by simp [hx]))]
      rfl
  exact aux k this

/-! ### Numbers -/

theorem digVal_append (p : List UInt8) (c : UInt8) : digVal (p ++ [c]) = 10 * digVal p + (c.toNat - 48) := by
  simp [digVal]

theorem digVal_decNat (n : Nat) : digVal (decNat n) = n := by
  induction n using Nat.strongRecOn with
  | ind n ih =>
    have hd : ∀ k, k < 10 → (UInt8.ofNat (48 + k)).toNat = 48 + k := by decide +kernel
    rw [decNat]
    split
    · rename_i h; simp only [digVal, List.foldl_cons, List.foldl_nil]; rw [hd n h]; omega
    · rename_i h
      rw [digVal_append, ih (n / 10) (by omega), hd _ (by omega)]
      omega

/-- What may follow an integer without being read by `strtod`. -/
def NoNum (rest : List UInt8) : Prop := ∀ c t, rest = c :: t → isdig c = false ∧ numMore c = false

theorem takeWhile_digits (p r : List UInt8) (hp : ∀ c ∈ p, isdig c = true) (hr : NoNum r) :
    (p ++ r).takeWhile isdig = p ∧ (p ++ r).dropWhile isdig = r := by
  induction p with
  | nil =>
    cases r with
    | nil => simp
    | cons c t => have := (hr c t rfl).1; simp [this]
  | cons c p ih =>
    have := ih (fun x hx => hp x (by simp [hx]))
    simp [hp c (by simp), this]

theorem strtod_dec (n : Int) (r : List UInt8) (hr : NoNum r) : strtod (dec n ++ r) = some (n, r) := by
  have hm : ((r.head?.map numMore).getD false) = false := by
    cases r with
    | nil => rfl
    | cons c t => simp [(hr c t rfl).2]
  have hd := decNat_digits n.natAbs
  obtain ⟨h1, h2⟩ := takeWhile_digits _ r hd hr
  unfold strtod
  by_cases hn : n < 0
  · simp only [dec, hn, if_true, List.cons_append, List.head?_cons, List.tail_cons, h1, h2, hm, decNat_ne, digVal_decNat]
    simp; omega
  · have hh : ¬ ((decNat n.natAbs ++ r).head? = some 45) := by
      cases e : decNat n.natAbs with
      | nil => exact absurd e (decNat_ne _)
      | cons c b =>
        have := hd c (by rw [e]; simp)
        simp only [List.cons_append, List.head?_cons, Option.some.injEq]
        rintro rfl; exact absurd this (by decide)
    simp only [dec, hn, if_false, hh, h1, h2, hm, decNat_ne, digVal_decNat]
    simp; omega

theorem Ends.noNum {r : List UInt8} (h : Ends r) : NoNum r := by
  obtain ⟨c, t, rfl, hc⟩ := h
  rintro c' t' e
  simp only [List.cons.injEq] at e
  obtain ⟨rfl, rfl⟩ := e
  unfold primEnd at hc
  simp at hc
  rcases hc with ((((((rfl | rfl) | rfl) | rfl) | rfl) | rfl) | rfl) <;> decide

theorem Ws.noNum {w : List UInt8} (h : Ws w) : NoNum w := by
  intro c t e
  subst e
  rcases h c (by simp) with rfl | rfl | rfl | rfl <;> decide

theorem dec_ne (n : Int) (s : List UInt8) (h : ∀ c, s.head? = some c → isdig c = false ∧ c ≠ 45) (r : List UInt8) :
    dec n ++ r ≠ s := by
  intro e
  unfold dec at e
  split at e
  · exact (h 45 (by rw [← e]; rfl)).2 rfl
  · cases e' : decNat n.natAbs with
    | nil => exact absurd e' (decNat_ne _)
    | cons c b =>
      have h1 := h c (by rw [← e, e']; rfl)
      have h2 := decNat_digits n.natAbs c (by rw [e']; simp)
      rw [h1.1] at h2
      exact absurd h2 (by simp)

theorem primVal_dec (js post : List UInt8) (pos : Nat) (n : Int) (he : Ends post) (hj : js.drop pos = dec n ++ post) (sz : Nat) :
    primVal js ⟨.prim, pos, some (pos + (dec n).length), sz⟩ = .ok (.num n) := by
  have ht : tokText js ⟨.prim, pos, some (pos + (dec n).length), sz⟩ = dec n := by
    simp only [tokText, Option.getD_some, hj]
    rw [show pos + (dec n).length - pos = (dec n).length by omega, List.take_left']
    rfl
  have w : ∀ s : List UInt8, (∀ c, s.head? = some c → isdig c = false ∧ c ≠ 45) → dec n ≠ s := by
    intro s hs
    have := dec_ne n s hs []
    simpa using this
  unfold primVal
  rw [ht, if_neg (w _ (by decide +kernel)), if_neg (w _ (by decide +kernel)), if_neg (w _ (by decide +kernel)),
    if_neg (w _ (by decide +kernel))]
  simp only [hj, strtod_dec n post he.noNum]

theorem tokText_eq (js t post : List UInt8) (typ : Typ) (pos sz : Nat) (hj : js.drop pos = t ++ post) :
    tokText js ⟨typ, pos, some (pos + t.length), sz⟩ = t := by
  simp only [tokText, Option.getD_some, hj]
  rw [show pos + t.length - pos = t.length by omega, List.take_left']
  rfl

/-! ### Values -/

theorem els_width : ∀ (t : Els) (n : Nat), n < t.width n
  | .one _ _ _, n => by simp only [Els.width]; omega
  | .cons _ _ _ t, n => by have := els_width t (n + 1); simp only [Els.width]; omega

mutual
theorem dtoks_pos : ∀ (d : Doc) (pos : Nat), 0 < (dtoks pos d).length
  | .null, _ | .true, _ | .false, _ | .num _, _ | .str _, _ | .arr0 _, _ | .obj0 _, _ => by simp [dtoks]
  | .arr e, pos => by simp [dtoks]
  | .obj m, pos => by simp [dtoks]
end

theorem drop_step {js a b : List UInt8} {pos : Nat} (h : js.drop pos = a ++ b) : js.drop (pos + a.length) = b := by
  rw [← List.drop_drop, h, List.drop_left']
  rfl

theorem get_of_drop {toks : List Tok} {t : Tok} {B : List Tok} {i : Nat} (h : toks.drop i = t :: B) : toks[i]? = some t := by
  have : (toks.drop i)[0]? = some t := by rw [h]; rfl
  simpa using this

theorem tail_of_drop {toks : List Tok} {t : Tok} {B : List Tok} {i : Nat} (h : toks.drop i = t :: B) : toks.drop (i + 1) = B := by
  rw [← List.drop_drop, h]; rfl

theorem toks_step {toks a b : List Tok} {i : Nat} (h : toks.drop i = a ++ b) : toks.drop (i + a.length) = b := by
  rw [← List.drop_drop, h, List.drop_left']
  rfl

mutual
theorem gen_doc (js : List UInt8) (toks : List Tok) (cap : Nat) : ∀ (d : Doc) (fuel i pos : Nat) (post : List UInt8) (B : List Tok),
    d.Ok false → d.width ≤ cap → 2 * (dtoks pos d).length ≤ fuel → Ends post → js.drop pos = d.text ++ post →
    toks.drop i = dtoks pos d ++ B →
    gen1 js toks cap fuel i = .ok (d.val, i + (dtoks pos d).length - 1)
  | .null, fuel + 1, i, pos, post, B, _, _, _, he, hj, ht => by
    have := tokText_eq js (asc "null") post .prim pos 0 hj
    rw [gen1, get_of_drop ht]
    have h4 : (asc "null").length = 4 := by decide
    rw [h4] at this
    simp [primVal, this, Doc.val, Except.map, dtoks]
  | .true, fuel + 1, i, pos, post, B, _, _, _, he, hj, ht => by
    have := tokText_eq js (asc "true") post .prim pos 0 hj
    rw [gen1, get_of_drop ht]
    have h4 : (asc "true").length = 4 := by decide
    rw [h4] at this
    have n1 : asc "true" ≠ asc "null" := by decide
    simp [primVal, this, n1, Doc.val, Except.map, dtoks]
  | .false, fuel + 1, i, pos, post, B, _, _, _, he, hj, ht => by
    have := tokText_eq js (asc "false") post .prim pos 0 hj
    rw [gen1, get_of_drop ht]
    have h4 : (asc "false").length = 5 := by decide
    rw [h4] at this
    have n1 : asc "false" ≠ asc "null" := by decide
    have n2 : asc "false" ≠ asc "true" := by decide
    simp [primVal, this, n1, n2, Doc.val, Except.map, dtoks]
  | .num n, fuel + 1, i, pos, post, B, _, _, _, he, hj, ht => by
    rw [gen1, get_of_drop ht]
    simp only
    rw [primVal_dec js post pos n he hj 0]
    simp [Except.map, Doc.val, dtoks]
  | .str s, fuel + 1, i, pos, post, B, hd, _, _, he, hj, ht => by
    simp only [Doc.Ok] at hd
    have hj' : js.drop (pos + 1) = ptext s ++ ([34] ++ post) := by
      have := drop_step (js := js) (a := [34]) (b := ptext s ++ ([34] ++ post)) (pos := pos) (by rw [hj]; simp [Doc.text])
      exact this
    rw [gen1, get_of_drop ht]
    simp only
    rw [tokText_eq js (ptext s) _ .string (pos + 1) 0 hj', unquote_pieces s hd]
    simp [Doc.val, dtoks]
  | .arr0 w, fuel + 1, i, pos, post, B, _, _, hf, he, hj, ht => by
    rw [gen1, get_of_drop ht]
    simp only [dtoks, List.length_cons, List.length_nil] at hf
    obtain ⟨f, rfl⟩ : ∃ f, fuel = f + 1 := ⟨fuel - 1, by omega⟩
    simp only
    rw [genArr]
    simp [Except.map, Doc.val, dtoks]
  | .obj0 w, fuel + 1, i, pos, post, B, _, _, hf, he, hj, ht => by
    rw [gen1, get_of_drop ht]
    simp only [dtoks, List.length_cons, List.length_nil] at hf
    obtain ⟨f, rfl⟩ : ∃ f, fuel = f + 1 := ⟨fuel - 1, by omega⟩
    simp only
    have : genObj js toks cap (f + 1) 0 (i + 1) 0 .nil = .ok (.nil, i + 1) := by
      rw [genObj]; split <;> simp
    rw [this]
    simp [Except.map, Doc.val, dtoks]
  | .arr e, fuel + 1, i, pos, post, B, hd, hw, hf, he, hj, ht => by
    simp only [Doc.Ok] at hd
    simp only [Doc.width] at hw
    simp only [dtoks, List.length_cons] at hf
    rw [gen1, get_of_drop ht]
    simp only
    have h1 := gen_els js toks cap e fuel (i + 1) (pos + 1) 0 ([93] ++ post) B hd hw (by omega) ⟨93, post, rfl, by decide⟩
      (drop_step (a := [91]) (by rw [hj]; simp [Doc.text])) (tail_of_drop ht)
    rw [Nat.zero_add] at h1
    rw [h1]
    simp only [Except.map, Doc.val, dtoks, List.length_cons, Except.ok.injEq, Prod.mk.injEq, true_and]
    omega
  | .obj m, fuel + 1, i, pos, post, B, hd, hw, hf, he, hj, ht => by
    simp only [Doc.Ok] at hd
    simp only [Doc.width] at hw
    simp only [dtoks, List.length_cons] at hf
    rw [gen1, get_of_drop ht]
    simp only
    have h1 := gen_mems js toks cap m fuel (i + 1) (pos + 1) 0 .nil ([125] ++ post) B hd hw (by omega) ⟨125, post, rfl, by decide⟩
      (drop_step (a := [123]) (by rw [hj]; simp [Doc.text])) (tail_of_drop ht)
    rw [Nat.zero_add] at h1
    rw [h1]
    simp only [Except.map, Doc.val, dtoks, List.length_cons, Except.ok.injEq, Prod.mk.injEq, true_and]
    omega
  | d, 0, i, pos, post, B, _, _, hf, _, _, _ => by
    have := dtoks_pos d pos
    omega
theorem gen_els (js : List UInt8) (toks : List Tok) (cap : Nat) : ∀ (e : Els) (fuel i pos n : Nat) (post : List UInt8) (B : List Tok),
    e.Ok false → e.width n ≤ cap → 2 * (etoks pos e).length + 1 ≤ fuel → Ends post → js.drop pos = e.text ++ post →
    toks.drop i = etoks pos e ++ B →
    genArr js toks cap fuel (n + e.count) i n = .ok (e.val, i + (etoks pos e).length)
  | .one w1 d w2, fuel + 1, i, pos, n, post, B, hd, hw, hf, he, hj, ht => by
    simp only [Els.Ok] at hd
    simp only [Els.width] at hw
    simp only [etoks, Els.text, List.append_assoc] at hf hj ht ⊢
    have hp := dtoks_pos d (pos + w1.length)
    have hi : i < toks.length := by
      by_contra hn
      rw [List.drop_eq_nil_of_le (by omega)] at ht
      have := congrArg List.length ht
      simp at this; omega
    have hg := gen_doc js toks cap d fuel i (pos + w1.length) (w2 ++ post) B hd.2.1 (by omega) (by omega) (he.ws hd.2.2)
      (drop_step hj) ht
    rw [genArr, if_pos ⟨hi, by simp [Els.count]⟩, if_neg (by omega), hg]
    obtain ⟨f, rfl⟩ : ∃ f, fuel = f + 1 := ⟨fuel - 1, by omega⟩
    simp only
    rw [genArr, if_neg (by simp [Els.count])]
    simp only [Except.map, Els.val, Except.ok.injEq, Prod.mk.injEq, true_and]
    omega
  | .cons w1 d w2 t, fuel + 1, i, pos, n, post, B, hd, hw, hf, he, hj, ht => by
    simp only [Els.Ok] at hd
    simp only [Els.width] at hw
    simp only [etoks, Els.text, List.append_assoc, List.length_append] at hf hj ht ⊢
    have hp := dtoks_pos d (pos + w1.length)
    have hi : i < toks.length := by
      by_contra hn
      rw [List.drop_eq_nil_of_le (by omega)] at ht
      have := congrArg List.length ht
      simp at this; omega
    have hj1 := drop_step hj
    have hj2 := drop_step hj1
    have hj3 := drop_step hj2
    have hj4 := drop_step hj3
    have hwn : n < cap := by
      have := els_width t (n + 1)
      omega
    have hg := gen_doc js toks cap d fuel i (pos + w1.length) (w2 ++ ([44] ++ (t.text ++ post))) _ hd.2.1 (by omega) (by omega)
      (Ends.ws hd.2.2.1 ⟨44, _, rfl, by decide⟩) hj1 ht
    have ht' := gen_els js toks cap t fuel (i + (dtoks (pos + w1.length) d).length)
      (pos + w1.length + d.text.length + w2.length + 1) (n + 1) post B hd.2.2.2 (by omega) (by omega) he hj4 (toks_step ht)
    rw [genArr, if_pos ⟨hi, by simp [Els.count]⟩, if_neg (by omega), hg]
    simp only
    rw [show i + (dtoks (pos + w1.length) d).length - 1 + 1 = i + (dtoks (pos + w1.length) d).length by omega,
      show n + (Els.cons w1 d w2 t).count = n + 1 + t.count by simp [Els.count]; omega, ht']
    simp only [Except.map, Els.val, Except.ok.injEq, Prod.mk.injEq, true_and]
    omega
  | e, 0, i, pos, n, post, B, _, _, hf, _, _, _ => by omega
theorem gen_mems (js : List UInt8) (toks : List Tok) (cap : Nat) : ∀ (m : Mems) (fuel i pos n : Nat) (o : JObj) (post : List UInt8)
    (B : List Tok),
    m.Ok false → m.width ≤ cap → 2 * (mtoks pos m).length + 1 ≤ fuel → Ends post → js.drop pos = m.text ++ post →
    toks.drop i = mtoks pos m ++ B →
    genObj js toks cap fuel (n + m.count) i n o = .ok (m.val o, i + (mtoks pos m).length)
  | .one w1 k w2 w3 d w4, fuel + 1, i, pos, n, o, post, B, hd, hw, hf, he, hj, ht => by
    simp only [Mems.Ok] at hd
    obtain ⟨h1, h2, h3, h4, h5, h6⟩ := hd
    simp only [Mems.width] at hw
    simp only [mtoks, Mems.text, List.append_assoc, List.length_cons, List.cons_append] at hf hj ht ⊢
    have hp := dtoks_pos d (pos + (memHead w1 k w2 w3).length)
    have hk : js.drop (pos + w1.length + 1) = ptext k ++ ([34] ++ (w2 ++ ([58] ++ (w3 ++ (d.text ++ (w4 ++ post)))))) := by
      have a1 := drop_step (js := js) (pos := pos) (a := w1 ++ [34])
        (b := ptext k ++ ([34] ++ (w2 ++ ([58] ++ (w3 ++ (d.text ++ (w4 ++ post))))))) (by rw [hj]; simp [memHead])
      rw [← a1]; congr 1; simp; omega
    have hg := gen_doc js toks cap d fuel (i + 1) (pos + (memHead w1 k w2 w3).length) (w4 ++ post) B h5 (by omega) (by omega)
      (he.ws h6) (drop_step hj) (tail_of_drop ht)
    rw [genObj, get_of_drop ht]
    simp only
    rw [if_pos (by simp [Mems.count]), if_neg (by simp [Mems.count]; try omega), hg]
    simp only
    rw [tokText_eq js (ptext k) _ .string _ 0 hk, key_text k h2]
    obtain ⟨f, rfl⟩ : ∃ f, fuel = f + 1 := ⟨fuel - 1, by omega⟩
    have hend : ∀ j o', genObj js toks cap (f + 1) (n + (Mems.one w1 k w2 w3 d w4).count) j (n + 2) o' = .ok (o', j) := by
      intro j o'
      rw [genObj]
      cases toks[j]? with
      | none => rfl
      | some t => simp [Mems.count]
    rw [hend]
    simp only [Mems.val, Except.ok.injEq, Prod.mk.injEq, true_and]
    omega
  | .cons w1 k w2 w3 d w4 m, fuel + 1, i, pos, n, o, post, B, hd, hw, hf, he, hj, ht => by
    simp only [Mems.Ok] at hd
    obtain ⟨h1, h2, h3, h4, h5, h6, h7⟩ := hd
    simp only [Mems.width] at hw
    simp only [mtoks, Mems.text, List.append_assoc, List.length_cons, List.cons_append, List.length_append] at hf hj ht ⊢
    have hp := dtoks_pos d (pos + (memHead w1 k w2 w3).length)
    have hk : js.drop (pos + w1.length + 1) = ptext k ++ ([34] ++ (w2 ++ ([58] ++ (w3 ++ (d.text ++ (w4 ++ ([44] ++ (m.text ++ post)))))))) := by
      have a1 := drop_step (js := js) (pos := pos) (a := w1 ++ [34])
        (b := ptext k ++ ([34] ++ (w2 ++ ([58] ++ (w3 ++ (d.text ++ (w4 ++ ([44] ++ (m.text ++ post))))))))) (by rw [hj]; simp [memHead])
      rw [← a1]; congr 1; simp; omega
    have hj1 := drop_step hj
    have hj2 := drop_step hj1
    have hj3 := drop_step hj2
    have hj4 := drop_step (a := [44]) hj3
    have hg := gen_doc js toks cap d fuel (i + 1) (pos + (memHead w1 k w2 w3).length) (w4 ++ ([44] ++ (m.text ++ post))) _ h5 (by omega)
      (by omega) (Ends.ws h6 ⟨44, _, rfl, by decide⟩) hj1 (tail_of_drop ht)
    have ht' := gen_mems js toks cap m fuel (i + 1 + (dtoks (pos + (memHead w1 k w2 w3).length) d).length)
      (pos + (memHead w1 k w2 w3).length + d.text.length + w4.length + 1) (n + 2) (o.insert (pval k) d.val) post B h7 (by omega)
      (by omega) he hj4 (toks_step (tail_of_drop ht))
    rw [genObj, get_of_drop ht]
    simp only
    rw [if_pos (by simp [Mems.count]), if_neg (by simp [Mems.count]; try omega), hg]
    simp only
    rw [tokText_eq js (ptext k) _ .string _ 0 hk, key_text k h2]
    rw [show i + 1 + (dtoks (pos + (memHead w1 k w2 w3).length) d).length - 1 + 1 =
        i + 1 + (dtoks (pos + (memHead w1 k w2 w3).length) d).length by omega,
      show n + (Mems.cons w1 k w2 w3 d w4 m).count = n + 2 + m.count by simp [Mems.count]; omega, ht']
    simp only [Mems.val, Except.ok.injEq, Prod.mk.injEq, true_and]
    omega
  | m, 0, i, pos, n, o, post, B, _, _, hf, _, _, _ => by omega
end

end Verif.Json
