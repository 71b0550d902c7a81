import Verif.Json.Gen
import Mathlib.Data.List.TakeWhile

/-! What `JSON.stringify` writes. -/

namespace Verif.Json

open Hex (toHexChar)

theorem toHex_spec : ∀ n : Fin 16, IsHex (toHexChar (UInt8.ofNat n.1)) ∧ hexVal (toHexChar (UInt8.ofNat n.1)) = n.1 := by
  unfold IsHex; decide +kernel

theorem toHex_ok (n : Nat) (h : n < 16) : IsHex (toHexChar (UInt8.ofNat n)) ∧ hexVal (toHexChar (UInt8.ofNat n)) = n :=
  toHex_spec ⟨n, h⟩

/-- The four digits. -/
theorem utfEncode_hex (n : Nat) : ∃ a b c d, utfEncode n = [92, 117, a, b, c, d] ∧ IsHex a ∧ IsHex b ∧ IsHex c ∧ IsHex d ∧
    hexVal4 a b c d = n % 65536 := by
  have m : ∀ x k j : Nat, x &&& (2 ^ k - 1) = x % 2 ^ k := fun x k _ => Nat.and_two_pow_sub_one_eq_mod x k
  have e0 : n &&& 0x0F = n % 16 := m n 4 0
  have sh : ∀ k j : Nat, (n &&& ((2 ^ 4 - 1) <<< k)) >>> k = n / 2 ^ k % 16 := by
    intro k j
    rw [Nat.shiftRight_and_distrib, Nat.shiftLeft_shiftRight, Nat.shiftRight_eq_div_pow]
    exact m (n / 2 ^ k) 4 0
  have e1 : (n &&& 0xF0) >>> 4 = n / 16 % 16 := sh 4 0
  have e2 : (n &&& 0xF00) >>> 8 = n / 256 % 16 := sh 8 0
  have e3 : (n &&& 0xF000) >>> 12 = n / 4096 % 16 := sh 12 0
  unfold utfEncode
  rw [e0, e1, e2, e3]
  have h0 := toHex_ok (n % 16) (by omega)
  have h1 := toHex_ok (n / 16 % 16) (by omega)
  have h2 := toHex_ok (n / 256 % 16) (by omega)
  have h3 := toHex_ok (n / 4096 % 16) (by omega)
  refine ⟨_, _, _, _, rfl, h3.1, h2.1, h1.1, h0.1, ?_⟩
  unfold hexVal4
  rw [h0.2, h1.2, h2.2, h3.2]
  omega

/-- The three cases of the loop. -/
theorem quoteBody_cons (c : UInt8) (t : List UInt8) :
    (∃ e, shortEsc c = some e ∧ quoteBody (c :: t) = 92 :: e :: quoteBody t) ∨
    (shortEsc c = none ∧ isprint c = true ∧ quoteBody (c :: t) = c :: quoteBody t) ∨
    (shortEsc c = none ∧ isprint c = false ∧
      quoteBody (c :: t) = utfEncode (uni (c :: t)).1 ++ quoteBody (t.drop ((uni (c :: t)).2 - 1))) := by
  rw [quoteBody]
  cases h : shortEsc c with
  | some e => left; exact ⟨e, rfl, rfl⟩
  | none =>
    right
    cases hp : isprint c with
    | true => left; simp
    | false => right; simp

theorem shortEsc_spec : ∀ n : Fin 256, ∀ e, shortEsc (UInt8.ofNat n.1) = some e →
    (escVal e = some (UInt8.ofNat n.1) ∧ e ≠ 47 ∧ 32 ≤ e ∧ e ≤ 126) := by
  intro n
  have : ∀ n : Fin 256, ∀ e : Fin 256, shortEsc (UInt8.ofNat n.1) = some (UInt8.ofNat e.1) →
    escVal (UInt8.ofNat e.1) = some (UInt8.ofNat n.1) ∧ UInt8.ofNat e.1 ≠ 47 ∧ 32 ≤ UInt8.ofNat e.1 ∧ UInt8.ofNat e.1 ≤ 126 := by
    decide +kernel
  intro e he
  have h := this n ⟨e.toNat, e.toNat_lt⟩
  simp only [UInt8.ofNat_toNat] at h
  exact h he

theorem u8_fin (c : UInt8) : c = UInt8.ofNat (⟨c.toNat, c.toNat_lt⟩ : Fin 256).1 := by simp

theorem shortEsc_some {c e : UInt8} (h : shortEsc c = some e) : escVal e = some c ∧ e ≠ 47 ∧ 32 ≤ e ∧ e ≤ 126 := by
  have := shortEsc_spec ⟨c.toNat, c.toNat_lt⟩ e (by rw [← u8_fin]; exact h)
  rwa [← u8_fin] at this

theorem shortEsc_none {c : UInt8} (h : shortEsc c = none) : c ≠ 34 ∧ c ≠ 92 := by
  constructor <;> rintro rfl <;> exact absurd h (by decide)

/-- Letters after which the scanner goes on. -/
theorem scanStr_esc {e : UInt8} (t : List UInt8) (h : (escVal e).isSome) :
    scanStr (92 :: e :: t) = (scanStr t).map (· + 2) := by
  have := scanStr_piece true (.esc e) t ⟨h, by simp⟩
  simp only [Piece.text, List.cons_append, List.nil_append, List.length_cons, List.length_nil] at this
  simpa using this

theorem quoteBody_scan (s rest : List UInt8) : scanStr (quoteBody s ++ 34 :: rest) = some (quoteBody s).length := by
  induction h : s.length using Nat.strongRecOn generalizing s with
  | _ n ih =>
  cases s with
  | nil => rw [quoteBody]; exact scanStr_quote rest
  | cons c t =>
    simp only [List.length_cons] at h
    rcases quoteBody_cons c t with ⟨e, h1, h2⟩ | ⟨h1, h2, h3⟩ | ⟨h1, h2, h3⟩
    · rw [h2, List.cons_append, List.cons_append, scanStr_esc _ (by rw [(shortEsc_some h1).1]; rfl),
        ih t.length (by omega) t rfl]
      rfl
    · rw [h3, List.cons_append, scanStr_other _ (shortEsc_none h1).1 (shortEsc_none h1).2, ih t.length (by omega) t rfl]
      rfl
    · obtain ⟨a, b, c', d, e, ha, hb, hc, hd, _⟩ := utfEncode_hex (uni (c :: t)).1
      rw [h3, e, List.append_assoc]
      simp only [List.cons_append, List.nil_append]
      rw [scanStr_u a b c' d _ ha hb hc hd, ih _ (by simp; omega) (t.drop ((uni (c :: t)).2 - 1)) rfl]
      simp

theorem hex_print {c : UInt8} (h : IsHex c) : 32 ≤ c ∧ c ≤ 126 := by
  unfold IsHex at h
  simp only [UInt8.le_iff_toNat_le] at h ⊢
  simp at h ⊢; omega

theorem quoteBody_print (s : List UInt8) : ∀ c ∈ quoteBody s, 32 ≤ c ∧ c ≤ 126 := by
  induction h : s.length using Nat.strongRecOn generalizing s with
  | _ n ih =>
  cases s with
  | nil => rw [quoteBody]; simp
  | cons c t =>
    simp only [List.length_cons] at h
    rcases quoteBody_cons c t with ⟨e, h1, h2⟩ | ⟨h1, h2, h3⟩ | ⟨h1, h2, h3⟩
    · rw [h2]
      intro x hx
      rcases List.mem_cons.1 hx with rfl | hx
      · decide
      rcases List.mem_cons.1 hx with rfl | hx
      · exact (shortEsc_some h1).2.2
      · exact ih t.length (by omega) t rfl x hx
    · rw [h3]
      intro x hx
      rcases List.mem_cons.1 hx with rfl | hx
      · simpa [isprint] using h2
      · exact ih t.length (by omega) t rfl x hx
    · obtain ⟨a, b, c', d, e, ha, hb, hc, hd, _⟩ := utfEncode_hex (uni (c :: t)).1
      rw [h3, e]
      intro x hx
      rcases List.mem_append.1 hx with hx | hx
      · simp only [List.mem_cons, List.not_mem_nil, or_false] at hx
        rcases hx with rfl | rfl | rfl | rfl | rfl | rfl
        · decide
        · decide
        all_goals apply hex_print; assumption
      · exact ih _ (by simp; omega) (t.drop ((uni (c :: t)).2 - 1)) rfl x hx

/-! ### UTF-8 texts -/

theorem uni_enc (c : Char) (rest : List UInt8) :
    uni (String.utf8EncodeChar c ++ rest) = (c.toNat, (String.utf8EncodeChar c).length) := by
  have := Utf8.C06_decode_encode c rest
  rw [Utf8.C06_encode_is_utf8] at this
  simp [uni, this]

/-- How a character is written. -/
theorem quoteBody_char (c : Char) (rest : List UInt8) (hc : c.toNat < 0x10000) :
    ∃ p : Piece, p.Ok false ∧ p.val = String.utf8EncodeChar c ∧
      quoteBody (String.utf8EncodeChar c ++ rest) = p.text ++ quoteBody rest := by
  have hu := uni_enc c rest
  obtain ⟨b, t, hbt⟩ : ∃ b t, String.utf8EncodeChar c = b :: t := by
    rcases enc_bytes c with ⟨_, h⟩ | ⟨_, h⟩
    · exact ⟨_, _, h⟩
    · cases h' : String.utf8EncodeChar c with
      | nil => simp [String.utf8EncodeChar] at h'; split at h' <;> (try split at h') <;> (try split at h') <;> simp at h'
      | cons b t => exact ⟨b, t, rfl⟩
  have huni : ∃ p : Piece, p.Ok false ∧ p.val = String.utf8EncodeChar c ∧ utfEncode c.toNat = p.text := by
    obtain ⟨x, y, z, w, e, hx, hy, hz, hw, hv⟩ := utfEncode_hex c.toNat
    have hv' : hexVal4 x y z w = c.toNat := by rw [hv]; omega
    refine ⟨.uni x y z w, ⟨hx, hy, hz, hw, ?_⟩, ?_, e⟩
    · rw [hv']
      have := c.valid
      have e : c.val.toNat = c.toNat := rfl
      simp only [UInt32.isValidChar, Nat.isValidChar] at this
      omega
    · simp only [Piece.val]
      rw [hv']
      have : Char.ofNat c.toNat = c := by simp
      rw [this]
  rw [hbt, List.cons_append] at hu ⊢
  rcases quoteBody_cons b (t ++ rest) with ⟨e, h1, h2⟩ | ⟨h1, h2, h3⟩ | ⟨h1, h2, h3⟩
  · -- a short escape: an ASCII character
    have ht : t = [] := by
      rcases enc_bytes c with ⟨_, h⟩ | ⟨_, h⟩
      · rw [hbt] at h; simp at h; exact h.2
      · exfalso
        have hb := h b (by rw [hbt]; simp)
        have : b < 128 := by
          have := (shortEsc_some h1)
          unfold shortEsc at h1
          split at h1
          · rename_i hh; rcases hh with rfl | rfl <;> decide
          repeat (split at h1; · (rename_i hh; rw [hh]; decide))
          exact absurd h1 (by simp)
        rw [UInt8.lt_iff_toNat_lt] at this
        rw [UInt8.le_iff_toNat_le] at hb
        omega
    subst ht
    obtain ⟨g1, g2, _, _⟩ := shortEsc_some h1
    refine ⟨.esc e, ⟨by rw [g1]; rfl, fun _ => g2⟩, by simp [Piece.val, g1], ?_⟩
    rw [List.nil_append] at h2 ⊢
    rw [h2]; rfl
  · have ht : t = [] ∧ b = UInt8.ofNat c.toNat ∧ c.toNat < 128 := by
      rcases enc_bytes c with ⟨h0, h⟩ | ⟨_, h⟩
      · rw [hbt] at h; simp at h; exact ⟨h.2, h.1, h0⟩
      · exfalso
        have hb := h b (by rw [hbt]; simp)
        simp only [isprint, Bool.and_eq_true, decide_eq_true_eq] at h2
        rw [UInt8.le_iff_toNat_le] at hb
        have := h2.2
        rw [UInt8.le_iff_toNat_le] at this
        simp at hb this; omega
    obtain ⟨rfl, hb, hlt⟩ := ht
    have hn := shortEsc_none h1
    simp only [isprint, Bool.and_eq_true, decide_eq_true_eq, UInt8.le_iff_toNat_le] at h2
    have hbn : b.toNat = c.toNat := by rw [hb]; simp; omega
    refine ⟨.raw c, ⟨?_, ?_, ?_⟩, by simp [Piece.val, hbt], ?_⟩
    · have := h2.1; simp at this; omega
    · intro e; apply hn.1; rw [← UInt8.toNat_inj, hbn, e]; rfl
    · intro e; apply hn.2; rw [← UInt8.toNat_inj, hbn, e]; rfl
    · rw [List.nil_append] at h3 ⊢
      rw [h3]; simp [Piece.text, hbt]
  · obtain ⟨p, k1, k2, k3⟩ := huni
    refine ⟨p, k1, by rw [k2, hbt], ?_⟩
    rw [h3, hu, ← k3]
    congr 2
    simp

theorem quoteBody_utf8 (cs : List Char) (h : ∀ c ∈ cs, c.toNat < 0x10000) :
    ∃ s : List Piece, (∀ p ∈ s, p.Ok false) ∧ pval s = utf8 cs ∧ quoteBody (utf8 cs) = ptext s := by
  induction cs with
  | nil => exact ⟨[], by simp, rfl, by simp only [utf8, List.flatMap_nil]; rw [quoteBody]; rfl⟩
  | cons c cs ih =>
    obtain ⟨s, h1, h2, h3⟩ := ih (fun x hx => h x (by simp [hx]))
    obtain ⟨p, k1, k2, k3⟩ := quoteBody_char c (utf8 cs) (h c (by simp))
    refine ⟨p :: s, ?_, ?_, ?_⟩
    · intro x hx
      rcases List.mem_cons.1 hx with rfl | hx
      · exact k1
      · exact h1 x hx
    · simp only [pval, List.flatMap_cons] at h2 ⊢
      rw [k2, h2]; simp [utf8]
    · have : utf8 (c :: cs) = String.utf8EncodeChar c ++ utf8 cs := by simp [utf8]
      rw [this, k3, h3]; simp [ptext]

theorem strBytes_good {o : Bool} {s : List UInt8} {cs : List Char} (hs : s = utf8 cs)
    (h : o = false → ∀ c ∈ cs, c.toNat ≠ 0) : strBytes o s = s := by
  cases o with
  | true => rfl
  | false =>
    have h' : ∀ x ∈ s, x ≠ 0 := by
      rw [hs]; exact Utf8.enc_ne_zero cs (h rfl)
    simp only [strBytes, Bool.false_eq_true, if_false]
    rw [List.takeWhile_eq_self_iff]
    intro x hx; simpa using h' x hx

theorem key_pieces {k : List UInt8} (h : KeyGood k) : ∃ ps : List Piece, KeyOk false ps ∧ ptext ps = k ∧ pval ps = k := by
  obtain ⟨cs, rfl, h⟩ := h
  have hk : KeyOk false (cs.map .raw) := by
    refine ⟨?_, ?_⟩
    · intro p hp
      obtain ⟨c, hc, rfl⟩ := List.mem_map.1 hp
      exact h c hc
    · intro _ p hp
      obtain ⟨c, hc, rfl⟩ := List.mem_map.1 hp
      exact ⟨c, rfl⟩
  have ht : ptext (cs.map .raw) = utf8 cs := by
    unfold ptext utf8; rw [List.flatMap_map]; rfl
  exact ⟨cs.map .raw, hk, ht, by rw [← key_text _ hk, ht]⟩

/-! ### Documents written by `stringify` -/

theorem strArr_false (md d : Nat) (v : JVal) (t : JArr) :
    strArr md d false (.cons v t) = (strArr md d true (.cons v t)).map (asc ", " ++ ·) := by
  rw [strArr, strArr]
  cases str md d v with
  | none => rfl
  | some a => cases strArr md d false t <;> simp

theorem strObj_false (md d : Nat) (k : List UInt8) (v : JVal) (t : JObj) (hv : v ≠ .undef) :
    strObj md d false (.cons k v t) = (strObj md d true (.cons k v t)).map (asc ", " ++ ·) := by
  rw [strObj, strObj, if_neg hv, if_neg hv]
  cases str md d v with
  | none => rfl
  | some a => cases strObj md d false t <;> simp

def JObj.append : JObj → JObj → JObj
  | .nil, b => b
  | .cons k v t, b => .cons k v (t.append b)

theorem JObj.append_nil : ∀ a : JObj, a.append .nil = a
  | .nil => rfl
  | .cons k v t => by rw [JObj.append, JObj.append_nil t]

theorem JObj.append_assoc : ∀ a b c : JObj, (a.append b).append c = a.append (b.append c)
  | .nil, _, _ => rfl
  | .cons k v t, b, c => by rw [JObj.append, JObj.append, JObj.append, JObj.append_assoc t]

theorem JObj.keys_append : ∀ a b : JObj, (a.append b).keys = a.keys ++ b.keys
  | .nil, _ => rfl
  | .cons k v t, b => by rw [JObj.append, JObj.keys, JObj.keys, JObj.keys_append t]; rfl

theorem JObj.insert_new (k : List UInt8) (v : JVal) : ∀ o : JObj, k ∉ o.keys → o.insert k v = o.append (.cons k v .nil)
  | .nil, _ => rfl
  | .cons k' v' t, h => by
    simp only [JObj.keys, List.mem_cons, not_or] at h
    rw [JObj.insert, if_neg (fun e => h.1 e.symm), JObj.append, JObj.insert_new k v t h.2]

theorem JObj.keys_boxed : ∀ o : JObj, o.boxed.keys = o.keys
  | .nil => rfl
  | .cons k v t => by simp only [JObj.boxed, JObj.keys]; rw [JObj.keys_boxed t]

theorem ws_sp : Ws [32] := by intro c hc; simp at hc; left; exact hc
theorem ws_nil : Ws [] := by intro c hc; simp at hc
theorem asc_sep : asc ", " = [44, 32] := by decide

/-- Depth allowed. -/
def DOk (md d k : Nat) : Prop := md = 0 ∨ d + k ≤ md

theorem DOk.not {md d k : Nat} (h : DOk md d k) : ¬ (0 < md ∧ md < d) := by unfold DOk at h; omega

mutual
theorem str_doc (cap md : Nat) : ∀ (v : JVal) (d : Nat), v.Good → v.Fits cap → DOk md d v.depth →
    ∃ D : Doc, str md d v = some D.text ∧ D.Ok false ∧ D.val = v.boxed ∧ D.width ≤ cap
  | .undef, _, hg, _, _ => by simp only [JVal.Good] at hg
  | .null, d, _, _, hd => ⟨.null, by rw [str, if_neg hd.not]; rfl, trivial, rfl, by simp [Doc.width]⟩
  | .bool b, d, _, _, hd => by
    cases b with
    | true => exact ⟨.true, by rw [str, if_neg hd.not]; rfl, trivial, rfl, by simp [Doc.width]⟩
    | false => exact ⟨.false, by rw [str, if_neg hd.not]; rfl, trivial, rfl, by simp [Doc.width]⟩
  | .num n, d, _, _, hd => ⟨.num n, by rw [str, if_neg hd.not]; rfl, trivial, rfl, by simp [Doc.width]⟩
  | .str o s, d, hg, _, hd => by
    simp only [JVal.Good] at hg
    obtain ⟨cs, h1, h2, h3⟩ := hg
    obtain ⟨ps, p1, p2, p3⟩ := quoteBody_utf8 cs h2
    refine ⟨.str ps, ?_, p1, ?_, by simp [Doc.width]⟩
    · rw [str, if_neg hd.not]
      simp only [strBytes_good h1 h3]
      rw [quote, h1, p3]; simp [Doc.text]
    · simp only [Doc.val, JVal.boxed, p2, h1]
  | .arr .nil, d, _, _, hd => ⟨.arr0 [], by rw [str, if_neg hd.not]; rfl, ws_nil, rfl, by simp [Doc.width]⟩
  | .obj .nil, d, _, _, hd => ⟨.obj0 [], by rw [str, if_neg hd.not]; rfl, ws_nil, rfl, by simp [Doc.width]⟩
  | .arr (.cons v t), d, hg, hf, hd => by
    simp only [JVal.Good] at hg
    simp only [JVal.Fits] at hf
    have hn := hd.not
    simp only [JVal.depth] at hd
    obtain ⟨E, b, e1, e2, e3, e4, e5⟩ := strArr_doc cap md (.cons v t) (d + 1) 0 (by simp) hg hf.2 (by simpa using hf.1) (by unfold DOk at *; omega)
    refine ⟨.arr E, ?_, e3, ?_, e5⟩
    · rw [str, if_neg hn]
      rw [e1]
      simp only [Option.map_some, Doc.text, e2]
      rw [show asc "[ " = [91, 32] by decide, show asc " ]" = [32, 93] by decide]
      simp
    · simp only [Doc.val, JVal.boxed, e4]
  | .obj (.cons k v t), d, hg, hf, hd => by
    simp only [JVal.Good] at hg
    simp only [JVal.Fits] at hf
    have hn := hd.not
    simp only [JVal.depth] at hd
    obtain ⟨M, b, e1, e2, e3, e4, e5⟩ := strObj_doc cap md (.cons k v t) (d + 1) (by simp) hg hf (by unfold DOk at *; omega)
    refine ⟨.obj M, ?_, e3, ?_, e5⟩
    · rw [str, if_neg hn]
      rw [e1]
      simp only [Option.map_some, Doc.text, e2]
      rw [show asc "{ " = [123, 32] by decide, show asc " }" = [32, 125] by decide]
      simp
    · simp only [Doc.val, JVal.boxed]
      rw [e4 .nil (by simp [JObj.keys])]; rfl
theorem strArr_doc (cap md : Nat) : ∀ (l : JArr) (d n : Nat), l ≠ .nil → l.Good → l.Fits cap →
    n + l.length ≤ cap → DOk md d l.depth →
    ∃ (E : Els) (b : List UInt8), strArr md d true l = some b ∧ E.text = [32] ++ b ++ [32] ∧ E.Ok false ∧
      E.val = l.boxed ∧ E.width n ≤ cap
  | .nil, _, _, hn, _, _, _, _ => absurd rfl hn
  | .cons v .nil, d, n, _, hg, hf, hl, hd => by
    simp only [JArr.Good] at hg
    simp only [JArr.Fits] at hf
    simp only [JArr.length] at hl
    simp only [JArr.depth] at hd
    obtain ⟨D, d1, d2, d3, d4⟩ := str_doc cap md v d hg.1 hf.1 (by unfold DOk at *; omega)
    refine ⟨.one [32] D [32], D.text, ?_, by simp [Els.text], ⟨ws_sp, d2, ws_sp⟩, ?_, ?_⟩
    · rw [strArr, d1]; simp [strArr]
    · simp only [Els.val, JArr.boxed, d3]
    · simp only [Els.width]; omega
  | .cons v (.cons v' t), d, n, _, hg, hf, hl, hd => by
    rw [JArr.Good] at hg
    rw [JArr.Fits] at hf
    rw [JArr.length] at hl
    rw [JArr.depth] at hd
    obtain ⟨D, d1, d2, d3, d4⟩ := str_doc cap md v d hg.1 hf.1 (by unfold DOk at *; omega)
    obtain ⟨E, b, e1, e2, e3, e4, e5⟩ := strArr_doc cap md (.cons v' t) d (n + 1) (by simp) hg.2 hf.2 (by omega) (by unfold DOk at *; omega)
    refine ⟨.cons [32] D [] E, D.text ++ asc ", " ++ b, ?_, ?_, ⟨ws_sp, d2, ws_nil, e3⟩, ?_, ?_⟩
    · rw [strArr, d1]
      simp only [Option.bind_some]
      rw [strArr_false, e1]; simp
    · simp [Els.text, e2, asc_sep]
    · simp only [Els.val, d3, e4]; simp only [JArr.boxed]
    · simp only [Els.width]; omega
theorem strObj_doc (cap md : Nat) : ∀ (l : JObj) (d : Nat), l ≠ .nil → l.Good →
    l.Fits cap → DOk md d l.depth →
    ∃ (M : Mems) (b : List UInt8), strObj md d true l = some b ∧ M.text = [32] ++ b ++ [32] ∧ M.Ok false ∧
      (∀ o : JObj, (∀ x ∈ l.keys, x ∉ o.keys) → M.val o = o.append l.boxed) ∧ M.width ≤ cap
  | .nil, _, hn, _, _, _ => absurd rfl hn
  | .cons k v .nil, d, _, hg, hf, hd => by
    simp only [JObj.Good] at hg
    simp only [JObj.Fits] at hf
    simp only [JObj.depth] at hd
    have hv : v ≠ .undef := by rintro rfl; have := hg.2.1; simp only [JVal.Good] at this
    obtain ⟨D, d1, d2, d3, d4⟩ := str_doc cap md v d hg.2.1 hf.1 (by unfold DOk at *; omega)
    obtain ⟨ps, k1, k2, k3⟩ := key_pieces hg.1
    refine ⟨.one [32] ps [] [] D [32], [34] ++ k ++ asc "\":" ++ D.text, ?_, ?_, ⟨ws_sp, k1, ws_nil, ws_nil, d2, ws_sp⟩, ?_, ?_⟩
    · rw [strObj, if_neg hv, d1]; simp [strObj]
    · simp [Mems.text, memHead, k2, show asc "\":" = [34, 58] by decide]
    · intro o ho
      simp only [Mems.val, d3, k3]
      rw [JObj.insert_new k _ o (ho k (by simp [JObj.keys]))]
      simp only [JObj.boxed]
    · simp only [Mems.width]; omega
  | .cons k v (.cons k' v' t), d, _, hg, hf, hd => by
    rw [JObj.Good] at hg
    rw [JObj.Fits] at hf
    rw [JObj.depth] at hd
    have hv : v ≠ .undef := by rintro rfl; have := hg.2.1; simp only [JVal.Good] at this
    have hg' := hg.2.2.2
    have hv' : v' ≠ .undef := by
      rintro rfl; simp only [JObj.Good, JVal.Good] at hg'; exact hg'.2.1
    obtain ⟨D, d1, d2, d3, d4⟩ := str_doc cap md v d hg.2.1 hf.1 (by unfold DOk at *; omega)
    obtain ⟨M, b, e1, e2, e3, e4, e5⟩ := strObj_doc cap md (.cons k' v' t) d (by simp) hg.2.2.2 hf.2 (by unfold DOk at *; omega)
    obtain ⟨ps, k1, k2, k3⟩ := key_pieces hg.1
    refine ⟨.cons [32] ps [] [] D [] M, [34] ++ k ++ asc "\":" ++ D.text ++ asc ", " ++ b, ?_, ?_,
      ⟨ws_sp, k1, ws_nil, ws_nil, d2, ws_nil, e3⟩, ?_, ?_⟩
    · rw [strObj, if_neg hv, d1]
      simp only [Option.bind_some]
      rw [strObj_false _ _ _ _ _ hv', e1]; simp
    · simp [Mems.text, memHead, k2, e2, asc_sep, show asc "\":" = [34, 58] by decide]
    · intro o ho
      have hk := ho k (by simp [JObj.keys])
      simp only [Mems.val, d3, k3]
      rw [JObj.insert_new k _ o hk, e4]
      · rw [JObj.append_assoc]
        simp only [JObj.boxed, JObj.append]
      · intro x hx
        rw [JObj.keys_append]
        simp only [JObj.keys, List.mem_append, List.mem_cons, List.not_mem_nil, or_false, not_or]
        refine ⟨ho x (by rw [JObj.keys]; exact List.mem_cons_of_mem _ hx), ?_⟩
        rintro rfl
        exact hg.2.2.1 hx
    · simp only [Mems.width]; omega
end

end Verif.Json
