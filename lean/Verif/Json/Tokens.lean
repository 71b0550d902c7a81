import Verif.Json.Spec
import Verif.Utf8.Props
import Mathlib.Tactic.Tauto
import Mathlib.Tactic.ByContra

/-! The tokeniser on JSON texts. -/

namespace Verif.Json

mutual
def Els.count : Els → Nat
  | .one _ _ _ => 1
  | .cons _ _ _ t => t.count + 1
end
def Mems.count : Mems → Nat
  | .one _ _ _ _ _ _ => 2
  | .cons _ _ _ _ _ _ t => t.count + 2

mutual
/-- The tokens of a text that starts at `pos`. -/
def dtoks (pos : Nat) : Doc → List Tok
  | .null => [⟨.prim, pos, some (pos + 4), 0⟩]
  | .true => [⟨.prim, pos, some (pos + 4), 0⟩]
  | .false => [⟨.prim, pos, some (pos + 5), 0⟩]
  | .num n => [⟨.prim, pos, some (pos + (dec n).length), 0⟩]
  | .str s => [⟨.string, pos + 1, some (pos + 1 + (ptext s).length), 0⟩]
  | .arr0 w => [⟨.array, pos, some (pos + 1 + w.length + 1), 0⟩]
  | .arr e => ⟨.array, pos, some (pos + 1 + e.text.length + 1), e.count⟩ :: etoks (pos + 1) e
  | .obj0 w => [⟨.object, pos, some (pos + 1 + w.length + 1), 0⟩]
  | .obj m => ⟨.object, pos, some (pos + 1 + m.text.length + 1), m.count⟩ :: mtoks (pos + 1) m
def etoks (pos : Nat) : Els → List Tok
  | .one w1 d _ => dtoks (pos + w1.length) d
  | .cons w1 d w2 t => dtoks (pos + w1.length) d ++ etoks (pos + w1.length + d.text.length + w2.length + 1) t
def mtoks (pos : Nat) : Mems → List Tok
  | .one w1 k w2 w3 d _ => ⟨.string, pos + w1.length + 1, some (pos + w1.length + 1 + (ptext k).length), 0⟩ ::
      dtoks (pos + (memHead w1 k w2 w3).length) d
  | .cons w1 k w2 w3 d w4 t => ⟨.string, pos + w1.length + 1, some (pos + w1.length + 1 + (ptext k).length), 0⟩ ::
      (dtoks (pos + (memHead w1 k w2 w3).length) d ++
        mtoks (pos + (memHead w1 k w2 w3).length + d.text.length + w4.length + 1) t)
end

/-! ### Lists of tokens -/

theorem lastOpen_append (a b : List Tok) : lastOpen (a ++ b) =
    match lastOpen b with
    | some i => some (a.length + i)
    | none => lastOpen a := by
  induction a with
  | nil => cases h : lastOpen b <;> simp [lastOpen]; all_goals (cases b <;> simp_all [lastOpen])
  | cons t a ih =>
    rw [List.cons_append, lastOpen, ih]
    cases lastOpen b with
    | none => simp only [lastOpen]
    | some i => simp; omega

theorem lastOpen_closed (b : List Tok) (h : ∀ t ∈ b, t.stop ≠ none) : lastOpen b = none := by
  induction b with
  | nil => rfl
  | cons t b ih =>
    rw [lastOpen, ih (fun x hx => h x (by simp [hx]))]
    simp [h t (by simp)]

theorem modify_left {α : Type} (a b : List α) (f : α → α) (i : Nat) (h : i < a.length) :
    (a ++ b).modify i f = a.modify i f ++ b := by
  induction a generalizing i with
  | nil => simp at h
  | cons x a ih =>
    cases i with
    | zero => simp
    | succ i => simp only [List.cons_append, List.modify_succ_cons, ih i (by simpa using h)]

theorem modify_mid {α : Type} (a : List α) (x : α) (b : List α) (f : α → α) :
    (a ++ x :: b).modify a.length f = a ++ f x :: b := by
  induction a with
  | nil => simp
  | cons y a ih => simp only [List.cons_append, List.length_cons, List.modify_succ_cons, ih]

/-- `tokens[i].size += n`. -/
def bumpN (i n : Nat) (l : List Tok) : List Tok := l.modify i (fun t => { t with size := t.size + n })

theorem bump_eq (i : Nat) (l : List Tok) : bump i l = bumpN i 1 l := rfl

theorem bumpN_bumpN (i m n : Nat) (l : List Tok) : bumpN i m (bumpN i n l) = bumpN i (n + m) l := by
  unfold bumpN
  rw [List.modify_modify_eq]
  congr 1
  funext t
  simp [Nat.add_assoc]

theorem lastOpen_modify (l : List Tok) (i : Nat) (f : Tok → Tok) (hf : ∀ t, (f t).stop = t.stop) :
    lastOpen (l.modify i f) = lastOpen l := by
  induction l generalizing i with
  | nil => simp
  | cons t l ih =>
    cases i with
    | zero => simp [lastOpen, hf]
    | succ i => simp [lastOpen, ih]

theorem lastOpen_bumpN (i n : Nat) (l : List Tok) : lastOpen (bumpN i n l) = lastOpen l :=
  lastOpen_modify l i _ (fun _ => rfl)

theorem bumpN_length (i n : Nat) (l : List Tok) : (bumpN i n l).length = l.length := by simp [bumpN]

theorem bumpN_append (i n : Nat) (a b : List Tok) (h : i < a.length) : bumpN i n (a ++ b) = bumpN i n a ++ b := by
  unfold bumpN; rw [modify_left _ _ _ _ h]

def Cont : Option Typ → Prop
  | some .array => True
  | some .object => True
  | _ => False

/-- The type of a token. -/
def ty (l : List Tok) (i : Nat) : Option Typ := (l[i]?).map (·.typ)

theorem ty_modify (l : List Tok) (i k : Nat) (f : Tok → Tok) (hf : ∀ t, (f t).typ = t.typ) :
    ty (l.modify i f) k = ty l k := by
  unfold ty
  rw [List.getElem?_modify]
  cases l[k]? with
  | none => simp
  | some t => by_cases h : i = k <;> simp [h, hf]

theorem ty_bumpN (i n k : Nat) (l : List Tok) : ty (bumpN i n l) k = ty l k :=
  ty_modify l i k (fun t => { t with size := t.size + n }) (fun _ => rfl)

theorem ty_setStop (i pos k : Nat) (l : List Tok) : ty (setStop i pos l) k = ty l k :=
  ty_modify l i k (fun t => { t with stop := some (pos + 1) }) (fun _ => rfl)

theorem ty_append (a b : List Tok) (k : Nat) {x : Typ} (h : ty a k = some x) : ty (a ++ b) k = some x := by
  unfold ty at *
  cases e : a[k]? with
  | none => rw [e] at h; simp at h
  | some t =>
    have := (List.getElem?_eq_some_iff.1 e).1
    rw [List.getElem?_append_left this, e]; rw [e] at h; exact h

theorem cont_append (a b : List Tok) (k : Nat) (h : Cont (ty a k)) : Cont (ty (a ++ b) k) := by
  cases e : ty a k with
  | none => rw [e] at h; exact h.elim
  | some x => rw [ty_append a b k e]; rw [e] at h; exact h

/-- Inside the container token `s`. -/
structure In (p : P) (s : Nat) : Prop where
  super : p.super = some s
  last : lastOpen p.toks = some s
  scont : Cont (ty p.toks s)
  index : ∃ k, p.index = some k ∧ Cont (ty p.toks k)
  token : ∃ k, p.token = some k ∧ Cont (ty p.toks k)

theorem In.lt {p : P} {s : Nat} (h : In p s) : s < p.toks.length := by
  have := h.scont
  unfold ty at this
  by_contra hn
  rw [List.getElem?_eq_none (by omega)] at this
  exact this

theorem comma_ok {strict : Bool} {p : P} {s : Nat} (h : In p s) : commaOk strict p = true := by
  obtain ⟨k, h1, h2⟩ := h.token
  unfold commaOk typAt
  rw [h1]
  simp only [Option.bind_some]
  change Cont ((p.toks[k]?).map (·.typ)) at h2
  have : ∀ x : Option Typ, Cont x → (!strict || decide (x = some .array) || decide (x = some .object)) = true := by
    intro x hx
    rcases x with _ | x
    · exact hx.elim
    · cases x <;> simp [Cont] at hx ⊢
  exact this _ h2

theorem colon_ok {strict : Bool} {p : P} {s : Nat} (h : In p s) (ho : ty p.toks s = some .object) :
    colonOk strict p = true := by
  obtain ⟨k, h1, h2⟩ := h.token
  unfold colonOk typAt
  rw [h1, h.super]
  unfold ty at ho
  simp [ho]

/-! ### Steps of the loop -/

theorem loop_ws (strict q : Bool) (w rest : List UInt8) (hw : Ws w) (pos : Nat) (p : P) :
    loop strict q pos p (w ++ rest) = loop strict q (pos + w.length) p rest := by
  induction w generalizing pos with
  | nil => rfl
  | cons c w ih =>
    have hc := hw c (by simp)
    rw [List.cons_append, loop]
    have : loop strict q (pos + 1) p (w ++ rest) = loop strict q (pos + (c :: w).length) p rest := by
      rw [ih (fun x hx => hw x (by simp [hx]))]
      congr 1; simp; omega
    rcases hc with rfl | rfl | rfl | rfl <;> simpa using this

theorem loop_open (strict q : Bool) (ar : Bool) (pos : Nat) (p : P) (rest : List UInt8) :
    loop strict q pos p ((if ar then 91 else 123) :: rest) =
      loop strict q (pos + 1) (openTok p (if ar then .array else .object) pos) rest := by
  rw [loop]; cases ar <;> simp

theorem loop_close (strict q : Bool) (ar : Bool) (pos : Nat) (p : P) (rest : List UInt8) (p' : P)
    (h : closeTok p (if ar then .array else .object) pos = some p') :
    loop strict q pos p ((if ar then 93 else 125) :: rest) = loop strict q (pos + 1) p' rest := by
  rw [loop]; cases ar <;> simp at h ⊢ <;> simp [h]

theorem loop_comma (strict q : Bool) (pos : Nat) (p : P) (rest : List UInt8) (h : commaOk strict p = true) :
    loop strict q pos p (44 :: rest) = loop strict q (pos + 1) p rest := by
  rw [loop]; simp [h]

theorem loop_colon (strict q : Bool) (pos : Nat) (p : P) (rest : List UInt8) (h : commaOk strict p = true)
    (h2 : colonOk strict p = true) :
    loop strict q pos p (58 :: rest) = loop strict q (pos + 1) p rest := by
  rw [loop]; simp [h, h2]

theorem loop_str (strict q : Bool) (pos : Nat) (p : P) (b rest : List UInt8) (h : scanStr (b ++ 34 :: rest) = some b.length) :
    loop strict q pos p (34 :: (b ++ 34 :: rest)) = loop strict q (pos + b.length + 2) (addString q p pos b.length) rest := by
  rw [loop]
  have : (b ++ 34 :: rest).drop (b.length + 1) = rest := by
    rw [List.drop_append]; simp
  simp [h, this]

theorem loop_prim (strict q : Bool) (pos : Nat) (p : P) (c : UInt8) (b rest : List UInt8) (hc : primStart c = true)
    (h : scanPrim strict (c :: b ++ rest) = some (b.length + 1)) :
    loop strict q pos p (c :: b ++ rest) = loop strict q (pos + (b.length + 1)) (addPrim p pos (b.length + 1)) rest := by
  rw [List.cons_append, loop]
  rw [List.cons_append] at h
  have hd : (b ++ rest).drop (b.length + 1 - 1) = rest := by simp
  have hne : c ≠ 123 ∧ c ≠ 91 ∧ c ≠ 125 ∧ c ≠ 93 ∧ c ≠ 34 ∧ c ≠ 58 ∧ c ≠ 44 ∧ ¬ (c = 9 ∨ c = 13 ∨ c = 10 ∨ c = 32) := by
    refine ⟨?_, ?_, ?_, ?_, ?_, ?_, ?_, ?_⟩
    all_goals first | (rintro rfl; exact absurd hc (by decide)) | (rintro (rfl | rfl | rfl | rfl) <;> exact absurd hc (by decide))
  obtain ⟨h1, h2, h3, h4, h5, h6, h7, h8⟩ := hne
  rw [if_neg h1, if_neg h2, if_neg h3, if_neg h4, if_neg h5, if_neg h6, if_neg h7, if_neg h8,
    if_neg (by rw [hc]; simp), h]
  simp only [hd]

/-- What follows ends a primitive. -/
def Ends (rest : List UInt8) : Prop := ∃ c t, rest = c :: t ∧ primEnd true c = true

theorem Ends.ws {w rest : List UInt8} (hw : Ws w) (h : Ends rest) : Ends (w ++ rest) := by
  cases w with
  | nil => exact h
  | cons c w =>
    refine ⟨c, w ++ rest, rfl, ?_⟩
    rcases hw c (by simp) with rfl | rfl | rfl | rfl <;> decide

theorem scanPrim_spec (strict : Bool) (b rest : List UInt8) (hb : ∀ c ∈ b, primEnd false c = false ∧ 32 ≤ c ∧ c < 127)
    (h : Ends rest) : scanPrim strict (b ++ rest) = some b.length := by
  induction b with
  | nil =>
    obtain ⟨c, t, rfl, hc⟩ := h
    have : primEnd strict c = true := by
      unfold primEnd at *; cases strict <;> simp at hc ⊢ <;> tauto
    simp [scanPrim, this]
  | cons c b ih =>
    obtain ⟨h1, h2, h3⟩ := hb c (by simp)
    have : primEnd strict c = false := by
      unfold primEnd at *; cases strict <;> simp at h1 ⊢ <;> tauto
    rw [List.cons_append, scanPrim, this, if_neg (by simp),
      if_neg (by rw [not_or, UInt8.not_lt, UInt8.not_le]; exact ⟨h2, h3⟩), ih (fun x hx => hb x (by simp [hx]))]
    simp

/-! ### Leaving the state inside a container -/

theorem In.addPrim {p : P} {s : Nat} (h : In p s) (pos n : Nat) :
    (addPrim p pos n).toks = bumpN s 1 p.toks ++ [⟨.prim, pos, some (pos + n), 0⟩] ∧ In (addPrim p pos n) s := by
  have e : (Json.addPrim p pos n).toks = bumpN s 1 p.toks ++ [⟨.prim, pos, some (pos + n), 0⟩] := by
    simp only [Json.addPrim, bumpSuper, h.super]
    rw [bump_eq, bumpN_append _ _ _ _ h.lt]
  have tyk : ∀ k, Cont (ty p.toks k) → Cont (ty (Json.addPrim p pos n).toks k) := by
    intro k hk
    rw [e]
    apply cont_append
    rw [ty_bumpN]
    exact hk
  refine ⟨e, h.super, ?_, tyk _ h.scont, ?_, ?_⟩
  · rw [e, lastOpen_append, lastOpen_closed _ (by simp), lastOpen_bumpN]; exact h.last
  · obtain ⟨k, h1, h2⟩ := h.index; exact ⟨k, h1, tyk _ h2⟩
  · obtain ⟨k, h1, h2⟩ := h.index
    exact ⟨k, by simp [Json.addPrim, retoken, h1], tyk _ h2⟩

theorem In.addString {p : P} {s : Nat} (h : In p s) (q : Bool) (pos n : Nat) :
    (addString q p pos n).toks = bumpN s 1 p.toks ++ [⟨.string, pos + 1, some (pos + 1 + n), 0⟩] ∧
      In (addString q p pos n) s := by
  have e : (Json.addString q p pos n).toks = bumpN s 1 p.toks ++ [⟨.string, pos + 1, some (pos + 1 + n), 0⟩] := by
    simp only [Json.addString, h.super]
    rw [bump_eq, bumpN_append _ _ _ _ h.lt]
  have tyk : ∀ k, Cont (ty p.toks k) → Cont (ty (Json.addString q p pos n).toks k) := by
    intro k hk
    rw [e]
    apply cont_append
    rw [ty_bumpN]
    exact hk
  refine ⟨e, h.super, ?_, tyk _ h.scont, ?_, ?_⟩
  · rw [e, lastOpen_append, lastOpen_closed _ (by simp), lastOpen_bumpN]; exact h.last
  · obtain ⟨k, h1, h2⟩ := h.index; exact ⟨k, h1, tyk _ h2⟩
  · obtain ⟨k, h1, h2⟩ := h.index
    exact ⟨k, by simp [Json.addString, retoken, h1], tyk _ h2⟩

/-- The token list of an opened container, after `n` elements with the tokens `ts`. -/
def opened (A : List Tok) (typ : Typ) (pos n : Nat) (ts : List Tok) : List Tok := A ++ ⟨typ, pos, none, n⟩ :: ts

theorem openTok_in (p : P) (typ : Typ) (pos : Nat) (ht : Cont (some typ)) :
    In (openTok p typ pos) p.toks.length := by
  have hl : (bumpSuper p p.toks).length = p.toks.length := by
    unfold bumpSuper; split <;> simp [bump]
  have ht' : ty (openTok p typ pos).toks p.toks.length = some typ := by
    simp [ty, openTok, ← hl]
  refine ⟨rfl, ?_, by rw [ht']; exact ht, ⟨_, rfl, by rw [ht']; exact ht⟩, ⟨_, rfl, by rw [ht']; exact ht⟩⟩
  simp only [openTok]
  rw [lastOpen_append]
  simp [lastOpen, hl]

/-- Closing a container inside another one. -/
theorem closeTok_in (A ts : List Tok) (typ : Typ) (start n pos s : Nat) (p : P) (hA : lastOpen A = some s)
    (hs : Cont (ty A s)) (hts : ∀ t ∈ ts, t.stop ≠ none)
    (hp : p.toks = opened A typ start n ts) (hi : In p A.length) :
    ∃ p', closeTok p typ pos = some p' ∧ p'.toks = A ++ ⟨typ, start, some (pos + 1), n⟩ :: ts ∧ In p' s := by
  have h1 : typAt p (some A.length) = some typ := by
    simp [typAt, hp, opened]
  have h2 : setStop A.length pos p.toks = A ++ ⟨typ, start, some (pos + 1), n⟩ :: ts := by
    rw [hp, opened, setStop, modify_mid]
  have h3 : lastOpen (A ++ ⟨typ, start, some (pos + 1), n⟩ :: ts) = some s := by
    rw [lastOpen_append, lastOpen_closed _ (by simpa using hts)]
    exact hA
  have h4 : Cont (ty (A ++ ⟨typ, start, some (pos + 1), n⟩ :: ts) s) := cont_append _ _ _ hs
  refine ⟨⟨setStop A.length pos p.toks, lastOpen (setStop A.length pos p.toks), p.index,
        some ((lastOpen (setStop A.length pos p.toks)).getD 0)⟩,
      by unfold closeTok; rw [hi.last]; simp only [h1, if_true], ?_, ?_⟩
  · exact h2
  · refine ⟨?_, ?_, ?_, ?_, ?_⟩
    · simp only [h2, h3]
    · simp only [h2, h3]
    · simp only [h2]; exact h4
    · obtain ⟨k, hk1, hk2⟩ := hi.index
      refine ⟨k, hk1, ?_⟩
      rw [ty_setStop]
      exact hk2
    · refine ⟨s, ?_, ?_⟩
      · simp only [h2, h3, Option.getD_some]
      · simp only [h2]; exact h4

/-! ### Strings and numbers -/

theorem u8_ge (n : Nat) (h1 : 128 ≤ n) (h2 : n < 256) : (128 : UInt8) ≤ UInt8.ofNat n := by
  rw [UInt8.le_iff_toNat_le]; simp; omega

/-- A character is one byte below 128 or several bytes of at least 128. -/
theorem enc_bytes (c : Char) : (c.toNat < 128 ∧ String.utf8EncodeChar c = [UInt8.ofNat c.toNat]) ∨
    (128 ≤ c.toNat ∧ ∀ x ∈ String.utf8EncodeChar c, (128 : UInt8) ≤ x) := by
  have e : c.val.toNat = c.toNat := rfl
  generalize hv : c.toNat = v at *
  unfold String.utf8EncodeChar
  simp only [e]
  by_cases h1 : v ≤ 0x7f
  · left; rw [if_pos h1]; exact ⟨by omega, rfl⟩
  · right
    refine ⟨by omega, ?_⟩
    rw [if_neg h1]
    intro x hx
    split at hx
    · simp only [List.mem_cons, List.not_mem_nil, or_false] at hx
      rcases hx with rfl | rfl <;> exact u8_ge _ (by omega) (by omega)
    split at hx
    · simp only [List.mem_cons, List.not_mem_nil, or_false] at hx
      rcases hx with rfl | rfl | rfl <;> exact u8_ge _ (by omega) (by omega)
    · simp only [List.mem_cons, List.not_mem_nil, or_false] at hx
      rcases hx with rfl | rfl | rfl | rfl <;> exact u8_ge _ (by omega) (by omega)

theorem scanStr_other {c : UInt8} (t : List UInt8) (h1 : c ≠ 34) (h2 : c ≠ 92) :
    scanStr (c :: t) = (scanStr t).map (· + 1) := by
  rw [scanStr.eq_def]; simp [h1, h2]

theorem scanStr_quote (t : List UInt8) : scanStr (34 :: t) = some 0 := by
  rw [scanStr.eq_def]; simp

theorem scanStr_plain (b r : List UInt8) (h : ∀ c ∈ b, c ≠ 34 ∧ c ≠ 92) :
    scanStr (b ++ r) = (scanStr r).map (· + b.length) := by
  induction b with
  | nil => simp
  | cons c b ih =>
    obtain ⟨h1, h2⟩ := h c (by simp)
    rw [List.cons_append, scanStr_other _ h1 h2, ih (fun x hx => h x (by simp [hx]))]
    cases scanStr r with
    | none => rfl
    | some n => simp; omega

theorem raw_bytes (c : Char) (h : 32 ≤ c.toNat ∧ c.toNat ≠ 34 ∧ c.toNat ≠ 92) :
    ∀ x ∈ String.utf8EncodeChar c, x ≠ 34 ∧ x ≠ 92 := by
  intro x hx
  rcases enc_bytes c with ⟨h1, h2⟩ | ⟨_, h2⟩
  · rw [h2] at hx
    simp only [List.mem_singleton] at hx
    subst hx
    constructor <;> (intro e; have := congrArg UInt8.toNat e; simp at this; omega)
  · have := h2 x hx
    constructor <;> (rintro rfl; exact absurd this (by decide))

theorem isHex_iff (c : UInt8) : Hex.isxdigit c = true ↔ IsHex c := by
  simp [Hex.isxdigit, Hex.isdigit, IsHex, or_assoc]

theorem hex_plain {c : UInt8} (h : IsHex c) : c ≠ 34 ∧ c ≠ 92 := by
  constructor <;> (rintro rfl; exact absurd ((isHex_iff _).2 h) (by decide))

theorem scanStr_u (a b c d : UInt8) (r : List UInt8) (ha : IsHex a) (hb : IsHex b) (hc : IsHex c) (hd : IsHex d) :
    scanStr (92 :: 117 :: a :: b :: c :: d :: r) = (scanStr r).map (· + 6) := by
  have h4 : hex4 (a :: b :: c :: d :: r) = true := by
    simp [hex4, (isHex_iff _).2 ha, (isHex_iff _).2 hb, (isHex_iff _).2 hc, (isHex_iff _).2 hd]
  have := scanStr_plain [a, b, c, d] r (by
    intro x hx
    simp only [List.mem_cons, List.not_mem_nil, or_false] at hx
    rcases hx with rfl | rfl | rfl | rfl <;> apply hex_plain <;> assumption)
  rw [scanStr, if_neg (by decide), if_pos rfl]
  simp only [h4, and_true, if_true]
  rw [if_neg (by decide)]
  simp only [List.cons_append, List.nil_append] at this
  rw [this]
  cases scanStr r <;> simp

theorem scanStr_piece (full : Bool) (p : Piece) (r : List UInt8) (h : p.Ok full) :
    scanStr (p.text ++ r) = (scanStr r).map (· + p.text.length) := by
  cases p with
  | raw c => exact scanStr_plain _ _ (raw_bytes c h)
  | esc e =>
    have h1 : e = 34 ∨ e = 47 ∨ e = 92 ∨ e = 98 ∨ e = 102 ∨ e = 114 ∨ e = 110 ∨ e = 116 := by
      have := h.1
      unfold escVal at this
      by_contra hn
      simp only [not_or] at hn
      simp [hn] at this
    simp only [Piece.text, List.cons_append, List.nil_append, List.length_cons, List.length_nil]
    rw [scanStr, if_neg (by decide), if_pos rfl]
    simp only [if_pos h1]
  | uni a b c d =>
    obtain ⟨ha, hb, hc, hd, _⟩ := h
    exact scanStr_u a b c d r ha hb hc hd
  | pair a b c d e f g i =>
    obtain ⟨_, ha, hb, hc, hd, he, hf, hg, hi, _⟩ := h
    simp only [Piece.text, List.cons_append, List.nil_append, List.length_cons, List.length_nil]
    rw [scanStr_u a b c d _ ha hb hc hd, scanStr_u e f g i _ he hf hg hi]
    cases scanStr r <;> simp

theorem scanStr_pieces (full : Bool) (s : List Piece) (rest : List UInt8) (h : ∀ p ∈ s, p.Ok full) :
    scanStr (ptext s ++ 34 :: rest) = some (ptext s).length := by
  induction s with
  | nil => simp [ptext, scanStr_quote]
  | cons p s ih =>
    have e : ptext (p :: s) = p.text ++ ptext s := by simp [ptext]
    rw [e, List.append_assoc, scanStr_piece full p _ (h p (by simp)), ih (fun x hx => h x (by simp [hx]))]
    simp; omega

theorem decNat_digits (n : Nat) : ∀ c ∈ decNat n, isdig c = true := by
  induction n using Nat.strongRecOn with
  | ind n ih =>
    have hd : ∀ k, k < 10 → isdig (UInt8.ofNat (48 + k)) = true := by decide +kernel
    intro c hc
    rw [decNat] at hc
    split at hc
    · rename_i h
      simp only [List.mem_singleton] at hc
      subst hc; exact hd n h
    · rename_i h
      simp only [List.mem_append, List.mem_singleton] at hc
      rcases hc with hc | hc
      · exact ih (n / 10) (by omega) c hc
      · subst hc; exact hd _ (by omega)

theorem decNat_ne (n : Nat) : decNat n ≠ [] := by
  rw [decNat]; split <;> simp

theorem dig_prim {c : UInt8} (h : isdig c = true) : primEnd false c = false ∧ 32 ≤ c ∧ c < 127 := by
  simp only [isdig, Bool.and_eq_true, decide_eq_true_eq] at h
  obtain ⟨h1, h2⟩ := h
  have a1 := UInt8.le_iff_toNat_le.1 h1
  have a2 := UInt8.le_iff_toNat_le.1 h2
  have n1 : (48 : UInt8).toNat = 48 := rfl
  have n2 : (57 : UInt8).toNat = 57 := rfl
  refine ⟨?_, UInt8.le_iff_toNat_le.2 (by simp; omega), UInt8.lt_iff_toNat_lt.2 (by simp; omega)⟩
  have ne : ∀ x : UInt8, (x.toNat < 48 ∨ 57 < x.toNat) → c ≠ x := by rintro x hx rfl; omega
  simp [primEnd, ne]

theorem dec_shape (n : Int) : ∃ c b, dec n = c :: b ∧ primStart c = true ∧
    (∀ x ∈ dec n, primEnd false x = false ∧ 32 ≤ x ∧ x < 127) := by
  have hall : ∀ x ∈ dec n, primEnd false x = false ∧ 32 ≤ x ∧ x < 127 := by
    intro x hx
    unfold dec at hx
    split at hx
    · simp only [List.mem_cons] at hx
      rcases hx with rfl | hx
      · decide
      · exact dig_prim (decNat_digits _ x hx)
    · exact dig_prim (decNat_digits _ x hx)
  by_cases hn : n < 0
  · exact ⟨45, decNat n.natAbs, by simp [dec, hn], by decide, hall⟩
  · cases e : decNat n.natAbs with
    | nil => exact absurd e (decNat_ne _)
    | cons c b =>
      refine ⟨c, b, by simp [dec, hn, e], ?_, hall⟩
      have := decNat_digits n.natAbs c (by rw [e]; simp)
      unfold primStart isdig at *
      simp at this ⊢; tauto

/-! ### The texts -/

theorem asc_null : asc "null" = [110, 117, 108, 108] := by decide
theorem asc_true : asc "true" = [116, 114, 117, 101] := by decide
theorem asc_false : asc "false" = [102, 97, 108, 115, 101] := by decide

theorem loop_word (strict q : Bool) (t rest : List UInt8) (pos : Nat) (p : P) (s : Nat) (hi : In p s) (he : Ends rest)
    (hs : ∃ c b, t = c :: b ∧ primStart c = true) (ht : ∀ x ∈ t, primEnd false x = false ∧ 32 ≤ x ∧ x < 127) :
    ∃ p', loop strict q pos p (t ++ rest) = loop strict q (pos + t.length) p' rest ∧
      p'.toks = bumpN s 1 p.toks ++ [⟨.prim, pos, some (pos + t.length), 0⟩] ∧ In p' s := by
  obtain ⟨c, b, rfl, hc⟩ := hs
  have h := scanPrim_spec strict (c :: b) rest ht he
  obtain ⟨h1, h2⟩ := hi.addPrim pos (b.length + 1)
  exact ⟨_, loop_prim strict q pos p c b rest hc h, h1, h2⟩

theorem loop_string (strict q full : Bool) (s : List Piece) (rest : List UInt8) (pos : Nat) (p : P) (k : Nat) (hi : In p k)
    (hs : ∀ x ∈ s, x.Ok full) :
    ∃ p', loop strict q pos p ([34] ++ ptext s ++ [34] ++ rest) = loop strict q (pos + ((ptext s).length + 2)) p' rest ∧
      p'.toks = bumpN k 1 p.toks ++ [⟨.string, pos + 1, some (pos + 1 + (ptext s).length), 0⟩] ∧ In p' k := by
  have h := scanStr_pieces full s rest hs
  obtain ⟨h1, h2⟩ := hi.addString q pos (ptext s).length
  refine ⟨_, ?_, h1, h2⟩
  have := loop_str strict q pos p (ptext s) rest h
  simpa [Nat.add_assoc] using this

mutual
theorem dtoks_closed : ∀ (d : Doc) (pos : Nat), ∀ t ∈ dtoks pos d, t.stop ≠ none
  | .null, _ | .true, _ | .false, _ | .num _, _ | .str _, _ | .arr0 _, _ | .obj0 _, _ => by simp [dtoks]
  | .arr e, pos => by
    have := etoks_closed e (pos + 1)
    simp only [dtoks, List.mem_cons]
    rintro t (rfl | h)
    · simp
    · exact this t h
  | .obj m, pos => by
    have := mtoks_closed m (pos + 1)
    simp only [dtoks, List.mem_cons]
    rintro t (rfl | h)
    · simp
    · exact this t h
theorem etoks_closed : ∀ (e : Els) (pos : Nat), ∀ t ∈ etoks pos e, t.stop ≠ none
  | .one w1 d w2, pos => by simp only [etoks]; exact dtoks_closed d _
  | .cons w1 d w2 e, pos => by
    simp only [etoks, List.mem_append]
    rintro t (h | h)
    · exact dtoks_closed d _ t h
    · exact etoks_closed e _ t h
theorem mtoks_closed : ∀ (m : Mems) (pos : Nat), ∀ t ∈ mtoks pos m, t.stop ≠ none
  | .one w1 k w2 w3 d w4, pos => by
    simp only [mtoks, List.mem_cons]
    rintro t (rfl | h)
    · simp
    · exact dtoks_closed d _ t h
  | .cons w1 k w2 w3 d w4 m, pos => by
    simp only [mtoks, List.mem_cons, List.mem_append]
    rintro t (rfl | h | h)
    · simp
    · exact dtoks_closed d _ t h
    · exact mtoks_closed m _ t h
end

/-- A container around a body that has been tokenised. -/
theorem loop_container (strict q ar : Bool) (body rest : List UInt8) (pos : Nat) (p : P) (s : Nat) (hi : In p s) (n : Nat)
    (ts : List Tok) (hts : ∀ t ∈ ts, t.stop ≠ none)
    (hb : ∀ p1 : P, In p1 p.toks.length → p1.toks = bumpN s 1 p.toks ++ [⟨if ar then .array else .object, pos, none, 0⟩] →
      ∃ p2, loop strict q (pos + 1) p1 (body ++ (if ar then 93 else 125) :: rest) =
          loop strict q (pos + 1 + body.length) p2 ((if ar then 93 else 125) :: rest) ∧
        p2.toks = bumpN p.toks.length n p1.toks ++ ts ∧ In p2 p.toks.length) :
    ∃ p', loop strict q pos p ((if ar then 91 else 123) :: (body ++ (if ar then 93 else 125) :: rest)) =
        loop strict q (pos + 1 + body.length + 1) p' rest ∧
      p'.toks = bumpN s 1 p.toks ++ ⟨if ar then .array else .object, pos, some (pos + 1 + body.length + 1), n⟩ :: ts ∧ In p' s := by
  have h1 : (openTok p (if ar then .array else .object) pos).toks =
      bumpN s 1 p.toks ++ [⟨if ar then .array else .object, pos, none, 0⟩] := by
    simp only [openTok, bumpSuper, hi.super, bump_eq]
  have h2 := openTok_in p (if ar then .array else .object) pos (by cases ar <;> trivial)
  obtain ⟨p2, e2, t2, i2⟩ := hb _ h2 h1
  have hlen : (bumpN s 1 p.toks).length = p.toks.length := bumpN_length _ _ _
  have t2' : p2.toks = opened (bumpN s 1 p.toks) (if ar then .array else .object) pos n ts := by
    have : bumpN p.toks.length n (bumpN s 1 p.toks ++ [⟨if ar then .array else .object, pos, none, 0⟩]) =
        bumpN s 1 p.toks ++ [⟨if ar then .array else .object, pos, none, n⟩] := by
      rw [← hlen]
      unfold bumpN
      rw [modify_mid]
      simp
    rw [t2, h1, this]
    simp [opened]
  obtain ⟨p3, e3, t3, i3⟩ := closeTok_in (bumpN s 1 p.toks) ts (if ar then .array else .object) pos n
    (pos + 1 + body.length) s p2 (by rw [lastOpen_bumpN]; exact hi.last) (by rw [ty_bumpN]; exact hi.scont) hts t2'
    (by rw [hlen]; exact i2)
  refine ⟨p3, ?_, t3, i3⟩
  rw [loop_open, e2, loop_close strict q ar _ p2 rest p3 e3]

mutual
/-- A value inside a container. -/
theorem loop_doc (strict q full : Bool) : ∀ (d : Doc) (rest : List UInt8) (pos : Nat) (p : P) (s : Nat), d.Ok full →
    In p s → Ends rest →
    ∃ p', loop strict q pos p (d.text ++ rest) = loop strict q (pos + d.text.length) p' rest ∧
      p'.toks = bumpN s 1 p.toks ++ dtoks pos d ∧ In p' s
  | .null, rest, pos, p, s, _, hi, he => by
    have := loop_word strict q (asc "null") rest pos p s hi he ⟨_, _, asc_null, by decide⟩ (by decide +kernel)
    exact this
  | .true, rest, pos, p, s, _, hi, he => by
    have := loop_word strict q (asc "true") rest pos p s hi he ⟨_, _, asc_true, by decide⟩ (by decide +kernel)
    exact this
  | .false, rest, pos, p, s, _, hi, he => by
    have := loop_word strict q (asc "false") rest pos p s hi he ⟨_, _, asc_false, by decide⟩ (by decide +kernel)
    exact this
  | .num n, rest, pos, p, s, _, hi, he => by
    obtain ⟨c, b, h1, h2, h3⟩ := dec_shape n
    exact loop_word strict q (dec n) rest pos p s hi he ⟨c, b, h1, h2⟩ h3
  | .str x, rest, pos, p, s, hd, hi, he => by
    simp only [Doc.Ok] at hd
    obtain ⟨p', h1, h2, h3⟩ := loop_string strict q full x rest pos p s hi hd
    refine ⟨p', ?_, h2, h3⟩
    simp only [Doc.text]
    rw [h1]
    congr 1
    simp
  | .arr0 w, rest, pos, p, s, hd, hi, he => by
    simp only [Doc.Ok] at hd
    obtain ⟨p', h1, h2, h3⟩ := loop_container strict q Bool.true w rest pos p s hi 0 [] (by simp) (by
      intro p1 i1 t1
      refine ⟨p1, loop_ws strict q w _ hd _ _, ?_, i1⟩
      have : ∀ l : List Tok, ∀ i, bumpN i 0 l = l := by
        intro l i; unfold bumpN; exact List.modify_id i l
      rw [this]; simp)
    refine ⟨p', ?_, h2, h3⟩
    simp only [Doc.text, if_true, List.cons_append, List.nil_append, List.append_assoc] at h1 ⊢
    rw [h1]
    congr 1
    simp; omega
  | .obj0 w, rest, pos, p, s, hd, hi, he => by
    simp only [Doc.Ok] at hd
    obtain ⟨p', h1, h2, h3⟩ := loop_container strict q Bool.false w rest pos p s hi 0 [] (by simp) (by
      intro p1 i1 t1
      refine ⟨p1, loop_ws strict q w _ hd _ _, ?_, i1⟩
      have : ∀ l : List Tok, ∀ i, bumpN i 0 l = l := by
        intro l i; unfold bumpN; exact List.modify_id i l
      rw [this]; simp)
    refine ⟨p', ?_, h2, h3⟩
    simp only [Doc.text, Bool.false_eq_true, if_false, List.cons_append, List.nil_append, List.append_assoc] at h1 ⊢
    rw [h1]
    congr 1
    simp; omega
  | .arr e, rest, pos, p, s, hd, hi, he => by
    simp only [Doc.Ok] at hd
    obtain ⟨p', h1, h2, h3⟩ := loop_container strict q Bool.true e.text rest pos p s hi e.count (etoks (pos + 1) e)
      (etoks_closed e _) (by
        intro p1 i1 t1
        exact loop_els strict q full e _ (pos + 1) p1 _ hd i1 ⟨93, rest, rfl, by decide⟩)
    refine ⟨p', ?_, h2, h3⟩
    simp only [Doc.text, if_true, List.cons_append, List.nil_append, List.append_assoc] at h1 ⊢
    rw [h1]
    congr 1
    simp; omega
  | .obj m, rest, pos, p, s, hd, hi, he => by
    simp only [Doc.Ok] at hd
    obtain ⟨p', h1, h2, h3⟩ := loop_container strict q Bool.false m.text rest pos p s hi m.count (mtoks (pos + 1) m)
      (mtoks_closed m _) (by
        intro p1 i1 t1
        refine loop_mems strict q full m _ (pos + 1) p1 _ hd i1 ?_ ⟨125, rest, rfl, by decide⟩
        rw [t1, ← bumpN_length s 1 p.toks]
        simp [ty])
    refine ⟨p', ?_, h2, h3⟩
    simp only [Doc.text, Bool.false_eq_true, if_false, List.cons_append, List.nil_append, List.append_assoc] at h1 ⊢
    rw [h1]
    congr 1
    simp; omega
theorem loop_els (strict q full : Bool) : ∀ (e : Els) (rest : List UInt8) (pos : Nat) (p : P) (s : Nat), e.Ok full →
    In p s → Ends rest →
    ∃ p', loop strict q pos p (e.text ++ rest) = loop strict q (pos + e.text.length) p' rest ∧
      p'.toks = bumpN s e.count p.toks ++ etoks pos e ∧ In p' s
  | .one w1 d w2, rest, pos, p, s, he, hi, hr => by
    simp only [Els.Ok] at he
    obtain ⟨h1, h2, h3⟩ := he
    obtain ⟨p', e1, t1, i1⟩ := loop_doc strict q full d (w2 ++ rest) (pos + w1.length) p s h2 hi (hr.ws h3)
    refine ⟨p', ?_, t1, i1⟩
    simp only [Els.text, List.append_assoc]
    rw [loop_ws strict q w1 _ h1, e1, loop_ws strict q w2 _ h3]
    congr 1
    simp; omega
  | .cons w1 d w2 t, rest, pos, p, s, he, hi, hr => by
    simp only [Els.Ok] at he
    obtain ⟨h1, h2, h3, h4⟩ := he
    obtain ⟨p1, e1, t1, i1⟩ := loop_doc strict q full d (w2 ++ ([44] ++ (t.text ++ rest))) (pos + w1.length) p s h2 hi
      (Ends.ws h3 ⟨44, _, rfl, by decide⟩)
    obtain ⟨p2, e2, t2, i2⟩ := loop_els strict q full t rest (pos + w1.length + d.text.length + w2.length + 1) p1 s h4 i1 hr
    refine ⟨p2, ?_, ?_, i2⟩
    · simp only [Els.text, List.append_assoc]
      rw [loop_ws strict q w1 _ h1, e1, loop_ws strict q w2 _ h3]
      rw [List.cons_append, List.nil_append, loop_comma _ _ _ _ _ (comma_ok i1), e2]
      congr 1
      simp; omega
    · rw [t2, t1, bumpN_append _ _ _ _ (by rw [bumpN_length]; exact hi.lt), bumpN_bumpN]
      simp only [etoks, Els.count, List.append_assoc]
      rw [Nat.add_comm 1]
theorem loop_mems (strict q full : Bool) : ∀ (m : Mems) (rest : List UInt8) (pos : Nat) (p : P) (s : Nat), m.Ok full →
    In p s → ty p.toks s = some .object → Ends rest →
    ∃ p', loop strict q pos p (m.text ++ rest) = loop strict q (pos + m.text.length) p' rest ∧
      p'.toks = bumpN s m.count p.toks ++ mtoks pos m ∧ In p' s
  | .one w1 k w2 w3 d w4, rest, pos, p, s, he, hi, ho, hr => by
    simp only [Mems.Ok] at he
    obtain ⟨h1, h2, h3, h4, h5, h6⟩ := he
    obtain ⟨p1, e1, t1, i1⟩ := loop_string strict q full k (w2 ++ ([58] ++ (w3 ++ (d.text ++ (w4 ++ rest))))) (pos + w1.length)
      p s hi h2.1
    have ho1 : ty p1.toks s = some .object := by
      rw [t1]; apply ty_append; rw [ty_bumpN]; exact ho
    obtain ⟨p2, e2, t2, i2⟩ := loop_doc strict q full d (w4 ++ rest) (pos + (memHead w1 k w2 w3).length) p1 s h5 i1 (hr.ws h6)
    refine ⟨p2, ?_, ?_, i2⟩
    · simp only [Mems.text, memHead, List.append_assoc] at e1 e2 ⊢
      rw [loop_ws strict q w1 _ h1, e1, loop_ws strict q w2 _ h3, List.cons_append, List.nil_append,
        loop_colon _ _ _ _ _ (comma_ok i1) (colon_ok i1 ho1), loop_ws strict q w3 _ h4]
      have e : pos + w1.length + ((ptext k).length + 2) + w2.length + 1 + w3.length =
        pos + (w1 ++ ([34] ++ (ptext k ++ ([34] ++ (w2 ++ ([58] ++ w3)))))).length := by simp; omega
      rw [e, e2, loop_ws strict q w4 _ h6]
      congr 1
      simp; omega
    · rw [t2, t1, bumpN_append _ _ _ _ (by rw [bumpN_length]; exact hi.lt), bumpN_bumpN]
      simp only [mtoks, Mems.count, List.append_assoc, List.cons_append, List.nil_append]
  | .cons w1 k w2 w3 d w4 m, rest, pos, p, s, he, hi, ho, hr => by
    simp only [Mems.Ok] at he
    obtain ⟨h1, h2, h3, h4, h5, h6, h7⟩ := he
    obtain ⟨p1, e1, t1, i1⟩ := loop_string strict q full k
      (w2 ++ ([58] ++ (w3 ++ (d.text ++ (w4 ++ ([44] ++ (m.text ++ rest))))))) (pos + w1.length) p s hi h2.1
    have ho1 : ty p1.toks s = some .object := by
      rw [t1]; apply ty_append; rw [ty_bumpN]; exact ho
    obtain ⟨p2, e2, t2, i2⟩ := loop_doc strict q full d (w4 ++ ([44] ++ (m.text ++ rest)))
      (pos + (memHead w1 k w2 w3).length) p1 s h5 i1 (Ends.ws h6 ⟨44, _, rfl, by decide⟩)
    have ho2 : ty p2.toks s = some .object := by
      rw [t2]; apply ty_append; rw [ty_bumpN]; exact ho1
    obtain ⟨p3, e3, t3, i3⟩ := loop_mems strict q full m rest
      (pos + (memHead w1 k w2 w3).length + d.text.length + w4.length + 1) p2 s h7 i2 ho2 hr
    refine ⟨p3, ?_, ?_, i3⟩
    · simp only [Mems.text, memHead, List.append_assoc] at e1 e2 e3 ⊢
      rw [loop_ws strict q w1 _ h1, e1, loop_ws strict q w2 _ h3, List.cons_append, List.nil_append,
        loop_colon _ _ _ _ _ (comma_ok i1) (colon_ok i1 ho1), loop_ws strict q w3 _ h4]
      have e : pos + w1.length + ((ptext k).length + 2) + w2.length + 1 + w3.length =
        pos + (w1 ++ ([34] ++ (ptext k ++ ([34] ++ (w2 ++ ([58] ++ w3)))))).length := by simp; omega
      have hc : ∀ pos, loop strict q pos p2 ([44] ++ (m.text ++ rest)) = loop strict q (pos + 1) p2 (m.text ++ rest) :=
        fun pos => loop_comma _ _ _ _ _ (comma_ok i2)
      rw [e, e2, loop_ws strict q w4 _ h6, hc, e3]
      congr 1
      simp; omega
    · have lt := hi.lt
      have lt1 : s < (bumpN s 1 p.toks).length := by rw [bumpN_length]; exact lt
      rw [t3, t2, bumpN_append _ _ _ _ (by rw [bumpN_length]; exact i1.lt), bumpN_bumpN, t1,
        bumpN_append _ _ _ _ lt1, bumpN_bumpN]
      simp only [mtoks, Mems.count, List.append_assoc, List.cons_append, List.nil_append]
      rw [show 1 + (1 + m.count) = m.count + 2 by omega]
end

end Verif.Json
