import Verif.Glob.Model
import Verif.Utf8.Props
import Mathlib.Data.List.TakeWhile

/-!
C24: glob patterns.  The specification: a pattern is a list of items, `render` writes it, `Lang` says which
texts it stands for.
-/

namespace Verif.Glob

open Verif.Utf8

/-- One entry of a character set. -/
inductive SetItem where
  | one (c : Char)
  | range (a b : Char)

/-- One item of a pattern; a set can be negated (`[^...]`). -/
inductive Item where
  | lit (c : Char)
  | any
  | star
  | set (neg : Bool) (l : List SetItem)

/-- Without case, letters are compared in upper case. -/
def fold (nocase : Bool) (c : Char) : Char := if nocase then c.toUpper else c

/-- The set contains the character; the ends of a range may be in either order. -/
def SetItem.has (nocase : Bool) (c : Char) : SetItem → Prop
  | .one a => fold nocase a = fold nocase c
  | .range a b =>
    (fold nocase a ≤ fold nocase c ∧ fold nocase c ≤ fold nocase b) ∨
    (fold nocase b ≤ fold nocase c ∧ fold nocase c ≤ fold nocase a)

/-- `Lang p s`: the text `s` matches the pattern `p`. -/
inductive Lang (nocase : Bool) : List Item → List Char → Prop
  | nil : Lang nocase [] []
  | lit (c d : Char) (p : List Item) (s : List Char) : fold nocase c = fold nocase d → Lang nocase p s →
      Lang nocase (.lit c :: p) (d :: s)
  | any (d : Char) (p : List Item) (s : List Char) : Lang nocase p s → Lang nocase (.any :: p) (d :: s)
  | set (neg : Bool) (l : List SetItem) (d : Char) (p : List Item) (s : List Char) :
      (neg = false ↔ ∃ i ∈ l, i.has nocase d) → Lang nocase p s → Lang nocase (.set neg l :: p) (d :: s)
  | star0 (p : List Item) (s : List Char) : Lang nocase p s → Lang nocase (.star :: p) s
  | star1 (d : Char) (p : List Item) (s : List Char) : Lang nocase (.star :: p) s → Lang nocase (.star :: p) (d :: s)

/-- How a set entry is written. -/
def SetItem.text : SetItem → List Char
  | .one c => [c]
  | .range a b => [a, '-', b]

/-- How an item is written: special characters with a backslash. -/
def Item.text : Item → List Char
  | .lit c => if c = '*' ∨ c = '?' ∨ c = '[' ∨ c = '\\' then ['\\', c] else [c]
  | .any => ['?']
  | .star => ['*']
  | .set neg l => '[' :: (if neg then ['^'] else []) ++ l.flatMap SetItem.text ++ [']']

/-- How a pattern is written. -/
def render (p : List Item) : List Char := p.flatMap Item.text

/-- Characters that have no meaning of their own in a set. -/
def plain (c : Char) : Prop := c.toNat ≠ 0 ∧ c ≠ ']' ∧ c ≠ '\\' ∧ c ≠ '-' ∧ c ≠ '^'

/-- The entry uses plain characters. -/
def SetItem.ok : SetItem → Prop
  | .one c => plain c
  | .range a b => plain a ∧ plain b

/-- The item can be written, and is not a negated set. -/
def Item.ok : Item → Prop
  | .lit c => c.toNat ≠ 0
  | .set neg l => neg = false ∧ ∀ i ∈ l, i.ok
  | _ => True

/-! ### reading characters -/

theorem toUpper_toNat (c : Char) : c.toUpper.toNat = toupper c.toNat := by
  by_cases h : c.toNat < 128
  · have key : ∀ n : Fin 128, (Char.ofNat n.1).toUpper.toNat = toupper n.1 := by decide +kernel
    have := key ⟨c.toNat, h⟩
    simpa [Char.ofNat_toNat] using this
  · have hv : c.val.toNat = c.toNat := rfl
    unfold Char.toUpper toupper
    rw [if_neg (by omega)]
    split
    · rename_i h1
      exfalso
      have := UInt32.le_iff_toNat_le.1 h1.2
      simp at this; omega
    · rfl

theorem fold_toNat (nocase : Bool) (c : Char) : (fold nocase c).toNat = if nocase then toupper c.toNat else c.toNat := by
  unfold fold
  cases nocase
  · rfl
  · simp [toUpper_toNat]

theorem uniCase_enc (nocase : Bool) (c : Char) (r : List UInt8) :
    uniCase nocase (String.utf8EncodeChar c ++ r) = some ((fold nocase c).toNat, (String.utf8EncodeChar c).length) := by
  unfold uniCase
  rw [utfToUniChar_enc]
  simp only [Option.map_some, fold_toNat]
  congr 2
  cases nocase
  · simp
  · simp only [true_and, if_true]
    split
    · rfl
    · unfold toupper; rw [if_neg (by omega)]

theorem adv_enc (c : Char) (r : List UInt8) : adv (String.utf8EncodeChar c ++ r) (String.utf8EncodeChar c).length = some r := by
  unfold adv
  rw [if_pos (by simp), List.drop_left' rfl]

theorem rdC_nil : rdC [] 0 = some 0 := by decide

theorem rdC_cons (b : UInt8) (s : List UInt8) : rdC (b :: s) 0 = some b := by simp [rdC]

/-- The first byte of a character that is not NUL is not NUL. -/
theorem rdC_enc (c : Char) (hc : c.toNat ≠ 0) (r : List UInt8) : ∃ b, rdC (String.utf8EncodeChar c ++ r) 0 = some b ∧ b ≠ 0 := by
  obtain ⟨b, t, he, hb, -⟩ := enc1_shape c hc
  exact ⟨b, by rw [he, List.cons_append, rdC_cons], hb⟩

/-- The first byte of a character tells it apart from any ASCII character. -/
theorem first_byte (c : Char) (a : Char) (ha : a.toNat < 128) (r : List UInt8) {b : UInt8}
    (h : rdC (String.utf8EncodeChar c ++ r) 0 = some b) : b = UInt8.ofNat a.toNat ↔ c = a := by
  have hu := utfToUniChar_enc c r
  have key : ∀ n : Fin 128, UInt8.ofNat n.1 < 0xc0 ∧ (UInt8.ofNat n.1).toNat = n.1 ∧
      String.utf8EncodeChar (Char.ofNat n.1) = [UInt8.ofNat n.1] := by decide +kernel
  constructor
  · intro hb
    subst hb
    unfold utfToUniChar at hu
    rw [h] at hu
    have k := key ⟨a.toNat, ha⟩
    simp only [Option.bind_some, k.1, if_true, k.2.1, Option.some.injEq, Prod.mk.injEq] at hu
    exact Char.ext (UInt32.toNat_inj.1 hu.1.symm)
  · rintro rfl
    have k := key ⟨c.toNat, ha⟩
    rw [Char.ofNat_toNat] at k
    rw [k.2.2, List.singleton_append, rdC_cons] at h
    exact (Option.some.inj h).symm

theorem first_byte_ne (c : Char) (a : Char) (ha : a.toNat < 128) (hne : c ≠ a) (r : List UInt8) {b : UInt8}
    (h : rdC (String.utf8EncodeChar c ++ r) 0 = some b) : b ≠ UInt8.ofNat a.toNat :=
  fun hb => hne ((first_byte c a ha r h).1 hb)

/-! ### sets -/

theorem inRange_iff (nocase : Bool) (c a b : Char) :
    inRange (fold nocase c).toNat (fold nocase a).toNat (fold nocase b).toNat = true ↔ (SetItem.range a b).has nocase c := by
  unfold inRange SetItem.has
  simp only [Char.le_def, UInt32.le_iff_toNat_le, Bool.or_eq_true, Bool.and_eq_true, decide_eq_true_eq, ge_iff_le]
  exact Iff.rfl

theorem one_iff (nocase : Bool) (c a : Char) :
    ((fold nocase a).toNat == (fold nocase c).toNat) = true ↔ (SetItem.one a).has nocase c := by
  unfold SetItem.has
  simp only [beq_iff_eq]
  constructor
  · intro h; exact Char.ext (UInt32.toNat_inj.1 h)
  · intro h; rw [h]

/-- The bytes of the rest of a set after some entries: the text of the others, the bracket, the rest of the pattern. -/
def setRest (l : List SetItem) (r : List UInt8) : List UInt8 := enc (l.flatMap SetItem.text) ++ 93 :: r

theorem enc_append (a b : List Char) : enc (a ++ b) = enc a ++ enc b := by simp [enc]

theorem setRest_one (c : Char) (l : List SetItem) (r : List UInt8) :
    setRest (.one c :: l) r = String.utf8EncodeChar c ++ setRest l r := by
  unfold setRest
  rw [List.flatMap_cons, enc_append, SetItem.text, List.append_assoc]
  simp [enc]

theorem setRest_range (a b : Char) (l : List SetItem) (r : List UInt8) :
    setRest (.range a b :: l) r = String.utf8EncodeChar a ++ (String.utf8EncodeChar '-' ++ (String.utf8EncodeChar b ++ setRest l r)) := by
  unfold setRest
  rw [List.flatMap_cons, enc_append, SetItem.text, List.append_assoc]
  simp [enc]

theorem setRest_first (l : List SetItem) (r : List UInt8) (hl : ∀ i ∈ l, i.ok) :
    ∃ b, rdC (setRest l r) 0 = some b ∧ b ≠ 45 ∧ b ≠ 0 := by
  have hdash : ('-').toNat < 128 := by decide
  cases l with
  | nil => exact ⟨93, by simp [setRest, enc, rdC], by decide, by decide⟩
  | cons i l =>
    have hi := hl i (by simp)
    cases i with
    | one c =>
      rw [setRest_one]
      obtain ⟨b, hb, h0⟩ := rdC_enc c hi.1 (setRest l r)
      exact ⟨b, hb, first_byte_ne c '-' hdash hi.2.2.2.1 _ hb, h0⟩
    | range a c =>
      rw [setRest_range]
      obtain ⟨b, hb, h0⟩ := rdC_enc a hi.1.1 (String.utf8EncodeChar '-' ++ (String.utf8EncodeChar c ++ setRest l r))
      exact ⟨b, hb, first_byte_ne a '-' hdash hi.1.2.2.2.1 _ hb, h0⟩

theorem dash_enc : String.utf8EncodeChar '-' = [45] := by decide +kernel

theorem charsetLoop_eq (nocase : Bool) (c : Char) (r : List UInt8) : ∀ (l : List SetItem) (fuel : Nat) (m : Bool),
    (∀ i ∈ l, i.ok) → (setRest l r).length < fuel →
    ∃ m', charsetLoop nocase (fold nocase c).toNat fuel m (setRest l r) = some (if m' then some (93 :: r) else none) ∧
      (m' = true ↔ (m = true ∨ ∃ i ∈ l, i.has nocase c))
  | [], fuel, m, _, hf => by
    obtain ⟨f, rfl⟩ : ∃ f, fuel = f + 1 := ⟨fuel - 1, by omega⟩
    refine ⟨m, ?_, by simp⟩
    have : setRest [] r = 93 :: r := by simp [setRest, enc]
    rw [this, charsetLoop, rdC_cons]
    rfl
  | .one a :: l, fuel, m, hl, hf => by
    obtain ⟨f, rfl⟩ : ∃ f, fuel = f + 1 := ⟨fuel - 1, by omega⟩
    have hi : plain a := hl (.one a) (by simp)
    have hl2 : ∀ i ∈ l, i.ok := fun i hi => hl i (List.mem_cons_of_mem _ hi)
    rw [setRest_one] at hf ⊢
    have hp := List.length_pos_iff.2 (encChar_ne_nil' a)
    rw [List.length_append] at hf
    obtain ⟨m', h1, h2⟩ := charsetLoop_eq nocase c r l f (m || (fold nocase a).toNat == (fold nocase c).toNat) hl2 (by omega)
    refine ⟨m', ?_, ?_⟩
    · obtain ⟨b, hb, h0⟩ := rdC_enc a hi.1 (setRest l r)
      have hb1 := first_byte_ne a ']' (by decide) hi.2.1 _ hb
      have hb2 : b ≠ 92 := first_byte_ne a '\\' (by decide) hi.2.2.1 _ hb
      obtain ⟨d, hd, hd1, -⟩ := setRest_first l r hl2
      rw [charsetLoop, hb]
      simp only [Option.bind_eq_bind, Option.bind_some]
      rw [if_neg (by rintro (h | h); exact h0 h; exact hb1 h), if_neg hb2, uniCase_enc]
      simp only [Option.bind_some]
      rw [adv_enc]
      simp only [Option.bind_some]
      rw [hd]
      simp only [Option.bind_some]
      rw [if_neg hd1]
      rw [if_neg (fun h => hd1 h.1)]
      exact h1
    · rw [h2, Bool.or_eq_true, one_iff]
      simp only [List.mem_cons, exists_eq_or_imp]
      exact or_assoc
  | .range a b :: l, fuel, m, hl, hf => by
    obtain ⟨f, rfl⟩ : ∃ f, fuel = f + 1 := ⟨fuel - 1, by omega⟩
    have hi : plain a ∧ plain b := hl (.range a b) (by simp)
    have hl2 : ∀ i ∈ l, i.ok := fun i hi => hl i (List.mem_cons_of_mem _ hi)
    rw [setRest_range] at hf ⊢
    have hp := List.length_pos_iff.2 (encChar_ne_nil' a)
    rw [List.length_append, List.length_append, List.length_append] at hf
    obtain ⟨m', h1, h2⟩ := charsetLoop_eq nocase c r l f
      (m || inRange (fold nocase c).toNat (fold nocase a).toNat (fold nocase b).toNat) hl2 (by omega)
    refine ⟨m', ?_, ?_⟩
    · obtain ⟨x, hx, h0⟩ := rdC_enc a hi.1.1 (String.utf8EncodeChar '-' ++ (String.utf8EncodeChar b ++ setRest l r))
      have hb1 := first_byte_ne a ']' (by decide) hi.1.2.1 _ hx
      have hb2 : x ≠ 92 := first_byte_ne a '\\' (by decide) hi.1.2.2.1 _ hx
      obtain ⟨y, hy, hy0⟩ := rdC_enc b hi.2.1 (setRest l r)
      rw [charsetLoop, hx]
      simp only [Option.bind_eq_bind, Option.bind_some]
      rw [if_neg (by rintro (h | h); exact h0 h; exact hb1 h), if_neg hb2, uniCase_enc]
      simp only [Option.bind_some]
      rw [adv_enc]
      simp only [Option.bind_some]
      have hd : rdC (String.utf8EncodeChar '-' ++ (String.utf8EncodeChar b ++ setRest l r)) 0 = some 45 := by
        rw [dash_enc, List.singleton_append, rdC_cons]
      have hd1 : rdC (String.utf8EncodeChar '-' ++ (String.utf8EncodeChar b ++ setRest l r)) 1 = some y := by
        rw [dash_enc, List.singleton_append]
        have : ∀ (q : UInt8) (z : List UInt8), rdC (q :: z) 1 = rdC z 0 := by
          intro q z; cases z <;> simp [rdC]
        rw [this]; exact hy
      rw [hd]
      simp only [Option.bind_some, if_true]
      rw [hd1]
      simp only [Option.bind_some]
      rw [if_pos ⟨trivial, hy0⟩, utfToUniChar_enc]
      simp only [Option.bind_some]
      rw [adv_enc]
      simp only [Option.bind_some]
      rw [uniCase_enc]
      simp only [Option.bind_some]
      rw [adv_enc]
      exact h1
    · rw [h2, Bool.or_eq_true, inRange_iff]
      simp only [List.mem_cons, exists_eq_or_imp]
      exact or_assoc
where
  encChar_ne_nil' (c : Char) : String.utf8EncodeChar c ≠ [] := by
    intro h
    have := utfToUniChar_enc c []
    rw [h] at this
    simp [utfToUniChar, rdC] at this

theorem charset_eq (nocase : Bool) (c : Char) (l : List SetItem) (r : List UInt8) (hl : ∀ i ∈ l, i.ok) :
    ∃ m, charset nocase (setRest l r) c.toNat = some (if m then some (93 :: r) else none) ∧
      (m = true ↔ ∃ i ∈ l, i.has nocase c) := by
  obtain ⟨m, h1, h2⟩ := charsetLoop_eq nocase c r l ((setRest l r).length + 1) false hl (by omega)
  refine ⟨m, ?_, by simpa using h2⟩
  rw [← h1]
  unfold charset
  rw [fold_toNat]

theorem encChar_ne_nil (c : Char) : String.utf8EncodeChar c ≠ [] := charsetLoop_eq.encChar_ne_nil' c

/-- On the NUL nothing is in a set. -/
theorem has_nul (nocase : Bool) (i : SetItem) (hi : i.ok) : ¬ i.has nocase (Char.ofNat 0) := by
  have h0 : (fold nocase (Char.ofNat 0)).toNat = 0 := by cases nocase <;> decide
  have hp : ∀ c : Char, plain c → 0 < (fold nocase c).toNat := by
    intro c hc
    have := hc.1
    rw [fold_toNat]
    unfold toupper
    split <;> (try split) <;> omega
  cases i with
  | one a =>
    intro h
    have h1 : fold nocase a = fold nocase (Char.ofNat 0) := h
    have := hp a hi
    rw [h1, h0] at this; omega
  | range a b =>
    intro h
    have h1 := hp a hi.1
    have h2 := hp b hi.2
    simp only [SetItem.has, Char.le_def, UInt32.le_iff_toNat_le] at h
    have e1 : (fold nocase a).val.toNat = (fold nocase a).toNat := rfl
    have e2 : (fold nocase b).val.toNat = (fold nocase b).toNat := rfl
    have e3 : (fold nocase (Char.ofNat 0)).val.toNat = (fold nocase (Char.ofNat 0)).toNat := rfl
    omega

/-! ### the language -/

/-- The item is a star. -/
def isStar : Item → Bool
  | .star => true
  | _ => false

theorem lang_nil_iff (nocase : Bool) (p : List Item) : Lang nocase p [] ↔ p.dropWhile isStar = [] := by
  constructor
  · intro h
    generalize hs : ([] : List Char) = s at h
    induction h with
    | nil => rfl
    | lit => cases hs
    | any => cases hs
    | set => cases hs
    | star0 p s _ ih => rw [List.dropWhile_cons_of_pos (by rfl)]; exact ih hs
    | star1 => cases hs
  · intro h
    induction p with
    | nil => exact .nil
    | cons i p ih =>
      cases i with
      | star =>
        rw [List.dropWhile_cons_of_pos (by rfl)] at h
        exact .star0 _ _ (ih h)
      | lit c => rw [List.dropWhile_cons_of_neg (by simp [isStar])] at h; cases h
      | any => rw [List.dropWhile_cons_of_neg (by simp [isStar])] at h; cases h
      | set n l => rw [List.dropWhile_cons_of_neg (by simp [isStar])] at h; cases h

theorem lang_star (nocase : Bool) (p : List Item) (s : List Char) :
    Lang nocase (.star :: p) s ↔ ∃ t, t <:+ s ∧ Lang nocase p t := by
  constructor
  · intro h
    generalize hq : (Item.star :: p) = q at h
    induction h with
    | nil => cases hq
    | lit => cases hq
    | any => cases hq
    | set => cases hq
    | star0 p' s h _ => cases hq; exact ⟨s, List.suffix_refl _, h⟩
    | star1 d p' s _ ih =>
      cases hq
      obtain ⟨t, ht, h⟩ := ih rfl
      exact ⟨t, ht.trans (List.suffix_cons d s), h⟩
  · rintro ⟨t, ⟨a, rfl⟩, h⟩
    induction a with
    | nil => exact .star0 _ _ h
    | cons x a ih => exact .star1 _ _ _ ih

theorem lang_stars (nocase : Bool) (p : List Item) (s : List Char) :
    Lang nocase (.star :: p) s ↔ ∃ t, t <:+ s ∧ Lang nocase (p.dropWhile isStar) t := by
  induction p generalizing s with
  | nil => exact lang_star nocase [] s
  | cons i p ih =>
    cases i with
    | star =>
      rw [List.dropWhile_cons_of_pos (by rfl), lang_star]
      constructor
      · rintro ⟨t, ht, h⟩
        obtain ⟨u, hu, h2⟩ := (ih t).1 h
        exact ⟨u, hu.trans ht, h2⟩
      · rintro ⟨u, hu, h⟩
        exact ⟨s, List.suffix_refl _, (ih s).2 ⟨u, hu, h⟩⟩
    | lit c => rw [List.dropWhile_cons_of_neg (by simp [isStar])]; exact lang_star _ _ _
    | any => rw [List.dropWhile_cons_of_neg (by simp [isStar])]; exact lang_star _ _ _
    | set n l => rw [List.dropWhile_cons_of_neg (by simp [isStar])]; exact lang_star _ _ _

theorem dropStars_idem (p : List Item) : (p.dropWhile isStar).dropWhile isStar = p.dropWhile isStar := by
  induction p with
  | nil => rfl
  | cons i p ih =>
    by_cases h : isStar i = true
    · rw [List.dropWhile_cons_of_pos h, ih]
    · rw [List.dropWhile_cons_of_neg h, List.dropWhile_cons_of_neg h]

/-! ### the pattern's bytes -/

theorem render_cons (i : Item) (p : List Item) : enc (render (i :: p)) = enc i.text ++ enc (render p) := by
  unfold render
  rw [List.flatMap_cons, enc_append]

theorem enc_star : enc (Item.text .star) = [42] := by decide +kernel
theorem enc_any : enc (Item.text .any) = [63] := by decide +kernel

theorem enc_set (l : List SetItem) (p : List Item) :
    enc (render (.set false l :: p)) = 91 :: setRest l (enc (render p)) := by
  rw [render_cons]
  have h1 : String.utf8EncodeChar '[' = [91] := by decide +kernel
  have h2 : enc [']'] = [93] := by decide +kernel
  have h3 : Item.text (.set false l) = '[' :: (l.flatMap SetItem.text ++ [']']) := rfl
  rw [h3, enc_cons, h1, enc_append, h2]
  simp [setRest]

/-- How a literal begins. -/
theorem enc_lit (c : Char) (p : List Item) :
    (∃ b, (c = '*' ∨ c = '?' ∨ c = '[' ∨ c = '\\') ∧ enc (render (.lit c :: p)) = 92 :: b :: enc (render p) ∧
      b :: enc (render p) = String.utf8EncodeChar c ++ enc (render p) ∧ b ≠ 0) ∨
    (¬ (c = '*' ∨ c = '?' ∨ c = '[' ∨ c = '\\') ∧ enc (render (.lit c :: p)) = String.utf8EncodeChar c ++ enc (render p)) := by
  rw [render_cons]
  have ht : Item.text (.lit c) = if c = '*' ∨ c = '?' ∨ c = '[' ∨ c = '\\' then ['\\', c] else [c] := rfl
  rw [ht]
  by_cases h : c = '*' ∨ c = '?' ∨ c = '[' ∨ c = '\\'
  · left
    have h1 : String.utf8EncodeChar '\\' = [92] := by decide +kernel
    have h2 : ∃ b, String.utf8EncodeChar c = [b] ∧ b ≠ 0 := by
      rcases h with rfl | rfl | rfl | rfl
      · exact ⟨42, by decide +kernel, by decide⟩
      · exact ⟨63, by decide +kernel, by decide⟩
      · exact ⟨91, by decide +kernel, by decide⟩
      · exact ⟨92, by decide +kernel, by decide⟩
    obtain ⟨b, hb, h0⟩ := h2
    refine ⟨b, h, ?_, by rw [hb]; rfl, h0⟩
    rw [if_pos h, enc_cons, enc_cons, h1, hb]
    simp [enc]
  · right
    refine ⟨h, ?_⟩
    rw [if_neg h]
    simp [enc_cons, enc]

theorem dropWhile_head (b : UInt8) (t : List UInt8) (h : b ≠ 42) : (b :: t).dropWhile (· = 42) = b :: t := by
  rw [List.dropWhile_cons_of_neg (by simpa using h)]

theorem render_dropStars (p : List Item) (hp : ∀ i ∈ p, i.ok) :
    (enc (render p)).dropWhile (· = 42) = enc (render (p.dropWhile isStar)) := by
  induction p with
  | nil => rfl
  | cons i p ih =>
    have hi := hp i (by simp)
    cases i with
    | star =>
      rw [List.dropWhile_cons_of_pos (by rfl), render_cons, enc_star, List.singleton_append,
        List.dropWhile_cons_of_pos (by simp)]
      exact ih (fun i hi => hp i (List.mem_cons_of_mem _ hi))
    | lit c =>
      rw [List.dropWhile_cons_of_neg (by simp [isStar])]
      rcases enc_lit c p with ⟨b, -, h2, -, -⟩ | ⟨h1, h2⟩
      · rw [h2, dropWhile_head _ _ (by decide)]
      · rw [h2]
        obtain ⟨b, t, he, -⟩ := enc1_shape c hi
        have hb := first_byte_ne c '*' (by decide) (fun h => h1 (Or.inl h)) (enc (render p)) (b := b) (by
          rw [he, List.cons_append, rdC_cons])
        rw [he, List.cons_append, dropWhile_head _ _ hb]
    | any =>
      rw [List.dropWhile_cons_of_neg (by simp [isStar]), render_cons, enc_any, List.singleton_append,
        dropWhile_head _ _ (by decide)]
    | set n l =>
      obtain rfl : n = false := hi.1
      rw [List.dropWhile_cons_of_neg (by simp [isStar]), enc_set, dropWhile_head _ _ (by decide)]

theorem render_nil_iff (p : List Item) (hp : ∀ i ∈ p, i.ok) :
    ∃ b, rdC (enc (render p)) 0 = some b ∧ (b = 0 ↔ p = []) := by
  cases p with
  | nil => exact ⟨0, by decide +kernel, by simp⟩
  | cons i p =>
    have hi := hp i (by simp)
    cases i with
    | star => exact ⟨42, by rw [render_cons, enc_star, List.singleton_append, rdC_cons], by simp⟩
    | any => exact ⟨63, by rw [render_cons, enc_any, List.singleton_append, rdC_cons], by simp⟩
    | set n l =>
      obtain rfl : n = false := hi.1
      exact ⟨91, by rw [enc_set, rdC_cons], by simp⟩
    | lit c =>
      rcases enc_lit c p with ⟨b, -, h2, -, -⟩ | ⟨h1, h2⟩
      · exact ⟨92, by rw [h2, rdC_cons], by simp⟩
      · obtain ⟨b, hb, h0⟩ := rdC_enc c hi (enc (render p))
        exact ⟨b, by rw [h2, hb], by simp [h0]⟩

/-! ### the match -/

/-- What is proved of a pattern by induction. -/
def Good (nocase : Bool) (p : List Item) : Prop := ∀ (fuel : Nat) (s : List Char), (enc (render p)).length < fuel →
  NoNul s → (s ≠ [] ∨ p.head? ≠ some .any) →
  ∃ b, globLoop nocase fuel (enc (render p)) (enc s) = some b ∧ (b = true ↔ Lang nocase p s)

theorem rdC_text (s : List Char) (hs : NoNul s) : ∃ b, rdC (enc s) 0 = some b ∧ (b = 0 ↔ s = []) := by
  cases s with
  | nil => exact ⟨0, by decide +kernel, by simp⟩
  | cons c s =>
    obtain ⟨b, hb, h0⟩ := rdC_enc c (hs c (by simp)) (enc s)
    exact ⟨b, by rw [enc_cons, hb], by simp [h0]⟩

theorem next_eq (nocase : Bool) (p : List Item) (hp : ∀ i ∈ p, i.ok) (hg : Good nocase p) (c : Char) (s : List Char)
    (hs : NoNul s) (fuel : Nat) (hf : (enc (render p)).length < fuel) :
    ∃ b, next nocase (globLoop nocase fuel) (String.utf8EncodeChar c ++ enc (render p)) (enc s) = some b ∧ (b = true ↔ Lang nocase p s) := by
  rw [next, uniCase_enc]
  simp only [Option.bind_eq_bind, Option.bind_some]
  rw [adv_enc]
  simp only [Option.bind_some]
  obtain ⟨sb, h1, h2⟩ := rdC_text s hs
  rw [h1]
  simp only [Option.bind_some]
  by_cases h0 : sb = 0
  · rw [if_pos h0, render_dropStars p hp]
    obtain ⟨x, hx, hx2⟩ := render_nil_iff (p.dropWhile isStar) (fun i hi => hp i (List.dropWhile_sublist _ |>.subset hi))
    rw [hx]
    refine ⟨_, rfl, ?_⟩
    rw [h2.1 h0, lang_nil_iff, decide_eq_true_eq, hx2]
  · rw [if_neg h0]
    exact hg fuel s hf hs (Or.inl (fun h => h0 (h2.2 h)))

theorem starLoop_eq (nocase : Bool) (p : List Item) (g : List UInt8 → Option Bool)
    (hg : ∀ s : List Char, NoNul s → s ≠ [] → ∃ b, g (enc s) = some b ∧ (b = true ↔ Lang nocase p s))
    (hn : ¬ Lang nocase p []) : ∀ (s : List Char) (fuel : Nat), NoNul s → (enc s).length < fuel →
    ∃ b, starLoop g fuel (enc s) = some b ∧ (b = true ↔ ∃ t, t <:+ s ∧ Lang nocase p t)
  | [], fuel, _, hf => by
    obtain ⟨f, rfl⟩ : ∃ f, fuel = f + 1 := ⟨fuel - 1, by omega⟩
    refine ⟨false, rfl, ?_⟩
    simp [hn]
  | c :: s, fuel, hs, hf => by
    obtain ⟨f, rfl⟩ : ∃ f, fuel = f + 1 := ⟨fuel - 1, by omega⟩
    obtain ⟨b, hb, hb2⟩ := rdC_text (c :: s) hs
    obtain ⟨r, hr, hr2⟩ := hg (c :: s) hs (by simp)
    rw [starLoop, hb]
    simp only [Option.bind_eq_bind, Option.bind_some]
    rw [if_neg (fun h => by cases hb2.1 h), hr]
    simp only [Option.bind_some]
    by_cases hrt : r = true
    · rw [if_pos hrt]
      exact ⟨true, rfl, by simp only [true_iff]; exact ⟨_, List.suffix_refl _, hr2.1 hrt⟩⟩
    · rw [if_neg hrt, enc_cons, utfToUniChar_enc]
      simp only [Option.bind_some]
      rw [adv_enc]
      simp only [Option.bind_some]
      rw [enc_cons, List.length_append] at hf
      have := List.length_pos_iff.2 (encChar_ne_nil c)
      obtain ⟨b', h1, h2⟩ := starLoop_eq nocase p g hg hn s f (fun x hx => hs x (List.mem_cons_of_mem _ hx)) (by omega)
      refine ⟨b', h1, h2.trans ⟨?_, ?_⟩⟩
      · rintro ⟨t, ht, h⟩; exact ⟨t, ht.trans (List.suffix_cons c s), h⟩
      · rintro ⟨t, ht, h⟩
        rcases List.suffix_cons_iff.1 ht with rfl | ht
        · exact absurd (hr2.2 h) hrt
        · exact ⟨t, ht, h⟩

/-- What `Lang` says after a single character. -/
theorem lang_lit (nocase : Bool) (c : Char) (p : List Item) (s : List Char) : Lang nocase (.lit c :: p) s ↔
    ∃ d t, s = d :: t ∧ fold nocase c = fold nocase d ∧ Lang nocase p t := by
  constructor
  · intro h; cases h with | lit _ d _ s h1 h2 => exact ⟨d, s, rfl, h1, h2⟩
  · rintro ⟨d, t, rfl, h1, h2⟩; exact .lit _ _ _ _ h1 h2

theorem lang_any (nocase : Bool) (p : List Item) (s : List Char) : Lang nocase (.any :: p) s ↔
    ∃ d t, s = d :: t ∧ Lang nocase p t := by
  constructor
  · intro h; cases h with | any d _ s h2 => exact ⟨d, s, rfl, h2⟩
  · rintro ⟨d, t, rfl, h2⟩; exact .any _ _ _ h2

theorem lang_set (nocase : Bool) (l : List SetItem) (p : List Item) (s : List Char) : Lang nocase (.set false l :: p) s ↔
    ∃ d t, s = d :: t ∧ (∃ i ∈ l, i.has nocase d) ∧ Lang nocase p t := by
  constructor
  · intro h; cases h with | set _ _ d _ s h1 h2 => exact ⟨d, s, rfl, h1.1 rfl, h2⟩
  · rintro ⟨d, t, rfl, h1, h2⟩; exact .set _ _ _ _ _ ⟨fun _ => h1, fun _ => rfl⟩ h2

theorem fold_eq_iff (nocase : Bool) (c d : Char) : (fold nocase c).toNat = (fold nocase d).toNat ↔ fold nocase c = fold nocase d :=
  ⟨fun h => Char.ext (UInt32.toNat_inj.1 h), fun h => by rw [h]⟩

/-- The tail of the literal case. -/
theorem lit_tail (nocase : Bool) (c : Char) (hc : c.toNat ≠ 0) (p : List Item) (hp : ∀ i ∈ p, i.ok) (hg : Good nocase p)
    (s : List Char) (hs : NoNul s) (fuel : Nat) (hf : (enc (render p)).length < fuel) :
    ∃ b, ((uniCase nocase (enc s)).bind fun q => (uniCase nocase (String.utf8EncodeChar c ++ enc (render p))).bind fun r =>
      if r.1 ≠ q.1 then some false
      else (adv (enc s) q.2).bind fun s1 => next nocase (globLoop nocase fuel) (String.utf8EncodeChar c ++ enc (render p)) s1) = some b ∧
      (b = true ↔ Lang nocase (.lit c :: p) s) := by
  rw [uniCase_enc, lang_lit]
  cases s with
  | nil =>
    have h0 : uniCase nocase (enc []) = some (0, 1) := by cases nocase <;> decide +kernel
    rw [h0]
    simp only [Option.bind_some]
    have : (fold nocase c).toNat ≠ 0 := by
      rw [fold_toNat]; unfold toupper
      split <;> (try split) <;> omega
    rw [if_pos this]
    exact ⟨false, rfl, by simp⟩
  | cons d s =>
    rw [enc_cons, uniCase_enc]
    simp only [Option.bind_some]
    by_cases h : fold nocase c = fold nocase d
    · rw [if_neg (by rw [h]; simp), adv_enc]
      simp only [Option.bind_some]
      obtain ⟨b, h1, h2⟩ := next_eq nocase p hp hg c s (fun x hx => hs x (List.mem_cons_of_mem _ hx)) fuel hf
      refine ⟨b, h1, h2.trans ⟨fun h3 => ⟨d, s, rfl, h, h3⟩, ?_⟩⟩
      rintro ⟨_, _, he, -, h3⟩
      cases he; exact h3
    · rw [if_pos (fun h1 => h ((fold_eq_iff _ _ _).1 h1))]
      refine ⟨false, rfl, ?_⟩
      constructor
      · intro h1; cases h1
      · rintro ⟨_, _, he, h1, -⟩
        cases he; exact absurd h1 h

theorem good (nocase : Bool) : ∀ (n : Nat) (p : List Item), p.length ≤ n → (∀ i ∈ p, i.ok) → Good nocase p := by
  intro n
  induction n with
  | zero =>
    intro p hl _ fuel s hf hs _
    have : p = [] := List.length_eq_zero_iff.1 (by omega)
    subst this
    obtain ⟨f, rfl⟩ : ∃ f, fuel = f + 1 := ⟨fuel - 1, by omega⟩
    obtain ⟨b, hb, hb2⟩ := rdC_text s hs
    have h0 : rdC (enc (render [])) 0 = some 0 := by decide +kernel
    rw [globLoop, h0]
    simp only [Option.bind_eq_bind, Option.bind_some, if_true]
    rw [hb]
    refine ⟨_, rfl, ?_⟩
    rw [decide_eq_true_eq, hb2]
    constructor
    · rintro rfl; exact .nil
    · intro h; cases h; rfl
  | succ n ih =>
    intro p hl hp
    cases p with
    | nil => exact ih [] (by simp) (by simp)
    | cons i p =>
      have hp2 : ∀ i ∈ p, i.ok := fun i hi => hp i (List.mem_cons_of_mem _ hi)
      have hi := hp i (by simp)
      have hg : Good nocase p := ih p (by simp at hl; omega) hp2
      intro fuel s hf hs hc
      obtain ⟨f, rfl⟩ : ∃ f, fuel = f + 1 := ⟨fuel - 1, by omega⟩
      cases i with
      | star =>
        have hd : (enc (render (.star :: p))).dropWhile (· = 42) = enc (render (p.dropWhile isStar)) := by
          rw [render_dropStars _ hp, List.dropWhile_cons_of_pos (by rfl)]
        have hp3 : ∀ i ∈ p.dropWhile isStar, i.ok := fun i hi => hp2 i (List.dropWhile_sublist _ |>.subset hi)
        have hr : rdC (enc (render (.star :: p))) 0 = some 42 := by
          rw [render_cons, enc_star, List.singleton_append, rdC_cons]
        obtain ⟨x, hx, hx2⟩ := render_nil_iff (p.dropWhile isStar) hp3
        rw [globLoop, hr]
        simp only [Option.bind_eq_bind, Option.bind_some]
        rw [if_neg (by decide), if_pos trivial, hd, hx]
        simp only [Option.bind_some]
        by_cases h0 : x = 0
        · rw [if_pos h0]
          refine ⟨true, rfl, ?_⟩
          simp only [true_iff]
          rw [lang_stars, hx2.1 h0]
          exact ⟨[], List.nil_suffix, .nil⟩
        · rw [if_neg h0]
          have hne : p.dropWhile isStar ≠ [] := fun h => h0 (hx2.2 h)
          have hlen : (enc (render (p.dropWhile isStar))).length ≤ (enc (render p)).length := by
            rw [← render_dropStars p hp2]
            exact (List.dropWhile_sublist _).length_le
          have hl3 : (p.dropWhile isStar).length ≤ n := by
            have := (List.dropWhile_sublist isStar (l := p)).length_le
            simp at hl; omega
          obtain ⟨b, h1, h2⟩ := starLoop_eq nocase (p.dropWhile isStar) (globLoop nocase f (enc (render (p.dropWhile isStar))))
            (fun t ht htne => ih _ hl3 hp3 f t (by
              rw [render_cons, enc_star] at hf; simp at hf; omega) ht (Or.inl htne))
            (by
              rw [lang_nil_iff]
              intro h
              apply hne
              rwa [dropStars_idem] at h) s ((enc s).length + 1) hs (by omega)
          exact ⟨b, h1, by rw [h2, lang_stars]⟩
      | any =>
        have hsne : s ≠ [] := by
          rcases hc with h | h
          · exact h
          · simp at h
        obtain ⟨d, t, rfl⟩ := List.exists_cons_of_ne_nil hsne
        have hq : String.utf8EncodeChar '?' = [63] := by decide +kernel
        have he : enc (render (.any :: p)) = String.utf8EncodeChar '?' ++ enc (render p) := by
          rw [render_cons, enc_any, hq]
        have hr : rdC (enc (render (.any :: p))) 0 = some 63 := by rw [he, hq, List.singleton_append, rdC_cons]
        rw [globLoop, hr]
        simp only [Option.bind_eq_bind, Option.bind_some]
        rw [if_neg (by decide), if_neg (by decide), if_pos trivial, enc_cons, utfToUniChar_enc]
        simp only [Option.bind_some]
        rw [adv_enc]
        simp only [Option.bind_some]
        obtain ⟨b, h1, h2⟩ := next_eq nocase p hp2 hg '?' t (fun x hx => hs x (List.mem_cons_of_mem _ hx)) f (by
          rw [he, hq] at hf; simp at hf; omega)
        refine ⟨b, by rw [he]; exact h1, ?_⟩
        rw [h2, lang_any]
        constructor
        · intro h; exact ⟨d, t, rfl, h⟩
        · rintro ⟨_, _, h, h3⟩; cases h; exact h3
      | set neg l =>
        obtain ⟨rfl, hl2⟩ : neg = false ∧ ∀ i ∈ l, i.ok := hi
        have hb : String.utf8EncodeChar ']' = [93] := by decide +kernel
        rw [enc_set] at hf ⊢
        rw [globLoop, rdC_cons]
        simp only [Option.bind_eq_bind, Option.bind_some]
        rw [if_neg (by decide), if_neg (by decide), if_neg (by decide), if_pos trivial, lang_set]
        have hd1 : (91 :: setRest l (enc (render p))).drop 1 = setRest l (enc (render p)) := rfl
        rw [hd1]
        cases s with
        | nil =>
          have h0 : utfToUniChar (enc []) = some ((Char.ofNat 0).toNat, 1) := by decide +kernel
          rw [h0]
          simp only [Option.bind_some]
          obtain ⟨m, hm, hm2⟩ := charset_eq nocase (Char.ofNat 0) l (enc (render p)) hl2
          have hmf : m = false := by
            cases m
            · rfl
            · obtain ⟨i, hi, hh⟩ := hm2.1 rfl
              exact absurd hh (has_nul nocase i (hl2 i hi))
          rw [hm, hmf]
          exact ⟨false, rfl, by simp⟩
        | cons d t =>
          rw [enc_cons, utfToUniChar_enc]
          simp only [Option.bind_some]
          obtain ⟨m, hm, hm2⟩ := charset_eq nocase d l (enc (render p)) hl2
          rw [hm]
          simp only [Option.bind_some]
          cases m with
          | false =>
            refine ⟨false, rfl, ?_⟩
            constructor
            · intro h; cases h
            · rintro ⟨_, _, h, h3, -⟩; cases h; exact absurd (hm2.2 h3) (by simp)
          | true =>
            simp only [if_true]
            rw [adv_enc, rdC_cons]
            simp only [Option.bind_some]
            rw [if_neg (by decide)]
            obtain ⟨b, h1, h2⟩ := next_eq nocase p hp2 hg ']' t (fun x hx => hs x (List.mem_cons_of_mem _ hx)) f (by
              simp [setRest] at hf; omega)
            rw [hb] at h1
            refine ⟨b, h1, ?_⟩
            rw [h2]
            constructor
            · intro h; exact ⟨d, t, rfl, hm2.1 rfl, h⟩
            · rintro ⟨_, _, h, -, h3⟩; cases h; exact h3
      | lit c =>
        have hcn : c.toNat ≠ 0 := hi
        rcases enc_lit c p with ⟨b, hsp, h2, h3, h0⟩ | ⟨h1, h2⟩
        · rw [h2] at hf ⊢
          rw [globLoop, rdC_cons]
          simp only [Option.bind_eq_bind, Option.bind_some]
          rw [if_neg (by decide), if_neg (by decide), if_neg (by decide), if_neg (by decide), if_pos trivial]
          have hr1 : rdC (92 :: b :: enc (render p)) 1 = some b := by simp [rdC]
          rw [hr1]
          simp only [Option.bind_some]
          rw [if_pos h0]
          have hd : (92 :: b :: enc (render p)).drop 1 = String.utf8EncodeChar c ++ enc (render p) := h3
          rw [hd]
          exact lit_tail nocase c hcn p hp2 hg s hs f (by simp at hf; omega)
        · rw [h2] at hf ⊢
          obtain ⟨b, hb, h0⟩ := rdC_enc c hcn (enc (render p))
          have n1 : b ≠ 42 := first_byte_ne c '*' (by decide) (fun h => h1 (Or.inl h)) _ hb
          have n2 : b ≠ 63 := first_byte_ne c '?' (by decide) (fun h => h1 (Or.inr (Or.inl h))) _ hb
          have n3 : b ≠ 91 := first_byte_ne c '[' (by decide) (fun h => h1 (Or.inr (Or.inr (Or.inl h)))) _ hb
          have n4 : b ≠ 92 := first_byte_ne c '\\' (by decide) (fun h => h1 (Or.inr (Or.inr (Or.inr h)))) _ hb
          rw [globLoop, hb]
          simp only [Option.bind_eq_bind, Option.bind_some]
          rw [if_neg h0, if_neg n1, if_neg n2, if_neg n3, if_neg n4]
          rw [if_neg (by simp)]
          have := List.length_pos_iff.2 (encChar_ne_nil c)
          exact lit_tail nocase c hcn p hp2 hg s hs f (by rw [List.length_append] at hf; omega)

/-- **C24**: for every pattern made of literals, `?`, `*` and (not negated) sets of plain characters and ranges,
and every UTF-8 text, `Jsi_GlobMatch` answers true exactly when the text matches, and reads no byte behind
either string, unless the text is empty and the pattern begins with `?`. -/
theorem C24_glob_partial (nocase : Bool) (p : List Item) (s : List Char) (hp : ∀ i ∈ p, i.ok) (hs : NoNul s)
    (h : s ≠ [] ∨ p.head? ≠ some .any) :
    ∃ b, globMatch (enc (render p)) (enc s) nocase = some b ∧ (b = true ↔ Lang nocase p s) :=
  good nocase p.length p (Nat.le_refl _) hp _ s (by omega) hs h

/-- **C24 refuted**: on the empty string a pattern that begins with `?` makes the function read behind the end
of the string, whatever follows (well-formed). -/
theorem C24_overrun_refuted (nocase : Bool) (p : List Item) : globMatch (enc (render (.any :: p))) [] nocase = none := by
  unfold globMatch
  rw [render_cons, enc_any, List.singleton_append, globLoop, rdC_cons]
  have h0 : utfToUniChar [] = some (0, 1) := by decide +kernel
  simp only [Option.bind_eq_bind, Option.bind_some]
  rw [if_neg (by decide), if_neg (by decide), if_pos trivial, h0]
  rfl

/-- **C24 refuted**: a negated set is not negated: `[^a]` matches `a` and not `b`. -/
theorem C24_negation_refuted :
    enc (render [.set true [.one 'a']]) = asc "[^a]" ∧ globMatch (asc "[^a]") (asc "a") false = some true ∧
    globMatch (asc "[^a]") (asc "b") false = some false := by decide +kernel

/-- **C24 refuted**: a backslash in a set does not quote: `[\]]` does not match `]`. -/
theorem C24_set_escape_refuted : globMatch [91, 92, 93, 93] [93] false = some false ∧
    globMatch [91, 92, 93, 93] [92, 93] false = some true := by decide +kernel

example : globMatch (asc "*.[ch]") (asc "jsi.c") false = some true ∧ globMatch (asc "*.[ch]") (asc "jsi.o") false = some false ∧
    enc (render [.star, .lit '.', .set false [.one 'c', .one 'h']]) = asc "*.[ch]" ∧
    globMatch (asc "a?c*") (asc "abc") false = some true ∧ globMatch (asc "A[b-d]") (asc "aC") true = some true ∧
    globMatch (asc "?") [] false = none ∧ globMatch (asc "*") [] false = some true := by decide +kernel

example : ∀ i ∈ [Item.star, .lit '.', .set false [.one 'c', .range 'h' 'k']], i.ok := by
  intro i hi
  simp only [List.mem_cons, List.not_mem_nil, or_false] at hi
  rcases hi with rfl | rfl | rfl
  · trivial
  · show ('.').toNat ≠ 0; decide
  · refine ⟨rfl, ?_⟩
    intro j hj
    simp only [List.mem_cons, List.not_mem_nil, or_false] at hj
    rcases hj with rfl | rfl
    · show plain 'c'; unfold plain; decide
    · show plain 'h' ∧ plain 'k'; unfold plain; decide

end Verif.Glob
