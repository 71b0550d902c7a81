import Verif.Uri.Model

namespace Verif.Uri
open Verif.Hex (toHexChar fromHexChar)

/-- C05 in full: both decoders invert their encoders on every string (no NUL inside). -/
def RoundTrip (comp : Bool) : Prop :=
  ∀ s : List UInt8, (∀ c ∈ s, c ≠ 0) → decode comp (encode comp s) = s

/-- **C05** is false of `encodeURIComponent`: '%' is not escaped, so "%41" comes back as "A". -/
theorem C05_component_refuted : ¬ RoundTrip true := by
  intro h
  have := h (asc "%41") (by decide)
  revert this; decide

/-- **C05** is false of `encodeURI`, even for texts without '%': '+' comes back as a blank. -/
theorem C05_uri_refuted : ¬ ∀ s : List UInt8, (∀ c ∈ s, c ≠ 0 ∧ c ≠ 37) →
    decode false (encode false s) = s := by
  intro h
  have := h (asc "1+2") (by decide)
  revert this; decide

theorem takeWhile_all {p : UInt8 → Bool} (s : List UInt8) (h : ∀ c ∈ s, p c = true) :
    s.takeWhile p = s := by
  induction s with
  | nil => rfl
  | cons a t ih =>
    rw [List.takeWhile_cons, if_pos (h a (by simp)), ih (fun c hc => h c (by simp [hc]))]

/-- What one character's encoding looks like: itself (and then it is no '%', and '+' only in
`encodeURI`), or '%' and two digits that stand for it; never a NUL. -/
theorem enc1_cases : ∀ (comp : Bool) (c : Fin 256),
    let ch := UInt8.ofNat c.val
    ch ≠ 0 →
      (enc1 comp ch = [ch] ∧ (comp = true → ch ≠ 43)) ∨
      (∃ a b, enc1 comp ch = [37, a, b] ∧ a ≠ 0 ∧ b ≠ 0 ∧ (fromHexChar a <<< 4 ||| fromHexChar b) = ch ∧
        (comp = false → strchr comps ch = false)) := by
  intro comp c ch hz
  by_cases h : enc1 comp ch = [ch] ∧ (comp = true → ch ≠ 43)
  · exact .inl h
  · refine .inr ⟨toHexChar (ch >>> 4), toHexChar (ch &&& 15), ?_⟩
    revert comp c
    decide +kernel

theorem enc1_nz : ∀ (comp : Bool) (c : Fin 256), c.val ≠ 0 → ∀ x ∈ enc1 comp (UInt8.ofNat c.val), x ≠ 0 := by
  decide +kernel

theorem decLoop_plain (comp : Bool) (c : UInt8) (t : List UInt8) (h1 : c ≠ 37) (h2 : c ≠ 43) :
    decLoop comp (c :: t) = c :: decLoop comp t := by
  rw [decLoop.eq_def]
  split
  · simp_all
  · rename_i heq; injection heq with h3 h4; exact absurd h3 h1
  · rename_i heq
    injection heq with h3 h4
    subst h3; subst h4
    simp [h1, h2]

theorem decLoop_encode (comp : Bool) (s : List UInt8)
    (h : ∀ c ∈ s, c ≠ 0 ∧ c ≠ 37 ∧ (comp = false → c ≠ 43)) :
    decLoop comp (s.flatMap (enc1 comp)) = s := by
  induction s with
  | nil => simp [decLoop]
  | cons c t ih =>
    obtain ⟨h0, h37, h43⟩ := h c (by simp)
    have ih := ih (fun c hc => h c (by simp [hc]))
    have hc := enc1_cases comp ⟨c.toNat, c.toNat_lt⟩
    simp only [UInt8.ofNat_toNat] at hc
    rw [List.flatMap_cons]
    rcases hc h0 with ⟨he, hp⟩ | ⟨a, b, he, _, _, hv, hs⟩
    · rw [he]
      have hne : c ≠ 43 := by cases comp; exact h43 rfl; exact hp rfl
      rw [List.singleton_append, decLoop_plain _ _ _ h37 hne, ih]
    · rw [he]
      simp only [List.cons_append, List.nil_append]
      rw [decLoop]
      simp only [hv]
      rw [if_neg, ih]
      cases comp
      · simp [hs rfl]
      · simp

/-- **C05** (what holds).  `decodeURIComponent(encodeURIComponent(s)) == s` for every string
without '%'.  Missing from the full statement: strings containing '%' (see `C05_component_refuted`). -/
theorem C05_component_roundtrip_partial (s : List UInt8) (h : ∀ c ∈ s, c ≠ 0 ∧ c ≠ 37) :
    decode true (encode true s) = s := by
  have hs : s.takeWhile (· ≠ 0) = s := takeWhile_all s (fun c hc => by simpa using (h c hc).1)
  have he : (encode true s).takeWhile (· ≠ 0) = encode true s := by
    apply takeWhile_all
    unfold encode
    rw [hs]
    intro x hx
    obtain ⟨c, hc, hx⟩ := List.mem_flatMap.mp hx
    have := enc1_nz true ⟨c.toNat, c.toNat_lt⟩
      (by intro hz; exact (h c hc).1 (UInt8.toNat_inj.mp (by simpa using hz))) x (by simpa using hx)
    simpa using this
  unfold decode
  rw [he]; unfold encode; rw [hs]
  exact decLoop_encode true s (fun c hc => ⟨(h c hc).1, (h c hc).2, by simp⟩)

/-- **C05** (what holds).  `decodeURI(encodeURI(s)) == s` for every string without '%' and '+'.
Missing: '%' and '+' (see the refutations). -/
theorem C05_uri_roundtrip_partial (s : List UInt8) (h : ∀ c ∈ s, c ≠ 0 ∧ c ≠ 37 ∧ c ≠ 43) :
    decode false (encode false s) = s := by
  have hs : s.takeWhile (· ≠ 0) = s := takeWhile_all s (fun c hc => by simpa using (h c hc).1)
  have he : (encode false s).takeWhile (· ≠ 0) = encode false s := by
    apply takeWhile_all
    unfold encode
    rw [hs]
    intro x hx
    obtain ⟨c, hc, hx⟩ := List.mem_flatMap.mp hx
    have := enc1_nz false ⟨c.toNat, c.toNat_lt⟩
      (by intro hz; exact (h c hc).1 (UInt8.toNat_inj.mp (by simpa using hz))) x (by simpa using hx)
    simpa using this
  unfold decode
  rw [he]; unfold encode; rw [hs]
  exact decLoop_encode false s (fun c hc => ⟨(h c hc).1, (h c hc).2.1, fun _ => (h c hc).2.2⟩)

theorem mem_takeWhile_imp {p : UInt8 → Bool} {x : UInt8} : ∀ {s : List UInt8}, x ∈ s.takeWhile p → p x = true
  | [], h => by simp at h
  | a :: t, h => by
    rw [List.takeWhile_cons] at h
    split at h
    · rcases List.mem_cons.mp h with rfl | h
      · assumption
      · exact mem_takeWhile_imp h
    · simp at h

/-- `encodeURIComponent` output contains none of the reserved characters `;,/?:@&=+$#`, so it can be
embedded as one component of a URI. -/
theorem C05_component_no_reserved (s : List UInt8) : ∀ c ∈ encode true s, c ∉ comps := by
  have key : ∀ c : Fin 256, c.val ≠ 0 → ∀ x ∈ enc1 true (UInt8.ofNat c.val), x ∉ comps := by
    decide +kernel
  intro x hx
  unfold encode at hx
  obtain ⟨c, hc, hx⟩ := List.mem_flatMap.mp hx
  have hz : c ≠ 0 := by simpa using mem_takeWhile_imp hc
  exact key ⟨c.toNat, c.toNat_lt⟩ (by intro h; exact hz (UInt8.toNat_inj.mp (by simpa using h))) x
    (by simpa using hx)

/-- The character of a hexadecimal digit, upper or lower case. -/
def digitChar (upper : Bool) (n : Nat) : UInt8 :=
  (if upper then asc "0123456789ABCDEF" else asc "0123456789abcdef").getD n 0

/-- `decodeURIComponent` turns every escape `%XY`, digits in either case, into the byte with that value and
goes on after it. -/
theorem C05_decode_escape (b : UInt8) (u1 u2 : Bool) (t : List UInt8) :
    decode true (37 :: digitChar u1 (b.toNat / 16) :: digitChar u2 (b.toNat % 16) :: t) = b :: decode true t := by
  have key : ∀ (b : Fin 256) (u1 u2 : Bool), digitChar u1 (b.val / 16) ≠ 0 ∧ digitChar u2 (b.val % 16) ≠ 0 ∧
      fromHexChar (digitChar u1 (b.val / 16)) <<< 4 ||| fromHexChar (digitChar u2 (b.val % 16)) =
        UInt8.ofNat b.val := by decide +kernel
  obtain ⟨h1, h2, h3⟩ := key ⟨b.toNat, b.toNat_lt⟩ u1 u2
  simp only [UInt8.ofNat_toNat] at h3
  unfold decode
  rw [List.takeWhile_cons_of_pos (by decide), List.takeWhile_cons_of_pos (by simpa using h1),
    List.takeWhile_cons_of_pos (by simpa using h2)]
  rw [decLoop]
  simp [h3]

-- The hypotheses are met by ordinary text, and the encoder does something on it.
example : (∀ c ∈ asc "a/b?c=d e-f", c ≠ 0 ∧ c ≠ 37 ∧ c ≠ 43) ∧
    encode true (asc "a/b") = asc "a%2fb" := by decide

end Verif.Uri
