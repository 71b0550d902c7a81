import Verif.Glob.Props

/-!
C24: `Jsi_GlobMatch` stays within both strings, for any bytes whatever, unless the string is empty.
-/

namespace Verif.Glob

open Verif.Utf8

theorem rdC_le {s : List UInt8} {k : Nat} (h : k ≤ s.length) : ∃ b, rdC s k = some b ∧ (isCont b = true → k < s.length) := by
  by_cases hk : k < s.length
  · exact ⟨s[k], rdC_lt hk, fun _ => hk⟩
  · have : k = s.length := by omega
    subst this
    exact ⟨0, rdC_len s, fun h0 => absurd h0 (by decide)⟩

/-- Reading a character takes between one byte and all of them. -/
theorem utf_len (s : List UInt8) (h : s ≠ []) : ∃ r, utfToUniChar s = some r ∧ 1 ≤ r.2 ∧ r.2 ≤ s.length := by
  have hl : 1 ≤ s.length := List.length_pos_iff.2 h
  obtain ⟨b0, e0, -⟩ := rdC_le (s := s) (k := 0) (by omega)
  obtain ⟨b1, e1, c1⟩ := rdC_le (s := s) (k := 1) (by omega)
  unfold utfToUniChar
  rw [e0]
  simp only [Option.bind_some]
  by_cases h1 : b0 < 0xc0
  · rw [if_pos h1]; exact ⟨_, rfl, by omega, by simpa using hl⟩
  rw [if_neg h1]
  by_cases h2 : b0 < 0xe0
  · rw [if_pos h2, e1]
    simp only [Option.bind_some]
    by_cases k1 : isCont b1 = true
    · rw [if_pos k1]; exact ⟨_, rfl, by simp, by have := c1 k1; simp only []; omega⟩
    · rw [if_neg k1]; exact ⟨_, rfl, by simp, by simpa using hl⟩
  rw [if_neg h2]
  by_cases h3 : b0 < 0xf0
  · rw [if_pos h3, e1]
    simp only [Option.bind_some]
    by_cases k1 : isCont b1 = true
    · rw [if_pos k1]
      have l1 := c1 k1
      obtain ⟨b2, e2, c2⟩ := rdC_le (s := s) (k := 2) (by omega)
      rw [e2]
      simp only [Option.bind_some]
      by_cases k2 : isCont b2 = true
      · rw [if_pos k2]; exact ⟨_, rfl, by simp, by have := c2 k2; simp only []; omega⟩
      · rw [if_neg k2]; exact ⟨_, rfl, by simp, by simpa using hl⟩
    · rw [if_neg k1]; exact ⟨_, rfl, by simp, by simpa using hl⟩
  rw [if_neg h3]
  by_cases h4 : b0 < 0xf8
  · rw [if_pos h4, e1]
    simp only [Option.bind_some]
    by_cases k1 : isCont b1 = true
    · rw [if_pos k1]
      have l1 := c1 k1
      obtain ⟨b2, e2, c2⟩ := rdC_le (s := s) (k := 2) (by omega)
      rw [e2]
      simp only [Option.bind_some]
      by_cases k2 : isCont b2 = true
      · rw [if_pos k2]
        have l2 := c2 k2
        obtain ⟨b3, e3, c3⟩ := rdC_le (s := s) (k := 3) (by omega)
        rw [e3]
        simp only [Option.bind_some]
        by_cases k3 : isCont b3 = true
        · rw [if_pos k3]; exact ⟨_, rfl, by simp, by have := c3 k3; simp only []; omega⟩
        · rw [if_neg k3]; exact ⟨_, rfl, by simp, by simpa using hl⟩
      · rw [if_neg k2]; exact ⟨_, rfl, by simp, by simpa using hl⟩
    · rw [if_neg k1]; exact ⟨_, rfl, by simp, by simpa using hl⟩
  rw [if_neg h4]; exact ⟨_, rfl, by simp, by simpa using hl⟩

theorem uniCase_len (nocase : Bool) (s : List UInt8) (h : s ≠ []) : ∃ r, uniCase nocase s = some r ∧ 1 ≤ r.2 ∧ r.2 ≤ s.length := by
  obtain ⟨r, h1, h2, h3⟩ := utf_len s h
  unfold uniCase
  rw [h1]
  exact ⟨_, rfl, h2, h3⟩

theorem adv_ok {s : List UInt8} {k : Nat} (h : k ≤ s.length) : adv s k = some (s.drop k) := by
  unfold adv; rw [if_pos h]

theorem rdC_ne {p : List UInt8} {b : UInt8} (h : rdC p 0 = some b) (hb : b ≠ 0) : p ≠ [] := by
  rintro rfl
  rw [rdC_nil] at h
  exact hb (Option.some.inj h).symm

theorem rdC_some (p : List UInt8) : ∃ b, rdC p 0 = some b := by
  cases p with
  | nil => exact ⟨0, rdC_nil⟩
  | cons b p => exact ⟨b, rdC_cons b p⟩

/-- A string without NUL bytes, as C sees every string. -/
def CStr (s : List UInt8) : Prop := ∀ b ∈ s, b ≠ 0

theorem CStr.drop {s : List UInt8} (h : CStr s) (k : Nat) : CStr (s.drop k) := fun b hb => h b (List.mem_of_mem_drop hb)

theorem charsetLoop_safe (nocase : Bool) (c : Nat) : ∀ (fuel : Nat) (m : Bool) (p : List UInt8), p.length < fuel →
    ∃ r, charsetLoop nocase c fuel m p = some r ∧ ∀ q, r = some q → q <:+ p
  | 0, _, _, h => by omega
  | fuel + 1, m, p, hf => by
    obtain ⟨b, hb⟩ := rdC_some p
    rw [charsetLoop, hb]
    simp only [Option.bind_eq_bind, Option.bind_some]
    by_cases h1 : b = 0 ∨ b = 93
    · rw [if_pos h1]
      refine ⟨_, rfl, ?_⟩
      intro q hq
      cases m
      · cases hq
      · cases hq; exact List.suffix_refl _
    rw [if_neg h1]
    have hp : p ≠ [] := rdC_ne hb (fun h => h1 (Or.inl h))
    obtain ⟨r, hr, r1, r2⟩ := uniCase_len nocase p hp
    have hsuf : p.drop r.2 <:+ p := List.drop_suffix _ _
    have hlen : (p.drop r.2).length < fuel := by rw [List.length_drop]; omega
    rw [hr]
    simp only [Option.bind_some]
    rw [adv_ok r2]
    simp only [Option.bind_some]
    by_cases h2 : b = 92
    · rw [if_pos h2]
      obtain ⟨q, hq, hq2⟩ := charsetLoop_safe nocase c fuel (m || r.1 == c) (p.drop r.2) hlen
      exact ⟨q, hq, fun x hx => (hq2 x hx).trans hsuf⟩
    rw [if_neg h2]
    obtain ⟨d, hd⟩ := rdC_some (p.drop r.2)
    rw [hd]
    simp only [Option.bind_some]
    by_cases hd1 : d = 45
    · have hpd : p.drop r.2 ≠ [] := rdC_ne hd (by rw [hd1]; decide)
      have hld := List.length_pos_iff.2 hpd
      obtain ⟨d1, he1, -⟩ := rdC_le (s := p.drop r.2) (k := 1) (by omega)
      rw [if_pos hd1, he1]
      simp only [Option.bind_some]
      by_cases hx : d = 45 ∧ d1 ≠ 0
      · rw [if_pos hx]
        obtain ⟨q, hq, q1, q2⟩ := utf_len (p.drop r.2) hpd
        have hq1 : q.2 = 1 := by
          have hdv := hd
          cases hl : p.drop r.2 with
          | nil => exact absurd hl hpd
          | cons x t =>
            rw [hl, rdC_cons] at hdv
            have hx45 : x = 45 := by rw [← hd1]; exact Option.some.inj hdv
            rw [hl, hx45] at hq
            have : utfToUniChar (45 :: t) = some (45, 1) := by
              unfold utfToUniChar
              rw [rdC_cons]; rfl
            rw [this] at hq
            cases hq; rfl
        rw [hq]
        simp only [Option.bind_some]
        rw [adv_ok q2]
        simp only [Option.bind_some]
        have hp2 : (p.drop r.2).drop q.2 ≠ [] := by
          intro h0
          rw [hq1] at h0
          have hl1 : (p.drop r.2).length = 1 := by
            have := List.drop_eq_nil_iff.1 h0
            omega
          have : rdC (p.drop r.2) 1 = some 0 := by
            conv => lhs; arg 2; rw [← hl1]
            exact rdC_len _
          rw [he1] at this
          exact hx.2 (Option.some.inj this)
        obtain ⟨e, he, e1, e2⟩ := uniCase_len nocase _ hp2
        rw [he]
        simp only [Option.bind_some]
        rw [adv_ok e2]
        simp only [Option.bind_some]
        obtain ⟨y, hy, hy2⟩ := charsetLoop_safe nocase c fuel (m || inRange c r.1 e.1) (((p.drop r.2).drop q.2).drop e.2) (by
          simp only [List.length_drop] at hlen ⊢; omega)
        exact ⟨y, hy, fun x hx => (hy2 x hx).trans ((List.drop_suffix _ _).trans ((List.drop_suffix _ _).trans hsuf))⟩
      · rw [if_neg hx]
        obtain ⟨q, hq, hq2⟩ := charsetLoop_safe nocase c fuel (m || r.1 == c) (p.drop r.2) hlen
        exact ⟨q, hq, fun x hx => (hq2 x hx).trans hsuf⟩
    · rw [if_neg hd1, if_neg (fun h => hd1 h.1)]
      obtain ⟨q, hq, hq2⟩ := charsetLoop_safe nocase c fuel (m || r.1 == c) (p.drop r.2) hlen
      exact ⟨q, hq, fun x hx => (hq2 x hx).trans hsuf⟩

theorem starLoop_safe (g : List UInt8 → Option Bool) (hg : ∀ s, CStr s → s ≠ [] → ∃ b, g s = some b) :
    ∀ (fuel : Nat) (s : List UInt8), CStr s → s.length < fuel → ∃ b, starLoop g fuel s = some b
  | 0, _, _, h => by omega
  | fuel + 1, s, hs, hf => by
    obtain ⟨b, hb⟩ := rdC_some s
    rw [starLoop, hb]
    simp only [Option.bind_eq_bind, Option.bind_some]
    by_cases h0 : b = 0
    · rw [if_pos h0]; exact ⟨_, rfl⟩
    rw [if_neg h0]
    have hne := rdC_ne hb h0
    obtain ⟨r, hr⟩ := hg s hs hne
    rw [hr]
    simp only [Option.bind_some]
    by_cases h1 : r = true
    · rw [if_pos h1]; exact ⟨_, rfl⟩
    rw [if_neg h1]
    obtain ⟨q, hq, q1, q2⟩ := utf_len s hne
    rw [hq]
    simp only [Option.bind_some]
    rw [adv_ok q2]
    exact starLoop_safe g hg fuel _ (hs.drop _) (by rw [List.length_drop]; omega)

theorem next_safe (nocase : Bool) (g : List UInt8 → List UInt8 → Option Bool) (p s : List UInt8) (hp : p ≠ []) (hs : CStr s)
    (hg : ∀ q : List UInt8, q.length < p.length → ∀ t, CStr t → t ≠ [] → ∃ b, g q t = some b) :
    ∃ b, next nocase g p s = some b := by
  obtain ⟨r, hr, r1, r2⟩ := uniCase_len nocase p hp
  unfold next
  rw [hr]
  simp only [Option.bind_eq_bind, Option.bind_some]
  rw [adv_ok r2]
  simp only [Option.bind_some]
  obtain ⟨b, hb⟩ := rdC_some s
  rw [hb]
  simp only [Option.bind_some]
  by_cases h0 : b = 0
  · rw [if_pos h0]
    obtain ⟨x, hx⟩ := rdC_some ((p.drop r.2).dropWhile (· = 42))
    rw [hx]; exact ⟨_, rfl⟩
  · rw [if_neg h0]
    exact hg _ (by rw [List.length_drop]; have := List.length_pos_iff.2 hp; omega) s hs (rdC_ne hb h0)

theorem globLoop_safe (nocase : Bool) : ∀ (fuel : Nat) (p s : List UInt8), CStr s → s ≠ [] → p.length < fuel →
    ∃ b, globLoop nocase fuel p s = some b
  | 0, _, _, _, _, h => by omega
  | fuel + 1, p, s, hs, hne, hf => by
    have ih := globLoop_safe nocase fuel
    obtain ⟨b, hb⟩ := rdC_some p
    obtain ⟨sb, hsb⟩ := rdC_some s
    obtain ⟨q, hq, q1, q2⟩ := utf_len s hne
    obtain ⟨q', hq', q1', q2'⟩ := uniCase_len nocase s hne
    rw [globLoop, hb]
    simp only [Option.bind_eq_bind, Option.bind_some]
    by_cases h0 : b = 0
    · rw [if_pos h0, hsb]; exact ⟨_, rfl⟩
    rw [if_neg h0]
    have hp := rdC_ne hb h0
    obtain ⟨pb, pt, rfl⟩ := List.exists_cons_of_ne_nil hp
    have hpb : pb = b := by rw [rdC_cons] at hb; exact Option.some.inj hb
    subst hpb
    have hnext : ∀ (p1 t : List UInt8), p1 ≠ [] → p1.length ≤ pt.length + 1 → CStr t →
        ∃ b, next nocase (globLoop nocase fuel) p1 t = some b := by
      intro p1 t h1 h2 ht
      refine next_safe nocase _ p1 t h1 ht (fun q hq u hu hu2 => ih q u hu hu2 ?_)
      simp at hf; omega
    by_cases h1 : pb = 42
    · rw [if_pos h1]
      obtain ⟨x, hx⟩ := rdC_some ((pb :: pt).dropWhile (· = 42))
      rw [hx]
      simp only [Option.bind_some]
      by_cases hx0 : x = 0
      · rw [if_pos hx0]; exact ⟨_, rfl⟩
      rw [if_neg hx0]
      refine starLoop_safe _ (fun t ht ht2 => ih _ t ht ht2 ?_) _ s hs (by omega)
      have h3 : (pb :: pt).dropWhile (· = 42) = pt.dropWhile (· = 42) := by
        rw [List.dropWhile_cons_of_pos (by simpa using h1)]
      rw [h3]
      have := (List.dropWhile_sublist (· = 42) (l := pt)).length_le
      simp only [List.length_cons] at hf
      omega
    rw [if_neg h1]
    by_cases h2 : pb = 63
    · rw [if_pos h2, hq]
      simp only [Option.bind_some]
      rw [adv_ok q2]
      simp only [Option.bind_some]
      exact hnext _ _ (by simp) (by simp) (hs.drop _)
    rw [if_neg h2]
    by_cases h3 : pb = 91
    · rw [if_pos h3, hq]
      simp only [Option.bind_some]
      have hd : (pb :: pt).drop 1 = pt := rfl
      rw [hd]
      obtain ⟨r, hr, hr2⟩ := charsetLoop_safe nocase (if nocase then toupper q.1 else q.1) (pt.length + 1) false pt (by omega)
      unfold charset
      rw [hr]
      simp only [Option.bind_some]
      cases r with
      | none => exact ⟨_, rfl⟩
      | some p1 =>
        simp only []
        have hsuf := hr2 p1 rfl
        have hlen := hsuf.length_le
        rw [adv_ok q2]
        simp only [Option.bind_some]
        obtain ⟨x, hx⟩ := rdC_some p1
        rw [hx]
        simp only [Option.bind_some]
        by_cases hx0 : x = 0
        · rw [if_pos hx0]
          -- the pattern is used up (or a NUL byte ends it): the rest of the loop only looks at the string
          obtain ⟨f2, rfl⟩ : ∃ f, fuel = f + 1 := ⟨fuel - 1, by simp at hf; omega⟩
          rw [globLoop, hx]
          simp only [Option.bind_eq_bind, Option.bind_some]
          rw [if_pos hx0]
          obtain ⟨y, hy⟩ := rdC_some (s.drop q.2)
          rw [hy]; exact ⟨_, rfl⟩
        · rw [if_neg hx0]
          exact hnext _ _ (rdC_ne hx hx0) (by omega) (hs.drop _)
    rw [if_neg h3]
    have key : ∀ p1 : List UInt8, p1 ≠ [] → p1.length ≤ pt.length + 1 →
        ∃ b, ((uniCase nocase s).bind fun q => (uniCase nocase p1).bind fun r =>
          if r.1 ≠ q.1 then some false else (adv s q.2).bind fun s1 => next nocase (globLoop nocase fuel) p1 s1) = some b := by
      intro p1 h1 h2
      obtain ⟨r, hr, -, -⟩ := uniCase_len nocase p1 h1
      rw [hq', hr]
      simp only [Option.bind_some]
      by_cases hx : r.1 ≠ q'.1
      · rw [if_pos hx]; exact ⟨_, rfl⟩
      · rw [if_neg hx, adv_ok q2']
        exact hnext _ _ h1 h2 (hs.drop _)
    by_cases h4 : pb = 92
    · rw [if_pos h4]
      obtain ⟨b1, e1, -⟩ := rdC_le (s := pb :: pt) (k := 1) (by simp)
      rw [e1]
      simp only [Option.bind_some]
      by_cases hb1 : b1 ≠ 0
      · rw [if_pos hb1]
        refine key _ ?_ (by simp)
        intro hnil
        have : pt = [] := hnil
        subst this
        have : rdC [pb] 1 = some 0 := rdC_len [pb]
        rw [e1] at this
        exact hb1 (Option.some.inj this)
      · rw [if_neg hb1]
        exact key _ (by simp) (by simp)
    · rw [if_neg h4]
      simp only [ne_eq, not_true_eq_false, if_false]
      exact key _ (by simp) (by simp)

/-- **C24, memory safety**: for any pattern and any string that is not empty, of any bytes, UTF-8 or not,
`Jsi_GlobMatch` ends without reading behind either string. -/
theorem C24_safe_partial (p s : List UInt8) (nocase : Bool) (hs : CStr s) (hne : s ≠ []) :
    ∃ b, globMatch p s nocase = some b :=
  globLoop_safe nocase _ p s hs hne (by omega)

example : CStr [0xc3, 0x28] ∧ globMatch [0x5b, 0xff, 0x2d] [0xc3, 0x28] false = some false ∧
    globMatch [0xc0, 0x80] [] false = none := by
  refine ⟨?_, by decide +kernel, by decide +kernel⟩
  unfold CStr; decide

end Verif.Glob
