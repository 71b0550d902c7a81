import Verif.Regex.Model

/-!
A language of regular expressions with its meaning (POSIX: leftmost, then longest), independent of the code, and an
engine that finds the match this meaning prescribes.  The theorems about replace and match are about these engines,
or about any engine that keeps to the conventions of `regexec` (`Valid`).
-/

namespace Verif.Regex

open Verif.Str (Bytes cstr)

/-- Regular expressions.  `set` is a character, a bracket expression or a dot; flag i is part of the sets. -/
inductive Rx where
  | eps
  | set (f : UInt8 → Bool)
  | seq (a b : Rx)
  | alt (a b : Rx)
  | star (a : Rx)
  /-- `^` without flag m -/
  | bol
  /-- `$` without flag m -/
  | eol
  /-- `^` with flag m -/
  | mbol
  /-- `$` with flag m -/
  | meol

/-- `r` matches the part of `s` from position `i` to position `j`.  With `nb` the text does not begin a line
(REG_NOTBOL). -/
inductive Matches (nb : Bool) (s : Bytes) : Rx → Nat → Nat → Prop where
  | eps (i) : Matches nb s .eps i i
  | set (f i c) : s[i]? = some c → f c = true → Matches nb s (.set f) i (i + 1)
  | seq (a b i k j) : Matches nb s a i k → Matches nb s b k j → Matches nb s (.seq a b) i j
  | altL (a b i j) : Matches nb s a i j → Matches nb s (.alt a b) i j
  | altR (a b i j) : Matches nb s b i j → Matches nb s (.alt a b) i j
  | starNil (a i) : Matches nb s (.star a) i i
  | starCons (a i k j) : Matches nb s a i k → Matches nb s (.star a) k j → Matches nb s (.star a) i j
  | bol : nb = false → Matches nb s .bol 0 0
  | eol : Matches nb s .eol s.length s.length
  | mbol0 : nb = false → Matches nb s .mbol 0 0
  | mbolNl (i) : s[i]? = some 10 → Matches nb s .mbol (i + 1) (i + 1)
  | meolEnd : Matches nb s .meol s.length s.length
  | meolNl (i) : s[i]? = some 10 → Matches nb s .meol i i

/-- The leftmost match that begins at `i` or later, and of these the longest, goes from `a` to `b`. -/
def FirstFrom (nb : Bool) (s : Bytes) (r : Rx) (i a b : Nat) : Prop :=
  i ≤ a ∧ a ≤ s.length ∧ Matches nb s r a b ∧ (∀ a' b', i ≤ a' → a' ≤ s.length → Matches nb s r a' b' → a ≤ a') ∧
    ∀ b', Matches nb s r a b' → b' ≤ b

/-- There is no match that begins at `i` or later. -/
def NoneFrom (nb : Bool) (s : Bytes) (r : Rx) (i : Nat) : Prop :=
  ∀ a b, i ≤ a → a ≤ s.length → ¬ Matches nb s r a b

/-- No `^` with flag m in it. -/
def Rx.noM : Rx → Bool
  | .seq a b => a.noM && b.noM
  | .alt a b => a.noM && b.noM
  | .star a => a.noM
  | .mbol => false
  | _ => true

/-- `r` matches no empty part of any text. -/
def NonEmpty (r : Rx) : Prop := ∀ nb s i, ¬ Matches nb s r i i

theorem Matches.le {nb s r i j} (h : Matches nb s r i j) : i ≤ j := by
  induction h <;> omega

theorem Matches.bound {nb s r i j} (h : Matches nb s r i j) : i ≤ s.length → j ≤ s.length := by
  induction h with
  | set f i c h => intro _; have := (List.getElem?_eq_some_iff.mp h).1; omega
  | seq a b i k j _ _ ih1 ih2 => exact fun h => ih2 (ih1 h)
  | altL a b i j _ ih => exact ih
  | altR a b i j _ ih => exact ih
  | starCons a i k j _ _ ih1 ih2 => exact fun h => ih2 (ih1 h)
  | _ => intro h; exact h

/-! ### Texts from the middle -/

/-- Matching in what is left of a text, told that it does not begin a line, is matching in the text. -/
theorem Matches.shift {nb s r} (hr : r.noM = true) (i : Nat) (hi : i ≤ s.length) {a b : Nat} :
    Matches (nb || decide (0 < i)) (s.drop i) r a b ↔ Matches nb s r (i + a) (i + b) := by
  constructor
  · intro h
    induction h with
    | eps => exact .eps _
    | set f a c h hf => exact .set f (i + a) c (by rw [← h, List.getElem?_drop]) hf
    | seq x y a k b _ _ ih1 ih2 =>
      simp only [Rx.noM, Bool.and_eq_true] at hr
      exact .seq _ _ _ _ _ (ih1 hr.1) (ih2 hr.2)
    | altL x y a b _ ih => simp only [Rx.noM, Bool.and_eq_true] at hr; exact .altL _ _ _ _ (ih hr.1)
    | altR x y a b _ ih => simp only [Rx.noM, Bool.and_eq_true] at hr; exact .altR _ _ _ _ (ih hr.2)
    | starNil => exact .starNil _ _
    | starCons x a k b _ _ ih1 ih2 => exact .starCons _ _ _ _ (ih1 hr) (ih2 hr)
    | bol h =>
      simp only [Bool.or_eq_false_iff, decide_eq_false_iff_not] at h
      have : i = 0 := by omega
      subst this; exact .bol h.1
    | eol => rw [List.length_drop, show i + (s.length - i) = s.length by omega]; exact .eol
    | mbol0 => simp [Rx.noM] at hr
    | mbolNl => simp [Rx.noM] at hr
    | meolEnd => rw [List.length_drop, show i + (s.length - i) = s.length by omega]; exact .meolEnd
    | meolNl a h => exact .meolNl _ (by rw [← h, List.getElem?_drop])
  · intro h
    generalize hx : i + a = x at h
    generalize hy : i + b = y at h
    induction h generalizing a b with
    | eps => rw [show b = a by omega]; exact .eps _
    | set f k c h hf =>
      rw [show b = a + 1 by omega]
      exact .set f a c (by rw [List.getElem?_drop, hx, h]) hf
    | seq p q u k v h1 h2 ih1 ih2 =>
      simp only [Rx.noM, Bool.and_eq_true] at hr
      have := h1.le
      exact .seq _ _ _ (k - i) _ (ih1 hr.1 hx (by omega)) (ih2 hr.2 (by omega) hy)
    | altL p q u v _ ih => simp only [Rx.noM, Bool.and_eq_true] at hr; exact .altL _ _ _ _ (ih hr.1 hx hy)
    | altR p q u v _ ih => simp only [Rx.noM, Bool.and_eq_true] at hr; exact .altR _ _ _ _ (ih hr.2 hx hy)
    | starNil => rw [show b = a by omega]; exact .starNil _ _
    | starCons p u k v h1 h2 ih1 ih2 =>
      have := h1.le
      exact .starCons _ _ (k - i) _ (ih1 hr hx (by omega)) (ih2 hr (by omega) hy)
    | bol h =>
      have h1 : i = 0 := by omega
      have h2 : a = 0 := by omega
      have h3 : b = 0 := by omega
      subst h1; subst h2; subst h3; exact .bol (by simp [h])
    | eol =>
      have h1 : a = (s.drop i).length := by rw [List.length_drop]; omega
      have h2 : b = (s.drop i).length := by rw [List.length_drop]; omega
      rw [h1, h2]; exact .eol
    | mbol0 => simp [Rx.noM] at hr
    | mbolNl => simp [Rx.noM] at hr
    | meolEnd =>
      have h1 : a = (s.drop i).length := by rw [List.length_drop]; omega
      have h2 : b = (s.drop i).length := by rw [List.length_drop]; omega
      rw [h1, h2]; exact .meolEnd
    | meolNl u h => rw [show b = a by omega]; exact .meolNl _ (by rw [List.getElem?_drop, hx, h])

/-! ### An engine -/

/-- Repeating a step that goes forward. -/
def reach (f : Nat → List Nat) : Nat → Nat → List Nat
  | 0, i => [i]
  | n + 1, i => i :: ((f i).filter (fun k => decide (i < k))).flatMap (reach f n)

/-- The ends of the matches that begin at `i`. -/
def ends (nb : Bool) (s : Bytes) : Rx → Nat → List Nat
  | .eps, i => [i]
  | .set f, i => match s[i]? with
    | some c => if f c then [i + 1] else []
    | none => []
  | .seq a b, i => (ends nb s a i).flatMap (ends nb s b)
  | .alt a b, i => ends nb s a i ++ ends nb s b i
  | .star a, i => reach (ends nb s a) (s.length - i) i
  | .bol, i => if i = 0 ∧ nb = false then [i] else []
  | .eol, i => if i = s.length then [i] else []
  | .mbol, i => if (i = 0 ∧ nb = false) ∨ (0 < i ∧ s[i - 1]? = some 10) then [i] else []
  | .meol, i => if i = s.length ∨ s[i]? = some 10 then [i] else []

theorem ends_sound (nb : Bool) (s : Bytes) (r : Rx) : ∀ i j, j ∈ ends nb s r i → Matches nb s r i j := by
  induction r with
  | eps => intro i j h; simp only [ends, List.mem_singleton] at h; subst h; exact .eps _
  | set f =>
    intro i j h
    simp only [ends] at h
    cases hc : s[i]? with
    | none => rw [hc] at h; simp at h
    | some c =>
      rw [hc] at h
      by_cases hf : f c = true
      · simp only [hf, if_true, List.mem_singleton] at h; subst h; exact .set _ _ c hc hf
      · simp [hf] at h
  | seq a b iha ihb =>
    intro i j h
    simp only [ends, List.mem_flatMap] at h
    obtain ⟨k, hk, hj⟩ := h
    exact .seq _ _ _ k _ (iha _ _ hk) (ihb _ _ hj)
  | alt a b iha ihb =>
    intro i j h
    simp only [ends, List.mem_append] at h
    exact h.elim (fun h => .altL _ _ _ _ (iha _ _ h)) (fun h => .altR _ _ _ _ (ihb _ _ h))
  | star a iha =>
    intro i j h
    simp only [ends] at h
    generalize s.length - i = n at h
    induction n generalizing i with
    | zero => simp only [reach, List.mem_singleton] at h; subst h; exact .starNil _ _
    | succ n ih =>
      simp only [reach, List.mem_cons, List.mem_flatMap, List.mem_filter] at h
      rcases h with h | ⟨k, ⟨hk, _⟩, hj⟩
      · subst h; exact .starNil _ _
      · exact .starCons _ _ k _ (iha _ _ hk) (ih _ hj)
  | bol =>
    intro i j h
    simp only [ends] at h
    split at h
    · rename_i hc
      simp only [List.mem_singleton] at h
      subst h; obtain ⟨h1, h2⟩ := hc; subst h1; exact .bol h2
    · cases h
  | eol =>
    intro i j h
    simp only [ends] at h
    split at h
    · rename_i hc
      simp only [List.mem_singleton] at h
      subst h; subst hc; exact .eol
    · cases h
  | mbol =>
    intro i j h
    simp only [ends] at h
    split at h
    · rename_i hc
      simp only [List.mem_singleton] at h
      subst h
      rcases hc with ⟨h1, h2⟩ | ⟨h1, h2⟩
      · subst h1; exact .mbol0 h2
      · have := Matches.mbolNl (nb := nb) (j - 1) h2
        rwa [show j - 1 + 1 = j by omega] at this
    · cases h
  | meol =>
    intro i j h
    simp only [ends] at h
    split at h
    · rename_i hc
      simp only [List.mem_singleton] at h
      subst h
      rcases hc with h1 | h1
      · subst h1; exact .meolEnd
      · exact .meolNl _ h1
    · cases h

theorem reach_mono (f : Nat → List Nat) : ∀ n i, i ∈ reach f n i := by
  intro n i; cases n <;> simp [reach]

theorem ends_complete (nb : Bool) (s : Bytes) (r : Rx) {i j : Nat} (h : Matches nb s r i j) :
    i ≤ s.length → j ∈ ends nb s r i := by
  induction h with
  | eps => intro _; simp [ends]
  | set f i c hc hf => intro _; simp [ends, hc, hf]
  | seq a b i k j h1 h2 ih1 ih2 =>
    intro hi; simp only [ends, List.mem_flatMap]; exact ⟨k, ih1 hi, ih2 (h1.bound hi)⟩
  | altL a b i j _ ih => intro hi; simp only [ends, List.mem_append]; exact .inl (ih hi)
  | altR a b i j _ ih => intro hi; simp only [ends, List.mem_append]; exact .inr (ih hi)
  | starNil => intro _; simp only [ends]; exact reach_mono _ _ _
  | starCons a i k j h1 h2 ih1 ih2 =>
    intro hi
    have hk := h1.bound hi
    have h3 := ih2 hk
    by_cases hki : k = i
    · subst hki; exact h3
    · have hlt : i < k := by have := h1.le; omega
      simp only [ends] at h3 ⊢
      have hmono : ∀ (f : Nat → List Nat) (m n i j : Nat), m ≤ n → j ∈ reach f m i → j ∈ reach f n i := by
        intro f m
        induction m with
        | zero =>
          intro n i j _ h; simp only [reach, List.mem_singleton] at h; subst h; exact reach_mono _ _ _
        | succ m ih =>
          intro n i j hmn h
          obtain ⟨n', rfl⟩ : ∃ n', n = n' + 1 := ⟨n - 1, by omega⟩
          simp only [reach, List.mem_cons, List.mem_flatMap] at h ⊢
          rcases h with h | ⟨k, hk, hj⟩
          · exact .inl h
          · exact .inr ⟨k, hk, ih n' k j (by omega) hj⟩
      obtain ⟨n, hn⟩ : ∃ n, s.length - i = n + 1 := ⟨s.length - i - 1, by omega⟩
      rw [hn]
      simp only [reach, List.mem_cons, List.mem_flatMap, List.mem_filter]
      exact .inr ⟨k, ⟨ih1 hi, by simp [hlt]⟩, hmono _ _ _ _ _ (by omega) h3⟩
  | bol h => intro _; simp [ends, h]
  | eol => intro _; simp [ends]
  | mbol0 h => intro _; simp [ends, h]
  | mbolNl i h => intro _; simp [ends, h]
  | meolEnd => intro _; simp [ends]
  | meolNl i h => intro _; simp [ends, h]

/-- The largest member of a list. -/
def largest : List Nat → Nat
  | [] => 0
  | x :: l => max x (largest l)

theorem largest_mem : ∀ {l : List Nat}, l ≠ [] → largest l ∈ l
  | [x], _ => by simp [largest]
  | x :: y :: l, _ => by
    have h : largest (y :: l) ∈ y :: l := largest_mem (by simp)
    rw [largest]
    rcases Nat.le_total x (largest (y :: l)) with h' | h'
    · rw [Nat.max_eq_right h']; exact List.mem_cons_of_mem _ h
    · rw [Nat.max_eq_left h']; simp

theorem le_largest : ∀ {l : List Nat} {x : Nat}, x ∈ l → x ≤ largest l
  | y :: l, x, h => by
    rw [largest]
    rcases List.mem_cons.mp h with h | h
    · subst h; omega
    · have := le_largest h; omega

/-- The first match that begins at one of the `n` positions from `i` on. -/
def seek (nb : Bool) (s : Bytes) (r : Rx) : Nat → Nat → Option (Nat × Nat)
  | 0, _ => none
  | n + 1, i => if ends nb s r i = [] then seek nb s r n (i + 1) else some (i, largest (ends nb s r i))

/-- The engine for `r`: it tells where the leftmost, longest match is (and nothing about groups). -/
def posix (r : Rx) : Engine := fun nb s =>
  match seek nb s r (s.length + 1) 0 with
  | some (a, b) => .found [⟨a, b⟩]
  | none => .miss

theorem seek_some {nb s r} : ∀ n i a b, i + n ≤ s.length + 1 → seek nb s r n i = some (a, b) →
    FirstFrom nb s r i a b
  | 0, _, _, _, _, h => by simp [seek] at h
  | n + 1, i, a, b, hi, h => by
    rw [seek] at h
    split at h
    · rename_i he
      obtain ⟨h1, h2, h3, h4, h5⟩ := seek_some n (i + 1) a b (by omega) h
      refine ⟨by omega, h2, h3, ?_, h5⟩
      intro a' b' h6 h7 h8
      rcases Nat.lt_or_ge i a' with h9 | h9
      · exact h4 a' b' (by omega) h7 h8
      · have : a' = i := by omega
        subst this
        have := ends_complete _ _ _ h8 h7
        rw [he] at this; cases this
    · rename_i he
      simp only [Option.some.injEq, Prod.mk.injEq] at h
      obtain ⟨h1, h2⟩ := h
      subst h1; subst h2
      refine ⟨Nat.le_refl _, by omega, ends_sound _ _ _ _ _ (largest_mem he), fun _ _ h _ _ => h, ?_⟩
      intro b' hb'
      exact le_largest (ends_complete _ _ _ hb' (by omega))

theorem seek_none {nb s r} : ∀ n i, i + n = s.length + 1 → seek nb s r n i = none → NoneFrom nb s r i
  | 0, i, hi, _ => by intro a b h1 h2; omega
  | n + 1, i, hi, h => by
    rw [seek] at h
    split at h
    · rename_i he
      intro a b h1 h2 h3
      rcases Nat.lt_or_ge i a with h9 | h9
      · exact seek_none n (i + 1) (by omega) h a b (by omega) h2 h3
      · have : a = i := by omega
        subst this
        have := ends_complete _ _ _ h3 h2
        rw [he] at this; cases this
    · cases h

/-- What the engine answers, in terms of the meaning. -/
theorem posix_spec (r : Rx) (nb : Bool) (s : Bytes) :
    (∃ a b : Nat, posix r nb s = .found [⟨a, b⟩] ∧ FirstFrom nb s r 0 a b) ∨
      (posix r nb s = .miss ∧ NoneFrom nb s r 0) := by
  unfold posix
  cases h : seek nb s r (s.length + 1) 0 with
  | none => exact .inr ⟨rfl, seek_none _ _ (by omega) h⟩
  | some p => obtain ⟨a, b⟩ := p; exact .inl ⟨a, b, rfl, seek_some _ _ _ _ (by omega) h⟩

/-! ### The conventions of `regexec` -/

/-- A span that lies in a text of length `n`. -/
def Span.In (m : Span) (n : Nat) : Prop := 0 ≤ m.so ∧ m.so ≤ m.eo ∧ m.eo ≤ n

/-- An engine keeps to the conventions: the match is in the text, and each group is in the text or -1, -1. -/
structure Valid (E : Engine) : Prop where
  found : ∀ nb s l, E nb s = .found l → ∃ m gs, l = m :: gs ∧ m.In s.length ∧
    ∀ g ∈ gs, g = ⟨-1, -1⟩ ∨ g.In s.length

theorem posix_valid (r : Rx) : Valid (posix r) := by
  constructor
  intro nb s l h
  rcases posix_spec r nb s with ⟨a, b, h1, h2⟩ | ⟨h1, _⟩
  · rw [h1] at h
    simp only [Res.found.injEq] at h
    subst h
    refine ⟨_, [], rfl, ⟨?_, ?_, ?_⟩, by simp⟩
    · exact Int.natCast_nonneg a
    · have := h2.2.2.1.le; simp only; omega
    · have := h2.2.2.1.bound h2.2.1; simp only; omega
  · rw [h1] at h; cases h

end Verif.Regex
