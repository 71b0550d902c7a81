import Verif.Lex.Run
import Mathlib.Data.List.Forall2
/-! A script is read as it is written. -/
namespace Verif.Lex

theorem split_nl {s t p q : List UInt8} (h : s ++ t = p ++ 10 :: q) :
    (∃ a, s = p ++ 10 :: a ∧ q = a ++ t) ∨ (∃ b, p = s ++ b ∧ t = b ++ 10 :: q) := by
  rcases List.append_eq_append_iff.mp h with ⟨a, h1, h2⟩ | ⟨a, h1, h2⟩
  · exact Or.inr ⟨a, h1, h2⟩
  · cases a with
    | nil => exact Or.inr ⟨[], by simpa using h1.symm, by simpa using h2.symm⟩
    | cons x a =>
      rw [List.cons_append] at h2
      injection h2 with e1 e2
      subst e1
      exact Or.inl ⟨a, h1, e2⟩

theorem sep_del {s : List UInt8} (hs : Sep s) : ∀ {p q : List UInt8}, s = p ++ 10 :: q → 10 ∉ p → p.length ≤ 2 →
    Sep (p ++ q) ∧ p.getLast? ≠ some 92 := by
  induction hs with
  | nil => intro p q h; simp at h
  | blank c s hc hs ih =>
    intro p q h h10 hl
    cases p with
    | nil => simp only [List.nil_append] at h; injection h with _ e; exact ⟨by rw [List.nil_append, ← e]; exact hs, by simp⟩
    | cons x p =>
      rw [List.cons_append] at h
      injection h with e1 e2
      obtain ⟨i1, i2⟩ := ih e2 (fun hm => h10 (by simp [hm])) (by simp at hl; omega)
      refine ⟨by rw [List.cons_append, ← e1]; exact Sep.blank c _ hc i1, ?_⟩
      cases p with
      | nil =>
        rw [← e1]
        rcases hc with e | e | e | e <;> subst e <;> simp
      | cons y p => rw [List.getLast?_cons_cons]; exact i2
  | line b e s hb h1 h2 he hs ih =>
    intro p q h h10 hl
    exfalso
    match p, hl with
    | [], _ => simp at h
    | [x], _ => simp at h
    | [x, y], _ =>
      simp only [List.cons_append, List.nil_append] at h
      injection h with _ h
      injection h with _ h
      cases b with
      | nil => exact hb rfl
      | cons z b => injection h with e1 _; exact h1 (by rw [e1]; simp)
  | block b s hb hs ih =>
    intro p q h h10 hl
    match p, hl with
    | [], _ => simp at h
    | [x], _ => simp at h
    | [x, y], _ =>
      simp only [List.cons_append, List.nil_append] at h
      injection h with e0 h
      injection h with e1 h
      cases b with
      | nil => simp at h
      | cons z b =>
        rw [List.cons_append] at h
        injection h with _ e2
        refine ⟨?_, by rw [← e1]; simp⟩
        rw [← e0, ← e1, ← e2]
        exact Sep.block b s (fun hi => hb (hi.trans (List.suffix_cons _ _).isInfix)) hs

theorem digit_ge {c : UInt8} (h : Digit c) : 43 ≤ c ∧ c ≠ 92 :=
  ⟨UInt8.le_trans (by decide) h.1, by rintro rfl; exact absurd h.2 (by decide)⟩

theorem hex_ge {c : UInt8} (h : Json.IsHex c) : 43 ≤ c ∧ c ≠ 92 := by
  rcases h with h | h | h
  · exact digit_ge h
  · exact ⟨UInt8.le_trans (by decide) h.1, by rintro rfl; exact absurd h.2 (by decide)⟩
  · exact ⟨UInt8.le_trans (by decide) h.1, by rintro rfl; exact absurd h.1 (by decide)⟩

theorem num_chars {m : Num} (h : m.Ok) : ∀ c ∈ m.text, 43 ≤ c ∧ c ≠ 92 := by
  intro c hc
  cases m with
  | dec ip fp ex =>
    obtain ⟨h1, h2, h3, _, _⟩ := h
    simp only [Num.text, List.mem_append] at hc
    rcases hc with hc | hc | hc
    · exact digit_ge (h1 c hc)
    · cases fp with
      | none => simp [fracText] at hc
      | some f =>
        simp only [fracText, List.mem_cons] at hc
        rcases hc with rfl | hc
        · decide
        · exact digit_ge (h2 f rfl c hc)
    · cases ex with
      | none => simp [expText] at hc
      | some x =>
        obtain ⟨e1, e2, e3, e4⟩ := h3 x rfl
        simp only [expText, Exp.text, List.mem_cons, List.mem_append] at hc
        rcases hc with rfl | hc | hc
        · rcases e1 with e | e <;> rw [e] <;> decide
        · rcases e2 with e | e | e <;> rw [e] at hc <;> simp at hc <;> subst hc <;> decide
        · exact digit_ge (e4 c hc)
  | hex x ds =>
    obtain ⟨h1, h2, h3, _⟩ := h
    simp only [Num.text, List.mem_cons] at hc
    rcases hc with rfl | rfl | hc
    · decide
    · rcases h1 with e | e <;> rw [e] <;> decide
    · exact hex_ge (h3 c hc)
  | oct ds =>
    obtain ⟨h1, h2, _⟩ := h
    simp only [Num.text, List.mem_cons] at hc
    rcases hc with rfl | hc
    · decide
    · exact digit_ge ⟨(h2 c hc).1, UInt8.le_trans (h2 c hc).2 (by decide)⟩

theorem num_ne {m : Num} (h : m.Ok) : m.text ≠ [] := by
  cases m with
  | dec ip fp ex =>
    obtain ⟨_, _, _, h4, _⟩ := h
    intro e
    simp only [Num.text, List.append_eq_nil_iff] at e
    obtain ⟨f, hf, _⟩ := h4 e.1
    rw [hf] at e
    simp [fracText] at e
  | hex x ds => simp [Num.text]
  | oct ds => simp [Num.text]

theorem ge_blank {c : UInt8} (h : 33 ≤ c) : ¬ Blank c := by
  rintro (rfl | rfl | rfl | rfl) <;> exact absurd h (by decide)

theorem name_ne {c : UInt8} (h : NameChar c) : c ≠ 92 := by
  rcases h with h | h
  · exact (name_facts h).2.2.2.2.1
  · exact (digit_ge h).2

theorem alnum_ne {c : UInt8} (h : Letter c ∨ Digit c) : c ≠ 92 := by
  rcases h with h | h
  · exact name_ne (Or.inl (Or.inl h))
  · exact name_ne (Or.inr h)

/-- How a token begins and ends. -/
theorem tok_ends {last : Tok} {tk : STok} (h : tk.Ok last) : (∃ c t, tk.text = c :: t ∧ ¬ Blank c) ∧ tk.text.getLast? ≠ some 92 := by
  have lastOf : ∀ (t : List UInt8), (∀ c ∈ t, c ≠ 92) → t.getLast? ≠ some 92 := fun t ht e => ht 92 (List.mem_of_getLast? e) rfl
  cases tk with
  | word w =>
    obtain ⟨⟨c, hc, hcs⟩, hw, _⟩ := h
    refine ⟨?_, lastOf _ (fun c hc => name_ne (hw c hc))⟩
    cases w with
    | nil => simp at hc
    | cons x w => simp at hc; subst hc; exact ⟨x, w, rfl, (name_facts hcs).2.2.2.1⟩
  | num m =>
    have hc := num_chars h.1
    refine ⟨?_, lastOf _ (fun c hm => (hc c hm).2)⟩
    cases hm : m.text with
    | nil => exact absurd hm (num_ne h.1)
    | cons c t => exact ⟨c, t, by simp [STok.text, hm], ge_blank (UInt8.le_trans (by decide) (hc c (by rw [hm]; simp)).1)⟩
  | str q ps =>
    refine ⟨⟨q, _, rfl, ?_⟩, ?_⟩
    · rcases h.1 with e | e | e <;> rw [e] <;> (unfold Blank; decide)
    · have : (STok.str q ps).text = (q :: ptext ps) ++ [q] := rfl
      rw [this, List.getLast?_append]
      rcases h.1 with e | e | e <;> rw [e] <;> simp
  | regex ps fl =>
    obtain ⟨_, _, hfl, _⟩ := h
    refine ⟨⟨47, _, rfl, by unfold Blank; decide⟩, ?_⟩
    have : (STok.regex ps fl).text = (47 :: retext ps) ++ (47 :: fl) := rfl
    rw [this, List.getLast?_append]
    have h2 := lastOf (47 :: fl) (by
      intro c hc
      simp only [List.mem_cons] at hc
      rcases hc with rfl | hc
      · decide
      · exact alnum_ne (hfl c hc))
    cases hx : (47 :: fl).getLast? with
    | none => simp at hx
    | some y => simp only [Option.some_or]; rw [← hx]; exact h2
  | op s =>
    have ht : ∀ o ∈ operators, (asc o).getLast? ≠ some 92 := by decide +kernel
    have hs := operators_signs s h.1
    obtain ⟨a1, a2, _⟩ := sign_facts _ hs
    refine ⟨?_, ht s h.1⟩
    show ∃ c t, asc s = c :: t ∧ ¬ Blank c
    revert a1 a2
    cases asc s with
    | nil => simp
    | cons c t =>
      intro a1 a2
      refine ⟨c, t, rfl, ?_⟩
      obtain ⟨_, _, b3⟩ := sign_start c a1
      simp only [List.mem_cons, List.not_mem_nil, or_false, not_or] at b3
      rintro (e | e | e | e)
      · exact b3.2.2.2.1 e
      · exact b3.2.2.2.2.1 e
      · exact b3.2.2.2.2.2.1 e
      · exact b3.2.2.2.2.2.2.1 e
  | punct c =>
    refine ⟨⟨c, [], rfl, ge_blank h.1⟩, ?_⟩
    show [c].getLast? ≠ some 92
    simp only [List.getLast?_singleton, ne_eq, Option.some.injEq]
    exact h.2.2.2.2.1

theorem tok_val {last : Tok} {tk : STok} (h : tk.Ok last) : isEnd tk.val = false ∧ isComment tk.val = false := by
  cases tk with
  | word w => simp only [STok.val]; split <;> exact ⟨rfl, by simp [isComment]⟩
  | num m => exact ⟨rfl, by simp [isComment, STok.val]⟩
  | str q ps => exact ⟨rfl, by simp [isComment, STok.val]⟩
  | regex ps fl => exact ⟨rfl, by simp [isComment, STok.val]⟩
  | op s => exact ⟨rfl, by simp [isComment, STok.val]⟩
  | punct c =>
    have hc : c ≤ 126 := h.2.1
    have hl : c.toNat ≤ 126 := by simpa using UInt8.le_iff_toNat_le.mp hc
    constructor
    · simp only [isEnd, STok.val, decide_eq_false_iff_not, UInt8.le_iff_toNat_le]
      have : (128 : UInt8).toNat = 128 := rfl
      omega
    · have : c ≠ 128 := by rintro rfl; exact absurd hc (by decide)
      simp [isComment, STok.val, this]

theorem newlines_append (s t : List UInt8) : newlines (s ++ t) = newlines s + newlines t := by simp [newlines]

theorem nl_newlines (t : List UInt8) : nl t = (newlines t : Int) := rfl

/-- A newline near the beginning may be taken away. -/
theorem script_del {sp : Bool} {last : Tok} {T : List UInt8} {ts : List (STok × Nat)} (hs : Script sp last T ts) :
    ∀ {p q : List UInt8}, T = p ++ 10 :: q → 10 ∉ p → p.length ≤ 2 →
    p.getLast? ≠ some 92 ∧ ∃ ts', Script sp last (p ++ q) ts' ∧ List.Forall₂ (fun a b => a.1 = b.1 ∧ a.2 ≤ b.2) ts' ts ∧
      (sp = true → (p.head? = some 32 ∨ p.head? = some 9) → ts' = ts) := by
  induction hs with
  | nil last s t hse ht =>
    intro p q h h10 hl
    rcases split_nl h with ⟨a, h1, h2⟩ | ⟨b, h1, h2⟩
    · obtain ⟨i1, i2⟩ := sep_del hse h1 h10 hl
      refine ⟨i2, [], ?_, List.Forall₂.nil, fun _ _ => rfl⟩
      rw [h2, ← List.append_assoc]
      exact Script.nil last _ t i1 ht
    · exfalso
      rcases ht with rfl | ⟨b', rfl, hb10, _⟩
      · simp at h2
      · have : (10 : UInt8) ∈ (47 :: 47 :: b') := by rw [h2]; simp
        simp at this; exact hb10 this
  | cons last s tk r ts hse hok hnl hf hf2 hsp hrest ih =>
    intro p q h h10 hl
    have refl : ∀ l : List (STok × Nat), List.Forall₂ (fun a b => a.1 = b.1 ∧ a.2 ≤ b.2) l l := by
      intro l; induction l with
      | nil => exact List.Forall₂.nil
      | cons x l ih => exact List.Forall₂.cons ⟨rfl, Nat.le_refl _⟩ ih
    rcases split_nl h with ⟨a, h1, h2⟩ | ⟨b, h1, h2⟩
    · obtain ⟨i1, i2⟩ := sep_del hse h1 h10 hl
      refine ⟨i2, _, ?_, refl _, fun _ _ => rfl⟩
      rw [h2, ← List.append_assoc]
      exact Script.cons last _ tk r ts i1 hok hnl hf hf2 hsp hrest
    · rcases split_nl h2 with ⟨a, h3, h4⟩ | ⟨b', h3, h4⟩
      · refine absurd ?_ hnl
        have hb : b.length ≤ 2 := by rw [h1] at hl; simp at hl; omega
        rw [h3, List.take_append]
        have : (10 :: a).take (3 - b.length) = 10 :: a.take (2 - b.length) := by
          rw [show 3 - b.length = (2 - b.length) + 1 by omega]; rfl
        rw [this]; simp
      · obtain ⟨⟨c, t, hct, hcb⟩, hlast⟩ := tok_ends hok
        subst h1 h3
        have h10' : 10 ∉ b' := fun hm => h10 (by simp [hm])
        obtain ⟨j1, ts', j2, j3, j4⟩ := ih h4 h10' (by simp at hl; omega)
        refine ⟨?_, (tk, newlines (tk.text ++ (b' ++ q))) :: ts', ?_, ?_, ?_⟩
        · cases b' with
          | nil =>
            rw [List.append_nil, List.getLast?_append]
            cases hx : tk.text.getLast? with
            | none => rw [hct] at hx; simp at hx
            | some y => simp only [Option.some_or]; rw [← hx]; exact hlast
          | cons y b' =>
            rw [← List.append_assoc, List.getLast?_append]
            cases hx : (y :: b').getLast? with
            | none => simp at hx
            | some z => simp only [Option.some_or]; rw [← hx]; exact j1
        · rw [show s ++ (tk.text ++ b') ++ q = s ++ (tk.text ++ (b' ++ q)) by simp]
          have hfit : tk.Fits (b' ++ q) ∧ tk.Fits (noLead (b' ++ q)) ∧ (sp = true → b' ++ q = [] ∨ (b' ++ q).head? = some 32 ∨ (b' ++ q).head? = some 9) := by
            cases b' with
            | nil =>
              simp only [List.nil_append] at h4 ⊢
              subst h4
              have e : noLead (10 :: q) = noLead q := by simp [noLead]
              rw [e] at hf2
              refine ⟨?_, hf2, ?_⟩
              · cases q with
                | nil => intro c hc; simp at hc
                | cons x q =>
                  by_cases hx : x = 10
                  · subst hx; intro c hc; exact hf c hc
                  · have : noLead (x :: q) = x :: q := by simp [noLead, hx]
                    rwa [this] at hf2
              · intro hs; have := hsp hs; simp at this
            | cons y b' =>
              have hy : y ≠ 10 := fun e => h10' (by rw [e]; simp)
              subst h4
              have e : noLead (y :: b' ++ q) = y :: b' ++ q := by simp [noLead, hy]
              have hh : tk.Fits (y :: b' ++ q) := fun c hc => hf c (by simpa using hc)
              refine ⟨hh, by rw [e]; exact hh, ?_⟩
              intro hs; have := hsp hs; simpa using this
          exact Script.cons last s tk _ ts' hse hok hnl hfit.1 hfit.2.1 hfit.2.2 j2
        · refine List.Forall₂.cons ⟨rfl, ?_⟩ j3
          rw [h4]
          simp only [newlines_append]
          have : newlines (10 :: q) = newlines q + 1 := by simp [newlines]
          omega
        · intro hsp' hhead
          exfalso
          cases s with
          | nil =>
            rw [hct] at hhead
            simp at hhead
            apply hcb
            unfold Blank
            rcases hhead with e | e <;> simp [e]
          | cons x s =>
            rw [hct] at hl
            have hb : b' = [] := by
              cases b' with
              | nil => rfl
              | cons y b' => simp at hl; omega
            subst hb
            have := hsp hsp'
            rw [h4] at this
            simp at this

theorem script_nobs {sp : Bool} {last : Tok} {T : List UInt8} {ts : List (STok × Nat)} (hs : Script sp last T ts) : NoBs T :=
  fun _ _ h h10 hl => (script_del hs h h10 hl).1

theorem forall2_trans {α β γ : Type} {R : α → β → Prop} {S : β → γ → Prop} {T : α → γ → Prop} (hRS : ∀ a b c, R a b → S b c → T a c) :
    ∀ {as : List α} {bs : List β} {cs : List γ}, List.Forall₂ R as bs → List.Forall₂ S bs cs → List.Forall₂ T as cs := by
  intro as bs cs h1 h2
  induction h1 generalizing cs with
  | nil => cases h2; exact List.Forall₂.nil
  | cons h _ ih => cases h2 with
    | cons g hg => exact List.Forall₂.cons (hRS _ _ _ h g) (ih hg)

/-- The tokens and their lines. -/
theorem lexF_script (sd : List UInt8 → Bool) (hsd : ∀ ip fp ex, (Num.dec ip fp ex).Ok → sd (Num.dec ip fp ex).text = true) (sp : Bool)
    (n : Nat) : ∀ {last : Tok} {T : List UInt8} {ts : List (STok × Nat)} {K : Int} {l : L}, Script sp last T ts → At false 3 K l T → size l < n →
    ∃ ls e, (lexF sd n last l).1 = ls ++ [(e, .eof)] ∧
      List.Forall₂ (fun x y => x.2 = y.1.val ∧ K - (y.2 : Int) ≤ x.1 ∧ (sp = true → x.1 = K - (y.2 : Int))) ls ts := by
  induction n with
  | zero => intro last T ts K l _ _ hn; omega
  | succ n ih =>
    intro last T ts K l hs h hn
    cases hs with
    | nil _ s t hse ht =>
      obtain ⟨l', h1, h2⟩ := yylex_sep sd last hse h
      have h3 := yylex_tail sd last ht h1
      rw [← h2] at h3
      refine ⟨[], (yylex sd last (size l + 1) l).1.1, ?_, List.Forall₂.nil⟩
      rw [lexF]
      simp only [h3]
      rw [if_pos (by decide), ← h3]
      rfl
    | cons _ s tk r ts hse hok hnl hf hf2 hsp hrest =>
      obtain ⟨l', h1, h2⟩ := yylex_sep sd last hse h
      obtain ⟨h3, h4⟩ := yylex1_tok sd hsd last hok hf h1
      have h4 := h4 (script_nobs hrest)
      obtain ⟨he, hc⟩ := tok_val hok
      have hy : yylex sd last (size l + 1) l = yylex1 sd last l' := by
        rw [h2]; exact yylex_of _ _ _ (by rw [h3]; exact hc)
      obtain ⟨⟨c, t, hct, hcb⟩, _⟩ := tok_ends hok
      have hline : (yylex1 sd last l').1.1 = K - (newlines (tk.text ++ r) : Int) := by
        have h1' : At false 3 K l' (c :: (t ++ r)) := by rw [hct] at h1; exact h1
        rw [yylex1_line_at sd last hcb h1', nl_newlines, hct]; rfl
      have hsz : size (yylex1 sd last l').2 < n := by
        obtain ⟨_, hlt, _⟩ := yylex1_step sd last h1.inv h1.str
        have := hlt (by rw [h3]; intro e; rw [e] at he; simp [isEnd] at he)
        have e1 := h1.sz
        have e2 := h.sz
        simp at e1 e2
        omega
      have rest : ∃ ls e, (lexF sd n tk.val (yylex1 sd last l').2).1 = ls ++ [(e, .eof)] ∧
          List.Forall₂ (fun x y => x.2 = y.1.val ∧ K - (y.2 : Int) ≤ x.1 ∧ (sp = true → x.1 = K - (y.2 : Int))) ls ts := by
        rcases h4 with h4 | ⟨p, q, e1, e2, e3, h4⟩
        · exact ih hrest h4 hsz
        · obtain ⟨_, ts', k1, k2, k3⟩ := script_del hrest e1 e2 e3
          obtain ⟨ls, e, i1, i2⟩ := ih k1 h4 hsz
          refine ⟨ls, e, i1, ?_⟩
          by_cases hsp' : sp = true
          · have : ts' = ts := by
              apply k3 hsp'
              have := hsp hsp'
              rw [e1] at this
              cases p with
              | nil => simp at this
              | cons x p => simpa using this
            rw [← this]; exact i2
          · refine forall2_trans ?_ i2 k2
            rintro a b c ⟨r1, r2, _⟩ ⟨s1, s2⟩
            exact ⟨by rw [r1, s1], by omega, fun e => absurd e hsp'⟩
      obtain ⟨ls, e, i1, i2⟩ := rest
      refine ⟨(yylex1 sd last l').1 :: ls, e, ?_, List.Forall₂.cons ⟨h3, by omega, fun _ => hline⟩ i2⟩
      rw [lexF]
      simp only [hy, h3, he, i1]
      simp

end Verif.Lex
