import Verif.Repl.Model
/-!
# The interactive shell: theorems (C206)
-/
namespace Verif.Repl

theorem count_esc (d : UInt8) (t : Bytes) (n : Int) (q : Nat) : count (92 :: d :: t) n q = count t n q := by
  rw [count, if_pos rfl]

theorem count_cons (c : UInt8) (t : Bytes) (n : Int) (q : Nat) (h : c ≠ 92) :
    count (c :: t) n q =
      if c = 123 ∨ c = 40 ∨ c = 91 then count t (n + 1) q
      else if c = 39 ∨ c = 34 then count t n (q + 1)
      else if c = 125 ∨ c = 41 ∨ c = 93 then count t (n - 1) q
      else count t n q := by
  cases t with
  | nil =>
    show (if c = 92 then (n, q) else _) = _
    rw [if_neg h]; rfl
  | cons d t => rw [count, if_neg h]

theorem plain_ne {c : UInt8} (h : Plain c) :
    c ≠ 92 ∧ ¬ (c = 123 ∨ c = 40 ∨ c = 91) ∧ ¬ (c = 39 ∨ c = 34) ∧ ¬ (c = 125 ∨ c = 41 ∨ c = 93) := by
  unfold Plain at h
  simp only [List.mem_cons, List.not_mem_nil, or_false, not_or] at h
  obtain ⟨h1, h2, h3, h4, h5, h6, h7, h8, h9⟩ := h
  refine ⟨h1, ?_, ?_, ?_⟩ <;> rintro (rfl | h) <;> (try rcases h with rfl | rfl) <;> contradiction

theorem count_plain {c : UInt8} (h : Plain c) (t : Bytes) (n : Int) (q : Nat) : count (c :: t) n q = count t n q := by
  obtain ⟨h1, h2, h3, h4⟩ := plain_ne h
  rw [count_cons c t n q h1, if_neg h2, if_neg h3, if_neg h4]

theorem count_body : ∀ (b : List (Bool × UInt8)), BodyOk b → ∀ (t : Bytes) (n : Int) (q : Nat), count (body b ++ t) n q = count t n q
  | [], _, _, _, _ => rfl
  | (true, c) :: b, h, t, n, q => by
    show count (92 :: c :: (body b ++ t)) n q = _
    rw [count_esc]
    exact count_body b (fun p hp => h p (List.mem_cons_of_mem _ hp)) t n q
  | (false, c) :: b, h, t, n, q => by
    show count (c :: (body b ++ t)) n q = _
    have hc : Plain c := (h (false, c) (List.mem_cons_self ..)).resolve_left (by simp)
    rw [count_plain hc]
    exact count_body b (fun p hp => h p (List.mem_cons_of_mem _ hp)) t n q

theorem count_quote {c : UInt8} (h : c = 39 ∨ c = 34) (t : Bytes) (n : Int) (q : Nat) : count (c :: t) n q = count t n (q + 1) := by
  rcases h with rfl | rfl <;> rw [count_cons _ _ _ _ (by decide), if_neg (by decide), if_pos (by decide)]

theorem count_opn {c : UInt8} (h : c = 123 ∨ c = 40 ∨ c = 91) (t : Bytes) (n : Int) (q : Nat) : count (c :: t) n q = count t (n + 1) q := by
  rcases h with rfl | rfl | rfl <;> rw [count_cons _ _ _ _ (by decide), if_pos (by decide)]

theorem count_cls {c : UInt8} (h : c = 125 ∨ c = 41 ∨ c = 93) (t : Bytes) (n : Int) (q : Nat) : count (c :: t) n q = count t (n - 1) q := by
  rcases h with rfl | rfl | rfl <;> rw [count_cons _ _ _ _ (by decide), if_neg (by decide), if_neg (by decide), if_pos (by decide)]

/-- The counts are the number of brackets that are open, and an even number. -/
theorem count_render : ∀ (ts : List Tok), (∀ t ∈ ts, t.Ok) → ∀ (s s' : List UInt8) (r : Bytes) (q : Nat), pending ts s = some s' →
    ∃ m, count (render ts ++ r) (s.length : Int) q = count r (s'.length : Int) (q + 2 * m)
  | [], _, s, s', r, q, h => ⟨0, by
    have : s = s' := Option.some.inj h
    rw [this]; rfl⟩
  | t :: ts, hok, s, s', r, q, h => by
    have ht := hok t (List.mem_cons_self ..)
    have hts : ∀ x ∈ ts, x.Ok := fun x hx => hok x (List.mem_cons_of_mem _ hx)
    have e : render (t :: ts) ++ r = t.text ++ (render ts ++ r) := by simp [render]
    rw [e]
    cases t with
    | ch c =>
      obtain ⟨m, hm⟩ := count_render ts hts s s' r q h
      exact ⟨m, (count_plain ht _ _ _).trans hm⟩
    | esc c =>
      obtain ⟨m, hm⟩ := count_render ts hts s s' r q h
      exact ⟨m, (count_esc _ _ _ _).trans hm⟩
    | opn c =>
      obtain ⟨m, hm⟩ := count_render ts hts (closer c :: s) s' r q h
      refine ⟨m, (count_opn ht _ _ _).trans ?_⟩
      rw [← hm, List.length_cons]
      rfl
    | cls c =>
      cases s with
      | nil => exact absurd h (by simp [pending])
      | cons d s =>
        rw [pending] at h
        split at h
        · obtain ⟨m, hm⟩ := count_render ts hts s s' r q h
          refine ⟨m, (count_cls ht _ _ _).trans ?_⟩
          rw [← hm, List.length_cons]
          have : ((s.length + 1 : Nat) : Int) - 1 = (s.length : Int) := by omega
          rw [this]
          rfl
        · exact absurd h (by simp)
    | str k b =>
      obtain ⟨m, hm⟩ := count_render ts hts s s' r (q + 2) h
      refine ⟨m + 1, ?_⟩
      show count (k :: (body b ++ [k]) ++ (render ts ++ r)) _ _ = _
      have e2 : k :: (body b ++ [k]) ++ (render ts ++ r) = k :: (body b ++ (k :: (render ts ++ r))) := by simp
      rw [e2, count_quote ht.1, count_body b ht.2, count_quote ht.1]
      have : q + 2 * (m + 1) = q + 2 + 2 * m := by omega
      rw [this]
      exact hm

/-- **C206 (part).** A text is complete if and only if all its brackets are closed. -/
theorem C206_complete_partial {ts : List Tok} (hok : ∀ t ∈ ts, t.Ok) {s : List UInt8} (h : pending ts [] = some s) :
    isBalanced (render ts) = true ↔ s = [] := by
  obtain ⟨m, hm⟩ := count_render ts hok [] s [] 0 h
  rw [List.append_nil] at hm
  have hm' : count (render ts) 0 0 = ((s.length : Int), 0 + 2 * m) := hm
  unfold isBalanced
  rw [hm']
  simp only [Bool.and_eq_true, decide_eq_true_eq]
  constructor
  · intro h
    exact List.length_eq_zero_iff.1 (by omega)
  · rintro rfl
    exact ⟨by omega, by simp⟩

/-- **C206 (part).** … and not if it ends in a string. -/
theorem C206_string_partial {ts : List Tok} (hok : ∀ t ∈ ts, t.Ok) {s : List UInt8} (h : pending ts [] = some s) {q : UInt8} (hq : q = 39 ∨ q = 34)
    {b : List (Bool × UInt8)} (hb : BodyOk b) : isBalanced (render ts ++ q :: body b) = false := by
  obtain ⟨m, hm⟩ := count_render ts hok [] s (q :: body b) 0 h
  have e : count (q :: body b) (s.length : Int) (0 + 2 * m) = ((s.length : Int), 0 + 2 * m + 1) := by
    rw [count_quote hq]
    have := count_body b hb [] (s.length : Int) (0 + 2 * m + 1)
    rw [List.append_nil] at this
    rw [this]
    rfl
  have hm' : count (render ts ++ q :: body b) 0 0 = ((s.length : Int), 0 + 2 * m + 1) := hm.trans e
  unfold isBalanced
  rw [hm']
  have : ¬ ((0 + 2 * m + 1) % 2 = 0) := by omega
  simp [this]

/-! ## Lines -/

theorem render_append (a b : List Tok) : render (a ++ b) = render a ++ render b := by simp [render]

theorem join_concat (ls : List (List Tok)) (l : List Tok) : render (join (ls ++ [l])) = render (join ls) ++ render l ++ [32] := by
  simp [join, render, Tok.text]

theorem render_ne {l : List Tok} (h : ∀ t ∈ l, t.Ok) : render l ≠ [92] := by
  intro e
  cases l with
  | nil => exact absurd e (by simp [render])
  | cons t l =>
    have ht := h t (List.mem_cons_self ..)
    have e' : t.text ++ render l = [92] := by rw [← e]; simp [render]
    cases t with
    | ch c =>
      have : c = 92 := (List.cons.inj e').1
      exact (plain_ne ht).1 this
    | esc c =>
      have := (List.cons.inj e').2
      exact absurd this (by simp)
    | opn c =>
      have : c = 92 := (List.cons.inj e').1
      subst this
      exact absurd ht (by simp [Tok.Ok])
    | cls c =>
      have : c = 92 := (List.cons.inj e').1
      subst this
      exact absurd ht (by simp [Tok.Ok])
    | str q b =>
      have : q = 92 := (List.cons.inj e').1
      subst this
      exact absurd ht.1 (by simp)

theorem join_ok {ls : List (List Tok)} (h : ∀ l ∈ ls, ∀ t ∈ l, t.Ok) : ∀ t ∈ join ls, t.Ok := by
  intro t ht
  simp only [join, List.mem_flatMap, List.mem_append, List.mem_cons, List.not_mem_nil, or_false] at ht
  obtain ⟨l, hl, ht⟩ := ht
  rcases ht with ht | rfl
  · exact h l hl t ht
  · show Plain 32
    unfold Plain
    decide

/-- More lines are wanted. -/
def Open (ls : List (List Tok)) : Prop := ∃ c s, pending (join ls) [] = some (c :: s)

theorem line_open (pkg : Bool) {ls : List (List Tok)} {l : List Tok} (hok : ∀ x ∈ ls ++ [l], ∀ t ∈ x, t.Ok) (ho : Open (ls ++ [l])) :
    line pkg (render (join ls)) (render l) = (render (join (ls ++ [l])), none) := by
  obtain ⟨c, s, h⟩ := ho
  have hb : isBalanced (render (join (ls ++ [l]))) = false := by
    cases e : isBalanced (render (join (ls ++ [l]))) with
    | false => rfl
    | true => exact absurd ((C206_complete_partial (join_ok hok) h).1 e) (by simp)
  unfold line
  rw [if_neg (render_ne (hok l (by simp)))]
  by_cases h0 : render (join ls) ++ render l = []
  · exfalso
    rw [join_concat, h0] at hb
    exact absurd hb (by decide)
  · rw [if_neg h0, ← join_concat, if_neg (by rw [hb]; simp)]

theorem line_closed (pkg : Bool) {ls : List (List Tok)} {l : List Tok} (hok : ∀ x ∈ ls ++ [l], ∀ t ∈ x, t.Ok) (ho : pending (join (ls ++ [l])) [] = some []) :
    line pkg (render (join ls)) (render l) = ([], result pkg (trimR (render (join (ls ++ [l]))))) := by
  have hb : isBalanced (render (join (ls ++ [l]))) = true := (C206_complete_partial (join_ok hok) ho).2 rfl
  unfold line
  rw [if_neg (render_ne (hok l (by simp)))]
  by_cases h0 : render (join ls) ++ render l = []
  · rw [if_pos h0, join_concat, h0]
    rfl
  · rw [if_neg h0, ← join_concat, if_pos hb]

/-- Lines that are complete with the last one. -/
def Group (ls : List (List Tok)) (l : List Tok) : Prop :=
  (∀ x ∈ ls ++ [l], ∀ t ∈ x, t.Ok) ∧ (∀ a b c, ls = a ++ b :: c → Open (a ++ [b])) ∧ pending (join (ls ++ [l])) [] = some []

theorem session_group (pkg : Bool) (l : List Tok) (more : List Bytes) : ∀ (rest done : List (List Tok)), Group (done ++ rest) l →
    session pkg (render (join done)) (rest.map render ++ render l :: more) =
      ((session pkg [] more).1, (result pkg (trimR (render (join (done ++ rest ++ [l]))))).toList ++ (session pkg [] more).2)
  | [], done, h => by
    rw [List.append_nil] at h ⊢
    show session pkg (render (join done)) (render l :: more) = _
    rw [session, line_closed pkg h.1 h.2.2]
  | x :: rest, done, h => by
    show session pkg (render (join done)) (render x :: (rest.map render ++ render l :: more)) = _
    have hx : ∀ y ∈ done ++ [x], ∀ t ∈ y, t.Ok := by
      intro y hy
      refine h.1 y ?_
      simp only [List.mem_append, List.mem_cons, List.not_mem_nil, or_false] at hy ⊢
      rcases hy with hy | hy
      · exact Or.inl (Or.inl hy)
      · exact Or.inl (Or.inr (Or.inl hy))
    rw [session, line_open pkg hx (h.2.1 done x rest rfl)]
    have hg : Group (done ++ [x] ++ rest) l := by
      have : done ++ [x] ++ rest = done ++ x :: rest := by simp
      rw [this]; exact h
    have := session_group pkg l more rest (done ++ [x]) hg
    rw [this]
    simp

/-- **C206 (part).** Lines that are complete with the last one are evaluated once, together, when that one is there; and what comes then begins anew. -/
theorem C206_lines_partial (pkg : Bool) {ls : List (List Tok)} {l : List Tok} (h : Group ls l) (more : List Bytes) :
    session pkg [] (ls.map render ++ render l :: more) =
      ((session pkg [] more).1, (result pkg (trimR (render (join (ls ++ [l]))))).toList ++ (session pkg [] more).2) := by
  have := session_group pkg l more ls [] h
  simpa [join, render] using this

/-- A line that is only a backslash takes back the lines before it. -/
theorem C206_cancel_partial (pkg : Bool) (buf : Bytes) (more : List Bytes) : session pkg buf ([92] :: more) = session pkg [] more := by
  rw [session]
  unfold line
  rw [if_pos rfl]
  rfl

/-- Three lines. -/
example : Group [[.ch 102, .opn 40, .str 34 [(false, 97), (true, 34)]], [.ch 44]] [.ch 49, .cls 41] ∧
    render [.ch 102, .opn 40, .str 34 [(false, 97), (true, 34)]] = asc "f(\"a\\\"\"" := by
  refine ⟨⟨?_, ?_, by decide +kernel⟩, by decide +kernel⟩
  · intro x hx t ht
    simp only [List.cons_append, List.nil_append, List.mem_cons, List.not_mem_nil, or_false] at hx
    rcases hx with rfl | rfl | rfl <;> simp only [List.mem_cons, List.not_mem_nil, or_false] at ht
    · rcases ht with rfl | rfl | rfl
      · show Plain 102; unfold Plain; decide
      · exact Or.inr (Or.inl rfl)
      · refine ⟨Or.inr rfl, ?_⟩
        unfold BodyOk Plain
        decide
    · subst ht; show Plain 44; unfold Plain; decide
    · rcases ht with rfl | rfl
      · show Plain 49; unfold Plain; decide
      · exact Or.inr (Or.inl rfl)
  · intro a b c e
    cases a with
    | nil =>
      have := (List.cons.inj e).1
      subst this
      exact ⟨41, [], by decide +kernel⟩
    | cons x a =>
      obtain ⟨e1, e2⟩ := List.cons.inj e
      subst e1
      cases a with
      | nil =>
        have := (List.cons.inj e2).1
        subst this
        exact ⟨41, [], by decide +kernel⟩
      | cons y a =>
        have := (List.cons.inj e2).2
        exact absurd this (by simp)

/-- **C206 refuted.** Brackets and quotes inside strings are counted: `f("it's")` and `f("(")` are not complete. -/
theorem C206_inside_refuted : isBalanced (asc "f(\"it's\")") = false ∧ isBalanced (asc "f(\"(\")") = false ∧ isBalanced (asc "f(\")\"") = true := by
  decide +kernel

/-- **C206 refuted.** The lines are joined with spaces: a `//` makes all that follows a comment. -/
theorem C206_comment_refuted (pkg : Bool) : (session pkg [] [asc "{ // one", asc "f(); }"]).2 = [.eval (asc "{ // one f(); }")] := by
  cases pkg <;> decide +kernel

/-- **C206 refuted.** Without readline the backslash does not take lines back. -/
theorem C206_cancel_refuted (pkg : Bool) : (session pkg [] [asc "f(\n", asc "\\\n", asc "g()\n", asc ")\n"]).2 = [.eval (asc "f(\n \\\n g()\n )")] := by
  cases pkg <;> decide +kernel

end Verif.Repl
