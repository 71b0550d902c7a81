import Verif.Chan.Read

/-! C151: what `gets` returns. -/

namespace Verif.Chan

/-- Specification: the lines of a text, without their line feeds. -/
def lines : Bytes → List Bytes
  | [] => []
  | c :: r => if c = 10 then [] :: lines r else
      match lines r with
      | [] => [[c]]
      | l :: ls => (c :: l) :: ls

/-- Calling `gets` until it returns undefined gives the strings `ls`. -/
inductive Yields : Obj → List Bytes → Prop where
  | stop {o o'} : gets o = (.undef, o') → Yields o []
  | next {o o' l ls} : gets o = (.str l, o') → Yields o' ls → Yields o (l :: ls)

/-- Calling it that often gives one series of strings. -/
theorem Yields.unique {o : Obj} {a b : List Bytes} (ha : Yields o a) (hb : Yields o b) : a = b := by
  induction ha generalizing b with
  | stop h => cases hb with
    | stop _ => rfl
    | next h' _ => rw [h] at h'; simp at h'
  | next h _ ih => cases hb with
    | stop h' => rw [h] at h'; simp at h'
    | next h' hy =>
      rw [h] at h'
      obtain ⟨h1, h2⟩ := Prod.mk.inj h'
      injection h1 with h1
      subst h1 h2
      rw [ih hy]

/-- A text begins with a line and a line feed, or is a line. -/
theorem split_line (r : Bytes) : (∃ l r', r = l ++ 10 :: r' ∧ 10 ∉ l) ∨ 10 ∉ r := by
  induction r with
  | nil => right; simp
  | cons c r ih =>
    by_cases hc : c = 10
    · left; exact ⟨[], r, by simp [hc], by simp⟩
    · rcases ih with ⟨l, r', h1, h2⟩ | h
      · left; exact ⟨c :: l, r', by simp [h1], by simp [h2]; exact fun e => hc e.symm⟩
      · right; simp [h]; exact fun e => hc e.symm

theorem lines_lf (l r : Bytes) (h : 10 ∉ l) : lines (l ++ 10 :: r) = l :: lines r := by
  induction l with
  | nil => simp [lines]
  | cons c l ih =>
    have h1 : c ≠ 10 := by rintro rfl; simp at h
    have h2 : 10 ∉ l := by intro e; exact h (by simp [e])
    simp [lines, h1, ih h2]

theorem lines_last (l : Bytes) (h : 10 ∉ l) (h0 : l ≠ []) : lines l = [l] := by
  induction l with
  | nil => exact absurd rfl h0
  | cons c l ih =>
    have h1 : c ≠ 10 := by rintro rfl; simp at h
    have h2 : 10 ∉ l := by intro e; exact h (by simp [e])
    cases l with
    | nil => simp [lines, h1]
    | cons d l => rw [lines, if_neg h1, ih h2 (by simp)]

theorem toLF_lf (l r : Bytes) (h : 10 ∉ l) : toLF (l ++ 10 :: r) = l ++ [10] := by
  induction l with
  | nil => simp [toLF]
  | cons c l ih =>
    have h1 : c ≠ 10 := by rintro rfl; simp at h
    have h2 : 10 ∉ l := by intro e; exact h (by simp [e])
    simp [toLF, h1, ih h2]

theorem toLF_last (l : Bytes) (h : 10 ∉ l) : toLF l = l := by
  induction l with
  | nil => rfl
  | cons c l ih =>
    have h1 : c ≠ 10 := by rintro rfl; simp at h
    have h2 : 10 ∉ l := by intro e; exact h (by simp [e])
    simp [toLF, h1, ih h2]

theorem cstr_id (l : Bytes) (h : 0 ∉ l) : cstr l = l := by
  induction l with
  | nil => rfl
  | cons c l ih =>
    have h1 : c ≠ 0 := by rintro rfl; simp at h
    have h2 : 0 ∉ l := by intro e; exact h (by simp [e])
    have ih' : l.takeWhile (· ≠ 0) = l := ih h2
    simp only [cstr, List.takeWhile, h1, ne_eq, not_false_eq_true, decide_true]
    rw [ih']

theorem chomp_lf (l : Bytes) : chomp (l ++ [10]) = l := by simp [chomp]

theorem chomp_last (l : Bytes) (h : 10 ∉ l) : chomp l = l := by
  unfold chomp
  rw [if_neg]
  intro e
  exact h (List.mem_of_getLast? e)

theorem fgets_eq (f : FILE) (h : f.rd = true) (h0 : f.rest ≠ []) (n : Nat) :
    ∃ e, fgets f n = (some (toLF (f.rest.take n)), f.adv (toLF (f.rest.take n)).length e) := by
  have h0' : ¬ f.data.drop f.pos = [] := h0
  rw [fgets, if_pos h, if_neg h0']
  exact ⟨_, rfl⟩

theorem gets_end (f : FILE) (h : f.rd = true) (h0 : f.rest = []) : ∃ o, gets (.opened f) = (.undef, o) := by
  have h0' : f.data.drop f.pos = [] := h0
  simp only [gets, fgets, h, h0', if_true]
  exact ⟨_, rfl⟩

theorem gets_some (f : FILE) (h : f.rd = true) (h0 : f.rest ≠ []) :
    ∃ e, gets (.opened f) = (.str (chomp (cstr (toLF (f.rest.take (bufsiz - 1))))),
      .opened (f.adv (toLF (f.rest.take (bufsiz - 1))).length e)) := by
  obtain ⟨e, he⟩ := fgets_eq f h h0 (bufsiz - 1)
  exact ⟨e, by rw [gets, he]⟩

/-- One line of at most 8190 bytes and its line feed. -/
theorem gets_lf (f : FILE) (h : f.rd = true) (l r : Bytes) (hr : f.rest = l ++ 10 :: r) (hl : 10 ∉ l) (hz : 0 ∉ l)
    (hs : l.length ≤ 8190) :
    ∃ e, gets (.opened f) = (.str l, .opened (f.adv (l.length + 1) e)) := by
  have hb : bufsiz = 8192 := rfl
  obtain ⟨e, he⟩ := gets_some f h (by rw [hr]; simp)
  have ht : f.rest.take (bufsiz - 1) = l ++ 10 :: r.take (bufsiz - 1 - l.length - 1) := by
    rw [hr, List.take_append, List.take_of_length_le (by omega)]
    congr 1
    rw [show bufsiz - 1 - l.length = (bufsiz - 1 - l.length - 1) + 1 by omega]
    rfl
  rw [ht, toLF_lf _ _ hl, cstr_id _ (by simp [hz]), chomp_lf] at he
  exact ⟨e, by simpa using he⟩

/-- A last line without a line feed. -/
theorem gets_last (f : FILE) (h : f.rd = true) (h0 : f.rest ≠ []) (hl : 10 ∉ f.rest) (hz : 0 ∉ f.rest)
    (hs : f.rest.length ≤ 8191) :
    ∃ e, gets (.opened f) = (.str f.rest, .opened (f.adv f.rest.length e)) := by
  have hb : bufsiz = 8192 := rfl
  obtain ⟨e, he⟩ := gets_some f h h0
  rw [List.take_of_length_le (by omega), toLF_last _ hl, cstr_id _ hz, chomp_last _ hl] at he
  exact ⟨e, he⟩

theorem yields_lines (n : Nat) (f : FILE) (hn : f.rest.length ≤ n) (h : f.rd = true) (hz : 0 ∉ f.rest)
    (hs : ∀ l ∈ lines f.rest, l.length ≤ 8190) : Yields (.opened f) (lines f.rest) := by
  induction n generalizing f with
  | zero =>
    have h0 : f.rest = [] := List.length_eq_zero_iff.mp (by omega)
    obtain ⟨o, ho⟩ := gets_end f h h0
    rw [h0]
    exact .stop ho
  | succ n ih =>
    rcases split_line f.rest with ⟨l, r, hr, hl⟩ | hl
    · rw [hr, lines_lf _ _ hl] at hs ⊢
      obtain ⟨e, he⟩ := gets_lf f h l r hr hl (fun q => hz (by rw [hr]; simp [q])) (hs l (by simp))
      have hr' : (f.adv (l.length + 1) e).rest = r := by
        rw [adv_rest, hr]
        rw [show l ++ 10 :: r = (l ++ [10]) ++ r by simp]
        exact List.drop_left' (by simp)
      have hlen : f.rest.length = l.length + (r.length + 1) := by rw [hr]; simp
      have := ih (f.adv (l.length + 1) e) (by rw [hr']; omega) h
        (by rw [hr']; intro q; exact hz (by rw [hr]; simp [q]))
        (by rw [hr']; intro x hx; exact hs x (by simp [hx]))
      rw [hr'] at this
      exact .next he this
    · by_cases h0 : f.rest = []
      · obtain ⟨o, ho⟩ := gets_end f h h0
        rw [h0]
        exact .stop ho
      · rw [lines_last _ hl h0] at hs ⊢
        obtain ⟨e, he⟩ := gets_last f h h0 hl hz (by have := hs f.rest (by simp); omega)
        obtain ⟨o, ho⟩ := gets_end (f.adv f.rest.length e) h (by rw [adv_rest]; simp)
        exact .next he (.stop ho)

/-- **C151** Calling `gets` until it returns undefined gives the lines of the file from the position on, each once, in
order and complete, the last one also if no line feed ends it.

Missing: lines of more than 8190 bytes and with bytes NUL, see below. -/
theorem C151_gets_partial (d : Bytes) (p : Nat) (e w a : Bool) (hz : 0 ∉ d.drop p)
    (hs : ∀ l ∈ lines (d.drop p), l.length ≤ 8190) :
    Yields (.opened ⟨d, p, e, true, w, a⟩) (lines (d.drop p)) :=
  yields_lines (d.drop p).length ⟨d, p, e, true, w, a⟩ (Nat.le_refl _) rfl hz hs

example : Yields (.opened ⟨asc "ab\n\nc", 0, false, true, false, false⟩) [asc "ab", [], asc "c"] :=
  C151_gets_partial (asc "ab\n\nc") 0 _ _ _ (by decide) (by decide)

/-- **C151** (the code does not do this) A line of 8191 bytes is returned as that line and an empty one. -/
theorem C151_long_line_refuted :
    ∃ l : Bytes, l.length = 8191 ∧ lines (l ++ [10]) = [l] ∧
      Yields (.opened ⟨l ++ [10], 0, false, true, false, false⟩) [l, []] := by
  have h10 : (10 : UInt8) ∉ List.replicate 8191 (65 : UInt8) := by
    intro h; have := (List.mem_replicate.mp h).2; revert this; decide
  have h0 : (0 : UInt8) ∉ List.replicate 8191 (65 : UInt8) := by
    intro h; have := (List.mem_replicate.mp h).2; revert this; decide
  have hlen : (List.replicate 8191 (65 : UInt8)).length = 8191 := List.length_replicate
  generalize List.replicate 8191 (65 : UInt8) = l at *
  refine ⟨l, hlen, lines_lf l [] h10, ?_⟩
  have hb : bufsiz = 8192 := rfl
  obtain ⟨e, he⟩ := gets_some ⟨l ++ [10], 0, false, true, false, false⟩ rfl (by simp [FILE.rest])
  have ht : (FILE.mk (l ++ [10]) 0 false true false false).rest.take (bufsiz - 1) = l := by
    show (l ++ [10]).take (bufsiz - 1) = l
    exact List.take_left' (by omega)
  rw [ht, toLF_last _ h10, cstr_id _ h0, chomp_last _ h10] at he
  refine .next he ?_
  have hr : ((FILE.mk (l ++ [10]) 0 false true false false).adv l.length e).rest = [] ++ 10 :: [] := by
    rw [adv_rest]
    show (l ++ [10]).drop l.length = _
    simp
  obtain ⟨e', he'⟩ := gets_lf _ rfl [] [] hr (by simp) (by simp) (by simp)
  refine .next he' ?_
  obtain ⟨o, ho⟩ := gets_end (((FILE.mk (l ++ [10]) 0 false true false false).adv l.length e).adv 1 e') rfl
    (by rw [adv_rest, hr]; rfl)
  exact .stop ho

/-- **C151** (the code does not do this) A byte NUL and what follows it in the line are lost. -/
theorem C151_nul_refuted :
    ∃ d : Bytes, lines d = [[65, 0, 66]] ∧ Yields (.opened ⟨d, 0, false, true, false, false⟩) [[65]] :=
  ⟨[65, 0, 66, 10], by decide, .next (o' := .opened ⟨[65, 0, 66, 10], 4, false, true, false, false⟩) (by decide)
    (.stop (o' := .opened ⟨[65, 0, 66, 10], 4, true, true, false, false⟩) (by decide))⟩

end Verif.Chan
