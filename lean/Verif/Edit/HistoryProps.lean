import Verif.Edit.History
/-!
# The history of the line editor: theorems (C211)
-/
namespace Verif.Edit

theorem runs_head (l : List Line) : (runs l).head? = l.head? := by
  induction l with
  | nil => rfl
  | cons s l ih =>
    unfold runs
    split
    · rename_i h; rw [ih, h]; rfl
    · rfl

theorem runs_cons_of (a : Line) (l : List Line) (h : runs (a :: l) = a :: l) : runs l = l := by
  have : ∀ l : List Line, (runs l).length ≤ l.length := by
    intro l
    induction l with
    | nil => exact Nat.le_refl _
    | cons s l ih =>
      unfold runs
      split
      · rw [List.length_cons]; omega
      · rw [List.length_cons, List.length_cons]; omega
  unfold runs at h
  split at h
  · have h1 := this l
    rw [h, List.length_cons] at h1
    omega
  · exact (List.cons.inj h).2

theorem runs_runs (l : List Line) : runs (runs l) = runs l := by
  induction l with
  | nil => rfl
  | cons s l ih =>
    by_cases h : l.head? = some s
    · have e : runs (s :: l) = runs l := by show (if _ then _ else _) = _; rw [if_pos h]
      rw [e, ih]
    · have e : runs (s :: l) = s :: runs l := by show (if _ then _ else _) = _; rw [if_neg h]
      rw [e]
      show (if (runs l).head? = some s then _ else _) = _
      rw [runs_head, if_neg h, ih]

theorem runs_take (l : List Line) : ∀ n, runs l = l → runs (l.take n) = l.take n := by
  induction l with
  | nil => intro n _; rw [List.take_nil]; rfl
  | cons a l ih =>
    intro n h
    cases n with
    | zero => rfl
    | succ n =>
      have hl := runs_cons_of a l h
      rw [List.take_succ_cons]
      show (if (l.take n).head? = some a then _ else _) = _
      have hn : (l.take n).head? ≠ some a := by
        cases n with
        | zero => simp
        | succ n =>
          cases l with
          | nil => simp
          | cons b l =>
            rw [List.take_succ_cons]
            intro e
            unfold runs at h
            rw [if_pos (by exact e)] at h
            rw [hl] at h
            have := congrArg List.length h
            simp at this
      rw [if_neg hn, ih n hl]

theorem add_take {max : Nat} (hm : 0 < max) (l : List Line) (s : Line) : histAdd max ((runs l).take max) s = (runs (s :: l)).take max := by
  unfold histAdd
  rw [if_neg (by omega)]
  have hh : ((runs l).take max).head? = l.head? := by
    rw [← runs_head l]
    cases max with
    | zero => omega
    | succ n => cases runs l <;> rfl
  rw [hh]
  show _ = (if l.head? = some s then runs l else s :: runs l).take max
  by_cases h : l.head? = some s
  · rw [if_pos h, if_pos h]
  · rw [if_neg h, if_neg h]
    cases max with
    | zero => omega
    | succ n =>
      rw [List.take_succ_cons]
      by_cases hl : ((runs l).take (n + 1)).length = n + 1
      · rw [if_pos hl]
        congr 1
        rw [List.dropLast_eq_take, hl, List.take_take]
        congr 1
        omega
      · rw [if_neg hl]
        congr 1
        rw [List.length_take] at hl
        rw [List.take_of_length_le (by omega), List.take_of_length_le (by omega)]

theorem adds (max : Nat) (hm : 0 < max) : ∀ (ls l : List Line), ls.foldl (histAdd max) ((runs l).take max) = (runs (ls.reverse ++ l)).take max
  | [], _ => rfl
  | s :: ls, l => by
    rw [List.foldl_cons, add_take hm, adds max hm ls (s :: l), List.reverse_cons, List.append_assoc]
    rfl

/-- **C211.** After any lines the history is the newest `max` of them, without those that repeat the one before. -/
theorem C211_add (max : Nat) (hm : 0 < max) (ls : List Line) : ls.foldl (histAdd max) [] = (runs ls.reverse).take max := by
  have := adds max hm ls []
  rw [List.append_nil] at this
  have e : (runs ([] : List Line)).take max = [] := by show List.take max [] = []; exact List.take_nil
  rw [e] at this
  exact this

/-- **C211.** A smaller limit keeps the newest lines, and lines added later see only it. -/
theorem C211_max (max n : Nat) (hm : 0 < max) (hn : 0 < n) (hle : n ≤ max) (ls ms : List Line) :
    ms.foldl (histAdd n) (histSetMax n (ls.foldl (histAdd max) [])) = (runs (ms.reverse ++ ls.reverse)).take n := by
  rw [C211_add max hm]
  unfold histSetMax
  rw [if_neg (by omega), List.take_take, Nat.min_eq_left hle, adds n hn]

example : ([asc "a", asc "b", asc "b", asc "c", asc "a"].foldl (histAdd 3) []) = [asc "a", asc "c", asc "b"] := by decide +kernel

/-! ## Save and load -/

/-- A line a file can hold. -/
def plain (room : Nat) (s : Line) : Prop := s.length < room ∧ ∀ c ∈ s, c ≠ 0 ∧ c ≠ 10 ∧ c ≠ 13

theorem fgets_line : ∀ (s : Line) (n : Nat) (r : List UInt8), s.length < n → (∀ c ∈ s, c ≠ 10) → fgets n (s ++ 10 :: r) = (s ++ [10], r)
  | [], n, r, h, _ => by
    cases n with
    | zero => simp at h
    | succ n => show (if (10 : UInt8) = 10 then _ else _) = _; rw [if_pos rfl]; rfl
  | c :: s, n, r, h, hc => by
    cases n with
    | zero => simp at h
    | succ n =>
      have ih := fgets_line s n r (by simp at h; omega) (fun x hx => hc x (List.mem_cons_of_mem _ hx))
      show (if c = 10 then _ else (c :: (fgets n (s ++ 10 :: r)).1, (fgets n (s ++ 10 :: r)).2)) = _
      rw [if_neg (hc c (List.mem_cons_self)), ih]
      rfl

theorem cut_all (c : UInt8) : ∀ s : List UInt8, (∀ x ∈ s, x ≠ c) → cut c s = s
  | [], _ => rfl
  | x :: s, h => by
    have := cut_all c s (fun y hy => h y (List.mem_cons_of_mem _ hy))
    unfold cut at this ⊢
    rw [List.takeWhile_cons, if_pos (by simpa using h x List.mem_cons_self), this]

theorem cut_at (c : UInt8) : ∀ s : List UInt8, (∀ x ∈ s, x ≠ c) → cut c (s ++ [c]) = s
  | [], _ => by unfold cut; simp
  | x :: s, h => by
    have := cut_at c s (fun y hy => h y (List.mem_cons_of_mem _ hy))
    unfold cut at this ⊢
    rw [List.cons_append, List.takeWhile_cons, if_pos (by simpa using h x List.mem_cons_self), this]

theorem chop_line (s : Line) (h : ∀ c ∈ s, c ≠ 0 ∧ c ≠ 10 ∧ c ≠ 13) : chop (s ++ [10]) = s := by
  have h0 : cut 0 (s ++ [10]) = s ++ [10] := by
    apply cut_all
    intro x hx
    rcases List.mem_append.1 hx with hx | hx
    · exact (h x hx).1
    · rw [List.mem_singleton.1 hx]; decide
  unfold chop
  rw [h0, if_neg, cut_at 10 s (fun x hx => (h x hx).2.1)]
  intro hx
  rcases List.mem_append.1 hx with hx | hx
  · exact (h _ hx).2.2 rfl
  · have := List.mem_singleton.1 hx; revert this; decide

theorem load_lines (room max : Nat) : ∀ (ls : List Line) (fuel : Nat) (h : List Line), ls.length ≤ fuel → (∀ s ∈ ls, plain room s) →
    histLoad room max fuel (ls.flatMap fun s => s ++ [10]) h = ls.foldl (histAdd max) h
  | [], fuel, h, _, _ => by cases fuel <;> rfl
  | s :: ls, fuel, h, hf, hp => by
    cases fuel with
    | zero => simp at hf
    | succ fuel =>
      have hs := hp s List.mem_cons_self
      have ih := load_lines room max ls fuel (histAdd max h s) (by simp at hf; omega) (fun x hx => hp x (List.mem_cons_of_mem _ hx))
      have e : (s :: ls).flatMap (fun s => s ++ [10]) = s ++ 10 :: ls.flatMap fun s => s ++ [10] := by simp
      rw [e]
      have g := fgets_line s room (ls.flatMap fun s => s ++ [10]) hs.1 (fun c hc => (hs.2 c hc).2.1)
      have u : ∀ (f : List UInt8), f ≠ [] → histLoad room max (fuel + 1) f h = histLoad room max fuel (fgets room f).2 (histAdd max h (chop (fgets room f).1)) := by
        intro f hf
        cases f with
        | nil => exact absurd rfl hf
        | cons c f => rfl
      rw [u _ (by simp), g, chop_line s hs.2, ih, List.foldl_cons]

theorem save_length (h : List Line) : h.length ≤ (histSave h).length := by
  unfold histSave
  have : ∀ l : List Line, l.length ≤ (l.flatMap fun s => s ++ [10]).length := by
    intro l
    induction l with
    | nil => exact Nat.le_refl _
    | cons s l ih => simp at ih ⊢; omega
  have := this h.reverse
  rw [List.length_reverse] at this
  exact this

/-- **C211 (part).** A history that is saved and loaded is the same, if its lines are plain and shorter than the room for a line. -/
theorem C211_save_partial (room max : Nat) (hm : 0 < max) (ls : List Line) (hp : ∀ s ∈ ls.foldl (histAdd max) [], plain room s) :
    histLoad room max (histSave (ls.foldl (histAdd max) [])).length (histSave (ls.foldl (histAdd max) [])) [] = ls.foldl (histAdd max) [] := by
  rw [C211_add max hm] at hp ⊢
  have hr : runs ((runs ls.reverse).take max) = (runs ls.reverse).take max := runs_take _ _ (runs_runs _)
  generalize hh : (runs ls.reverse).take max = h at hp hr
  have hlen : h.length ≤ max := by rw [← hh, List.length_take]; omega
  have l := load_lines room max h.reverse (histSave h).length [] (by rw [List.length_reverse]; exact save_length h)
    (fun s hs => hp s (List.mem_reverse.1 hs))
  have e : histSave h = h.reverse.flatMap fun s => s ++ [10] := rfl
  rw [← e] at l
  rw [l, C211_add max hm, List.reverse_reverse, hr, List.take_of_length_le hlen]

example : histLoad 4095 100 9 (histSave [asc "b", asc "a c"]) [] = [asc "b", asc "a c"] := by decide +kernel

/-- **C211 refuted.** A line as long as the room is followed by an empty one when it is loaded (here with room for 3; in the code for 4095). -/
theorem C211_save_refuted : histLoad 3 100 9 (histSave [asc "abc"]) [] = [[], asc "abc"] := by decide +kernel

/-! ## Older and newer -/

/-- What a session keeps: with the line put back, its texts are `e`. -/
structure Keeps (size : Nat) (s : Ses) (e : List Line) (i : Nat) : Prop where
  at_ : s.idx = i
  lt : i < e.length
  texts : s.h.set s.idx s.line = e
  small : ∀ t ∈ e, t.length < size

theorem Keeps.len {size : Nat} {s : Ses} {e : List Line} {i : Nat} (k : Keeps size s e i) : s.h.length = e.length := by
  rw [← k.texts, List.length_set]

theorem Keeps.line {size : Nat} {s : Ses} {e : List Line} {i : Nat} (k : Keeps size s e i) : e[i]? = some s.line := by
  rw [← k.texts, k.at_, List.getElem?_set_self (by rw [k.len]; exact k.lt)]

theorem set_same : ∀ (e : List Line) (i : Nat) (t : Line), e[i]? = some t → e.set i t = e
  | [], _, _, _ => rfl
  | a :: e, 0, t, h => by
    have : a = t := by simpa using h
    rw [this]; rfl
  | a :: e, i + 1, t, h => by
    rw [List.getElem?_cons_succ] at h
    rw [List.set_cons_succ, set_same e i t h]

theorem entry_eq {size : Nat} {e : List Line} {i : Nat} (hs : ∀ t ∈ e, t.length < size) (hi : i < e.length) : e[i]? = some (entry size e i) := by
  unfold entry
  have h : e[i]? = some e[i] := List.getElem?_eq_getElem hi
  rw [h, Option.getD_some, List.take_of_length_le]
  have := hs e[i] (List.getElem_mem hi)
  omega

theorem keeps_stay {size : Nat} {s : Ses} {e : List Line} {i : Nat} (k : Keeps size s e i) {j : Nat} {t : Line} (hj : j < e.length) (ht : e[j]? = some t) :
    Keeps size ⟨s.h.set s.idx s.line, j, t⟩ e j :=
  ⟨rfl, hj, by show (s.h.set s.idx s.line).set j t = e; rw [k.texts]; exact set_same e j t ht, k.small⟩

theorem keeps_act {size : Nat} {s : Ses} {e : List Line} {i : Nat} (k : Keeps size s e i) (a : Act) (ha : ∀ t, a = .edit t → t.length < size) :
    Keeps size (act size s a) (wantAct (e, i) a).1 (wantAct (e, i) a).2 := by
  have hl := k.len
  have hlt := k.lt
  have hi := k.at_
  cases a with
  | up =>
    show Keeps size (if _ then _ else _) e (min (i + 1) (e.length - 1))
    by_cases h1 : 1 < s.h.length
    · rw [if_pos h1]
      by_cases h2 : s.h.length ≤ s.idx + 1
      · rw [if_pos h2]
        have e1 : min (i + 1) (e.length - 1) = s.h.length - 1 := by omega
        rw [e1]
        exact keeps_stay k (by omega) (by have := k.line; rw [show s.h.length - 1 = i by omega]; exact this)
      · rw [if_neg h2]
        have e1 : min (i + 1) (e.length - 1) = s.idx + 1 := by omega
        rw [e1]
        exact keeps_stay k (by omega) (by rw [k.texts]; exact entry_eq k.small (by omega))
    · rw [if_neg h1]
      have e1 : min (i + 1) (e.length - 1) = i := by omega
      rw [e1]
      exact k
  | down =>
    show Keeps size (if _ then _ else _) e (i - 1)
    by_cases h1 : 1 < s.h.length
    · rw [if_pos h1]
      by_cases h2 : s.idx = 0
      · rw [if_pos h2]
        have e1 : i - 1 = 0 := by omega
        rw [e1]
        exact keeps_stay k (by omega) (by have := k.line; rw [show i = 0 by omega] at this; exact this)
      · rw [if_neg h2, ← hi]
        exact keeps_stay k (by omega) (by rw [k.texts]; exact entry_eq k.small (by omega))
    · rw [if_neg h1]
      have e1 : i - 1 = i := by omega
      rw [e1]
      exact k
  | edit t =>
    refine ⟨hi, by show i < (e.set i t).length; rw [List.length_set]; exact hlt, ?_, ?_⟩
    · show s.h.set s.idx t = e.set i t
      rw [← k.texts, hi, List.set_set]
    · intro u hu
      rcases List.mem_or_eq_of_mem_set hu with h | h
      · exact k.small u h
      · rw [h]; exact ha t rfl

theorem keeps_acts {size : Nat} : ∀ (as : List Act) {s : Ses} {e : List Line} {i : Nat}, Keeps size s e i → short size as →
    Keeps size (as.foldl (act size) s) (as.foldl wantAct (e, i)).1 (as.foldl wantAct (e, i)).2
  | [], _, _, _, k, _ => k
  | a :: as, _, _, _, k, h =>
    keeps_acts as (keeps_act k a (fun t ht => h t (by rw [ht]; exact List.mem_cons_self))) (fun t ht => h t (List.mem_cons_of_mem _ ht))

theorem keeps_start (size : Nat) (h : List Line) (hs : 0 < size) (hh : ∀ t ∈ h, t.length < size) : Keeps size ⟨[] :: h, 0, []⟩ ([] :: h) 0 :=
  ⟨rfl, by simp, rfl, by
    intro t ht
    rcases List.mem_cons.1 ht with h1 | h1
    · rw [h1]; exact hs
    · exact hh t h1⟩

theorem start_eq (max : Nat) (h : List Line) (hm : h.length < max) (hn : h.head? ≠ some []) : sesStart max h = ⟨[] :: h, 0, []⟩ := by
  unfold sesStart histAdd
  rw [if_neg (by omega), if_neg hn, if_neg (by omega)]

/-- **C211 (part).** Older and newer walk through the present line and the history, every text being as one left it. -/
theorem C211_walk_partial (size max : Nat) (h : List Line) (as : List Act) (hs : 0 < size) (hm : h.length < max) (hn : h.head? ≠ some [])
    (hh : ∀ t ∈ h, t.length < size) (ha : short size as) :
    (as.foldl wantAct ([] :: h, 0)).1[(as.foldl wantAct ([] :: h, 0)).2]? = some (as.foldl (act size) (sesStart max h)).line := by
  rw [start_eq max h hm hn]
  exact (keeps_acts as (keeps_start size h hs hh) ha).line

/-- No older line is edited. -/
def newest : List Line × Nat → List Act → Prop
  | _, [] => True
  | p, a :: as => (∀ t, a = .edit t → p.2 = 0) ∧ newest (wantAct p a) as

theorem tail_acts {size : Nat} (h : List Line) : ∀ (as : List Act) (s : Ses) (e : List Line) (i : Nat), Keeps size s e i → short size as →
    newest (e, i) as → e.tail = h → s.h.tail = h → (as.foldl (act size) s).h.tail = h
  | [], _, _, _, _, _, _, _, ht => ht
  | a :: as, s, e, i, k, hs, hn, he, ht => by
    have k2 := keeps_act k a (fun t ht => hs t (by rw [ht]; exact List.mem_cons_self))
    have hs2 : short size as := fun t ht => hs t (List.mem_cons_of_mem _ ht)
    rw [List.foldl_cons]
    have hset : (s.h.set s.idx s.line).tail = h := by rw [k.texts]; exact he
    refine tail_acts h as (act size s a) (wantAct (e, i) a).1 (wantAct (e, i) a).2 k2 hs2 hn.2 ?_ ?_
    · cases a with
      | up => exact he
      | down => exact he
      | edit t =>
        have : i = 0 := hn.1 t rfl
        show (e.set i t).tail = h
        rw [this]
        cases e with
        | nil => exact he
        | cons x e => exact he
    · cases a with
      | up =>
        show (if _ then _ else _ : Ses).h.tail = h
        split
        · split
          · exact hset
          · exact hset
        · exact ht
      | down =>
        show (if _ then _ else _ : Ses).h.tail = h
        split
        · split
          · exact hset
          · exact hset
        · exact ht
      | edit t => exact ht

/-- **C211 (part).** If no older line is edited, Enter leaves the history as it was. -/
theorem C211_enter_partial (size max : Nat) (h : List Line) (as : List Act) (hs : 0 < size) (hm : h.length < max) (hn : h.head? ≠ some [])
    (hh : ∀ t ∈ h, t.length < size) (ha : short size as) (hq : newest ([] :: h, 0) as) : enter (as.foldl (act size) (sesStart max h)) = h := by
  rw [start_eq max h hm hn]
  exact tail_acts h as _ _ _ (keeps_start size h hs hh) ha hq rfl rfl

/-- Type `x`, older twice, newer twice: `x` is there again. -/
example : ([.edit (asc "x"), .up, .up, .up, .down, .down, .down] : List Act).foldl (act 9) (sesStart 100 [asc "b", asc "a"]) =
    ⟨[asc "x", asc "b", asc "a"], 0, asc "x"⟩ := by decide +kernel
example : (([.edit (asc "x"), .up, .up] : List Act).foldl (act 9) (sesStart 100 [asc "b", asc "a"])).line = asc "a" := by decide +kernel

/-- **C211 refuted.** An older line that is edited and left is changed in the history, though another line is entered. -/
theorem C211_edit_refuted : enter (([.up, .edit (asc "z"), .down] : List Act).foldl (act 9) (sesStart 100 [asc "b", asc "a"])) = [asc "z", asc "a"] := by
  decide +kernel

/-- **C211 refuted.** A line that fills the buffer loses its last byte when one looks at the history. -/
theorem C211_long_refuted : (([.edit (asc "abc"), .up, .down] : List Act).foldl (act 3) (sesStart 100 [asc "b"])).line = asc "ab" := by
  decide +kernel

/-- **C211 refuted.** With a full history, to enter any line, even an empty one, forgets the oldest. -/
theorem C211_full_refuted : enter (sesStart 2 [asc "b", asc "a"]) = [asc "b"] := by decide +kernel

end Verif.Edit
