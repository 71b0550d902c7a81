import Verif.Edit.Model
/-!
# The line editor: theorems (C210)
-/
namespace Verif.Edit

/-- The buffer holds the text, with a 0 behind it, and the cursor is between the two parts. -/
structure Rel (s : St) (t : Text) : Prop where
  text : ∀ i, (t.1 ++ t.2)[i]? = if i < s.len then some (s.mem i) else none
  pos : s.pos = t.1.length
  term : s.mem s.len = 0
  fits : s.len ≤ s.size
  ok : s.bad = false

theorem Rel.len {s : St} {l r : List UInt8} (h : Rel s (l, r)) : s.len = l.length + r.length := by
  have h1 := h.text s.len
  rw [if_neg (Nat.lt_irrefl _), List.getElem?_eq_none_iff, List.length_append] at h1
  have h2 := h.text (l.length + r.length)
  rw [List.getElem?_eq_none (by simp)] at h2
  have h3 : ¬ l.length + r.length < s.len := by
    intro h4
    rw [if_pos h4] at h2
    exact absurd h2 (by simp)
  dsimp only at h1
  omega

theorem Rel.line {s : St} {l r : List UInt8} (h : Rel s (l, r)) : line s = l ++ r := by
  apply List.ext_getElem?
  intro i
  rw [h.text i]
  unfold Edit.line
  rw [List.getElem?_map]
  by_cases hi : i < s.len
  · rw [if_pos hi, List.getElem?_range hi]; rfl
  · rw [if_neg hi, List.getElem?_eq_none (by simpa using hi)]; rfl

theorem get_left (l x y : List UInt8) {i : Nat} (h : i < l.length) : (l ++ x)[i]? = (l ++ y)[i]? := by
  rw [List.getElem?_append_left h, List.getElem?_append_left h]

theorem get_at (l : List UInt8) (c : UInt8) (r : List UInt8) : (l ++ c :: r)[l.length]? = some c := by
  rw [List.getElem?_append_right (Nat.le_refl _), Nat.sub_self]; rfl

theorem get_after (l : List UInt8) (c : UInt8) (r : List UInt8) {i : Nat} (h : l.length ≤ i) : (l ++ c :: r)[i + 1]? = (l ++ r)[i]? := by
  rw [List.getElem?_append_right (by omega), List.getElem?_append_right h]
  have : i + 1 - l.length = (i - l.length) + 1 := by omega
  rw [this, List.getElem?_cons_succ]

/-- A byte of the text. -/
theorem Rel.at {s : St} {l r : List UInt8} (h : Rel s (l, r)) {i : Nat} (hi : i < s.len) : (l ++ r)[i]? = some (s.mem i) := by
  have := h.text i
  rw [if_pos hi] at this
  exact this

theorem rel_cursor {s : St} {l r l' r' : List UInt8} (h : Rel s (l, r)) (e : l' ++ r' = l ++ r) : Rel { s with pos := l'.length } (l', r') :=
  ⟨fun i => by show (l' ++ r')[i]? = _; rw [e]; exact h.text i, rfl, h.term, h.fits, h.ok⟩

theorem rel_insert {s : St} {l r : List UInt8} (h : Rel s (l, r)) (c : UInt8) : Rel (insert s c) (want s.size (l, r) (.char c)) := by
  have hl := h.len
  have hp : s.pos = l.length := h.pos
  unfold insert want
  dsimp only
  by_cases hs : s.len < s.size
  · rw [if_pos hs, if_pos (show l.length + r.length < s.size by omega)]
    by_cases he : s.len = s.pos
    · rw [if_pos he]
      have hr : r = [] := List.length_eq_zero_iff.1 (by omega)
      subst hr
      refine ⟨?_, ?_, ?_, ?_, ?_⟩
      · intro i
        show (l ++ [c] ++ [])[i]? = if i < s.len + 1 then some (upd (upd s.mem s.pos c) (s.len + 1) 0 i) else none
        rw [List.append_nil]
        by_cases h1 : i < s.len
        · rw [if_pos (by omega)]
          have h2 := h.at h1
          rw [List.append_nil] at h2
          rw [List.getElem?_append_left (by simp at hl; omega), h2]
          unfold upd
          rw [if_neg (by omega), if_neg (by omega)]
        · by_cases h2 : i = s.len
          · rw [if_pos (by omega), h2, he, hp, get_at]
            unfold upd
            rw [if_neg (by omega), if_pos rfl]
          · rw [if_neg (by omega)]
            rw [List.getElem?_eq_none]
            simp at hl ⊢
            omega
      · show s.pos + 1 = (l ++ [c]).length
        simp [hp]
      · show upd _ (s.len + 1) 0 (s.len + 1) = 0
        unfold upd; rw [if_pos rfl]
      · exact hs
      · show ((s.bad || !decide (s.pos < s.size + 1)) || !decide (s.len + 1 < s.size + 1)) = false
        rw [h.ok]
        have a1 : s.pos < s.size + 1 := by omega
        have a2 : s.len + 1 < s.size + 1 := by omega
        simp [a1, a2]
    · rw [if_neg he]
      have hlt : s.pos < s.len := by omega
      refine ⟨?_, ?_, ?_, ?_, ?_⟩
      · intro i
        show (l ++ [c] ++ r)[i]? = if i < s.len + 1 then some (upd (upd (fun i => if s.pos + 1 ≤ i ∧ i < s.pos + 1 + (s.len - s.pos) then s.mem (i - (s.pos + 1) + s.pos) else s.mem i) s.pos c) (s.len + 1) 0 i) else none
        have ea : l ++ [c] ++ r = l ++ c :: r := by simp
        rw [ea]
        by_cases h1 : i < s.pos
        · rw [if_pos (by omega), get_left l (c :: r) r (by omega), h.at (by omega)]
          dsimp only [upd]
          rw [if_neg (by omega), if_neg (by omega), if_neg (by omega)]
        · by_cases h2 : i = s.pos
          · rw [if_pos (by omega), h2, hp, get_at]
            dsimp only [upd]
            rw [if_neg (by omega), if_pos rfl]
          · obtain ⟨j, rfl⟩ : ∃ j, i = j + 1 := ⟨i - 1, by omega⟩
            rw [get_after l c r (by omega)]
            by_cases h3 : j < s.len
            · rw [if_pos (by omega), h.at h3]
              dsimp only [upd]
              rw [if_neg (by omega), if_neg (by omega), if_pos (by omega)]
              have : j + 1 - (s.pos + 1) + s.pos = j := by omega
              rw [this]
            · rw [if_neg (by omega)]
              have := h.text j
              rw [if_neg h3] at this
              exact this
      · show s.pos + 1 = (l ++ [c]).length
        simp [hp]
      · show upd _ (s.len + 1) 0 (s.len + 1) = 0
        unfold upd; rw [if_pos rfl]
      · exact hs
      · show (((s.bad || !decide (s.pos + 1 + (s.len - s.pos) ≤ s.size + 1) || !decide (s.pos + (s.len - s.pos) ≤ s.size + 1)) ||
          !decide (s.pos < s.size + 1)) || !decide (s.len + 1 < s.size + 1)) = false
        rw [h.ok]
        have a1 : s.pos < s.size + 1 := by omega
        have a2 : s.len + 1 < s.size + 1 := by omega
        have a3 : s.pos + 1 + (s.len - s.pos) ≤ s.size + 1 := by omega
        have a4 : s.pos + (s.len - s.pos) ≤ s.size + 1 := by omega
        simp [a1, a2, a3, a4]
  · rw [if_neg hs, if_neg (show ¬ l.length + r.length < s.size by omega)]
    exact h

/-- Bytes at the cursor are taken away. -/
theorem rel_cut {s s' : St} {l m r : List UInt8} (h : Rel s (l ++ m, r)) (hm : ∀ i, s'.mem i = if l.length ≤ i ∧ i < l.length + r.length then s.mem (i + m.length) else if i = l.length + r.length then 0 else s.mem i)
    (hl : s'.len = l.length + r.length) (hp : s'.pos = l.length) (hs : s'.size = s.size) (hb : s'.bad = false) : Rel s' (l, r) := by
  have hl0 := h.len
  rw [List.length_append] at hl0
  have hf := h.fits
  refine ⟨?_, hp, ?_, by omega, hb⟩
  · intro i
    show (l ++ r)[i]? = _
    rw [hm, hl]
    by_cases h1 : i < l.length
    · rw [if_pos (by omega), if_neg (by omega), if_neg (by omega), get_left l r (m ++ r) h1]
      have := h.at (i := i) (by omega)
      rw [List.append_assoc] at this
      exact this
    · by_cases h2 : i < l.length + r.length
      · rw [if_pos h2, if_pos ⟨by omega, h2⟩, List.getElem?_append_right (by omega)]
        have := h.at (i := i + m.length) (by omega)
        rw [List.getElem?_append_right (by rw [List.length_append]; omega), List.length_append] at this
        have e : i + m.length - (l.length + m.length) = i - l.length := by omega
        rw [e] at this
        exact this
      · rw [if_neg h2, List.getElem?_eq_none]
        rw [List.length_append]; omega
  · rw [hm, hl, if_neg (by omega), if_pos rfl]

theorem rel_delete {s : St} {l r : List UInt8} (h : Rel s (l, r)) : Rel (delete s) (want s.size (l, r) .delete) := by
  have hl := h.len
  have hp : s.pos = l.length := h.pos
  have hf := h.fits
  unfold delete want
  dsimp only
  cases r with
  | nil =>
    rw [if_neg (by simp at hl; omega)]
    exact h
  | cons c r =>
    rw [List.length_cons] at hl
    rw [if_pos (by omega)]
    have h' : Rel { s with pos := (l ++ [c]).length } (l ++ [c], r) := rel_cursor h (by simp)
    show Rel _ (l, r)
    refine rel_cut h' ?_ ?_ ?_ ?_ ?_
    · intro i
      show upd (fun i => if s.pos ≤ i ∧ i < s.pos + (s.len - s.pos - 1) then s.mem (i - s.pos + (s.pos + 1)) else s.mem i) (s.len - 1) 0 i = _
      dsimp only [upd]
      by_cases h1 : i = s.len - 1
      · rw [if_pos h1, if_neg (by omega), if_pos (by omega)]
      · rw [if_neg h1]
        by_cases h2 : l.length ≤ i ∧ i < l.length + r.length
        · rw [if_pos (by omega), if_pos h2]
          have : i - s.pos + (s.pos + 1) = i + 1 := by omega
          rw [this]; rfl
        · rw [if_neg (by omega), if_neg h2, if_neg (by omega)]
    · show s.len - 1 = _
      omega
    · exact hp
    · rfl
    · show ((s.bad || !decide (s.pos + (s.len - s.pos - 1) ≤ s.size + 1) || !decide (s.pos + 1 + (s.len - s.pos - 1) ≤ s.size + 1)) || !decide (s.len - 1 < s.size + 1)) = false
      rw [h.ok]
      have a1 : s.pos + (s.len - s.pos - 1) ≤ s.size + 1 := by omega
      have a2 : s.pos + 1 + (s.len - s.pos - 1) ≤ s.size + 1 := by omega
      have a3 : s.len - 1 < s.size + 1 := by omega
      simp [a1, a2, a3]

theorem concat_cases (l : List UInt8) : l = [] ∨ ∃ m a, l = m ++ [a] := by
  cases l with
  | nil => exact Or.inl rfl
  | cons c l => exact Or.inr ⟨(c :: l).dropLast, (c :: l).getLast (by simp), (List.dropLast_concat_getLast (by simp)).symm⟩

theorem rel_backspace {s : St} {l r : List UInt8} (h : Rel s (l, r)) : Rel (backspace s) (want s.size (l, r) .backspace) := by
  have hl := h.len
  have hp : s.pos = l.length := h.pos
  have hf := h.fits
  unfold backspace want
  dsimp only
  rcases concat_cases l with rfl | ⟨m, a, rfl⟩
  · rw [if_neg (by simp at hp; omega)]
    exact h
  · rw [List.length_append, List.length_singleton] at hl hp
    rw [if_pos (by omega), List.dropLast_concat]
    refine rel_cut h ?_ ?_ ?_ ?_ ?_
    · intro i
      show upd (fun i => if s.pos - 1 ≤ i ∧ i < s.pos - 1 + (s.len - s.pos) then s.mem (i - (s.pos - 1) + s.pos) else s.mem i) (s.len - 1) 0 i = _
      dsimp only [upd]
      by_cases h1 : i = s.len - 1
      · rw [if_pos h1, if_neg (by omega), if_pos (by omega)]
      · rw [if_neg h1]
        by_cases h2 : m.length ≤ i ∧ i < m.length + r.length
        · rw [if_pos (by omega), if_pos h2]
          have : i - (s.pos - 1) + s.pos = i + 1 := by omega
          rw [this]; rfl
        · rw [if_neg (by omega), if_neg h2, if_neg (by omega)]
    · show s.len - 1 = _
      omega
    · show s.pos - 1 = _
      omega
    · rfl
    · show ((s.bad || !decide (s.pos - 1 + (s.len - s.pos) ≤ s.size + 1) || !decide (s.pos + (s.len - s.pos) ≤ s.size + 1)) || !decide (s.len - 1 < s.size + 1)) = false
      rw [h.ok]
      have a1 : s.pos - 1 + (s.len - s.pos) ≤ s.size + 1 := by omega
      have a2 : s.pos + (s.len - s.pos) ≤ s.size + 1 := by omega
      have a3 : s.len - 1 < s.size + 1 := by omega
      simp [a1, a2, a3]

theorem back_take (p : UInt8 → Bool) (mem : Nat → UInt8) (l : List UInt8) (hm : ∀ i, i < l.length → l[i]? = some (mem i)) : ∀ n, n ≤ l.length →
    back p mem n ≤ n ∧ l.take (back p mem n) = ((l.take n).reverse.dropWhile p).reverse
  | 0, _ => by simp [back]
  | n + 1, h => by
    have ih := back_take p mem l hm n (by omega)
    have e : l.take (n + 1) = l.take n ++ [mem n] := by
      rw [List.take_add_one, hm n (by omega)]; rfl
    rw [back, e, List.reverse_append, List.reverse_singleton, List.singleton_append]
    by_cases hp : p (mem n) = true
    · rw [if_pos hp, List.dropWhile_cons_of_pos hp]
      exact ⟨by omega, ih.2⟩
    · rw [if_neg hp, List.dropWhile_cons_of_neg hp, List.reverse_cons, List.reverse_reverse]
      exact ⟨Nat.le_refl _, e⟩

theorem rel_deleteWord {s : St} {l r : List UInt8} (h : Rel s (l, r)) : Rel (deleteWord s) (want s.size (l, r) .deleteWord) := by
  have hl := h.len
  have hp : s.pos = l.length := h.pos
  have hf := h.fits
  have hm : ∀ i, i < l.length → l[i]? = some (s.mem i) := by
    intro i hi
    rw [← h.at (by omega), List.getElem?_append_left hi]
  obtain ⟨b1, b2⟩ := back_take (fun c => c == 32) s.mem l hm l.length (Nat.le_refl _)
  obtain ⟨b3, b4⟩ := back_take (fun c => c != 32) s.mem l hm (back (fun c => c == 32) s.mem l.length) b1
  have hw : wordStart s ≤ l.length := by unfold wordStart; rw [hp]; omega
  have ht : l.take (wordStart s) = beforeWord l := by
    unfold wordStart beforeWord
    rw [hp, b4, b2, List.take_length, List.reverse_reverse]
  unfold deleteWord want
  dsimp only
  rw [← ht]
  have hlen : (l.take (wordStart s)).length = wordStart s := by rw [List.length_take]; omega
  have hdl : (l.drop (wordStart s)).length = l.length - wordStart s := List.length_drop
  have h' : Rel s (l.take (wordStart s) ++ l.drop (wordStart s), r) := by rw [List.take_append_drop]; exact h
  refine rel_cut h' ?_ ?_ ?_ ?_ ?_
  · intro i
    show (if wordStart s ≤ i ∧ i < wordStart s + (s.len - s.pos + 1) then s.mem (i - wordStart s + s.pos) else s.mem i) = _
    rw [hlen, hdl]
    by_cases h2 : wordStart s ≤ i ∧ i < wordStart s + r.length
    · rw [if_pos (by omega), if_pos h2]
      have : i - wordStart s + s.pos = i + (l.length - wordStart s) := by omega
      rw [this]
    · rw [if_neg h2]
      by_cases h3 : i = wordStart s + r.length
      · rw [if_pos (by omega), if_pos h3]
        have : i - wordStart s + s.pos = s.len := by omega
        rw [this]; exact h.term
      · rw [if_neg (by omega), if_neg h3]
  · show s.len - (s.pos - wordStart s) = _
    rw [hlen]; omega
  · exact hlen.symm
  · rfl
  · show (s.bad || !decide (wordStart s + (s.len - s.pos + 1) ≤ s.size + 1) || !decide (s.pos + (s.len - s.pos + 1) ≤ s.size + 1)) = false
    rw [h.ok]
    have a1 : wordStart s + (s.len - s.pos + 1) ≤ s.size + 1 := by omega
    have a2 : s.pos + (s.len - s.pos + 1) ≤ s.size + 1 := by omega
    simp [a1, a2]

theorem rel_swap {s : St} {m : List UInt8} {a b : UInt8} {r : List UInt8} (h : Rel s (m ++ [a], b :: r)) {l' r' : List UInt8} (e : l' ++ r' = m ++ b :: a :: r) {q : Nat}
    (hq : q = l'.length) : Rel { put (put s (s.pos - 1) (s.mem s.pos)) s.pos (s.mem (s.pos - 1)) with pos := q } (l', r') := by
  have hl := h.len
  have hp : s.pos = (m ++ [a]).length := h.pos
  have hf := h.fits
  rw [List.length_append, List.length_singleton, List.length_cons] at hl
  rw [List.length_append, List.length_singleton] at hp
  have hb : s.mem s.pos = b := by
    have := h.at (i := s.pos) (by omega)
    rw [hp] at this
    have e2 : m.length + 1 = (m ++ [a]).length := by simp
    rw [e2, get_at] at this
    rw [hp, e2]
    exact (Option.some.inj this).symm
  have ha : s.mem (s.pos - 1) = a := by
    have := h.at (i := s.pos - 1) (by omega)
    have e2 : s.pos - 1 = m.length := by omega
    rw [e2, List.append_assoc, List.singleton_append, get_at] at this
    rw [e2]
    exact (Option.some.inj this).symm
  rw [hb, ha]
  refine ⟨?_, hq, ?_, hf, ?_⟩
  · intro i
    show (l' ++ r')[i]? = if i < s.len then some (upd (upd s.mem (s.pos - 1) b) s.pos a i) else none
    rw [e]
    have h0 := h.text i
    have e3 : m ++ [a] ++ b :: r = m ++ a :: b :: r := by simp
    dsimp only at h0
    rw [e3] at h0
    dsimp only [upd]
    by_cases h1 : i = s.pos
    · rw [if_pos (by omega), if_pos h1, h1, hp, get_after m b (a :: r) (Nat.le_refl _), get_at]
    · rw [if_neg h1]
      by_cases h2 : i = s.pos - 1
      · have : i = m.length := by omega
        rw [if_pos (by omega), if_pos h2, this, get_at]
      · rw [if_neg h2, ← h0]
        by_cases h3 : i < m.length
        · exact get_left _ _ _ h3
        · obtain ⟨j, rfl⟩ : ∃ j, i = j + 1 + 1 := ⟨i - 2, by omega⟩
          rw [get_after m b (a :: r) (by omega), get_after m a r (by omega), get_after m a (b :: r) (by omega), get_after m b r (by omega)]
  · show upd (upd s.mem (s.pos - 1) b) s.pos a s.len = 0
    dsimp only [upd]
    rw [if_neg (by omega), if_neg (by omega)]
    exact h.term
  · show ((s.bad || !decide (s.pos - 1 < s.size + 1)) || !decide (s.pos < s.size + 1)) = false
    rw [h.ok]
    have a1 : s.pos - 1 < s.size + 1 := by omega
    have a2 : s.pos < s.size + 1 := by omega
    simp [a1, a2]

theorem rel_press {s : St} {l r : List UInt8} (h : Rel s (l, r)) (k : Key) : Rel (press s k) (want s.size (l, r) k) := by
  have hl := h.len
  have hp : s.pos = l.length := h.pos
  have hf := h.fits
  cases k with
  | char c => exact rel_insert h c
  | delete => exact rel_delete h
  | backspace => exact rel_backspace h
  | deleteWord => exact rel_deleteWord h
  | left =>
    unfold press left want
    dsimp only
    rcases concat_cases l with rfl | ⟨m, a, rfl⟩
    · rw [if_neg (by simp at hp; omega)]
      exact h
    · rw [List.length_append, List.length_singleton] at hp
      rw [if_pos (by omega), List.dropLast_concat, List.getLast?_concat]
      have e : s.pos - 1 = m.length := by omega
      rw [e]
      exact rel_cursor h (by simp)
  | right =>
    unfold press right want
    dsimp only
    cases r with
    | nil =>
      rw [if_neg (by simp at hl; omega)]
      simpa using h
    | cons c r =>
      rw [if_pos (by simp at hl; omega)]
      have e : s.pos + 1 = (l ++ [c]).length := by simp [hp]
      rw [e]
      exact rel_cursor h (by simp)
  | home =>
    unfold press home want
    dsimp only
    split
    · exact rel_cursor (l' := []) h rfl
    · rename_i h0
      have : l = [] := List.length_eq_zero_iff.1 (by omega)
      subst this
      exact h
  | toEnd =>
    unfold press toEnd want
    dsimp only
    split
    · have e : s.len = (l ++ r).length := by rw [List.length_append]; exact hl
      have g := rel_cursor (l' := l ++ r) (r' := []) h (List.append_nil _)
      rw [← e] at g; exact g
    · rename_i h0
      have : r = [] := List.length_eq_zero_iff.1 (by omega)
      subst this
      simpa using h
  | clear =>
    refine ⟨fun i => ?_, rfl, ?_, Nat.zero_le _, ?_⟩
    · show ([] : List UInt8)[i]? = if i < 0 then _ else none
      rw [if_neg (by omega)]; rfl
    · show upd s.mem 0 0 0 = 0
      unfold upd; rw [if_pos rfl]
    · show (s.bad || !decide (0 < s.size + 1)) = false
      rw [h.ok]; simp
  | kill =>
    refine ⟨fun i => ?_, hp, ?_, ?_, ?_⟩
    · show (l ++ [])[i]? = if i < s.pos then some (upd s.mem s.pos 0 i) else none
      rw [List.append_nil]
      by_cases h1 : i < s.pos
      · rw [if_pos h1]
        dsimp only [upd]
        rw [if_neg (by omega), ← h.at (by omega), List.getElem?_append_left (by omega)]
      · rw [if_neg h1, List.getElem?_eq_none (by omega)]
    · show upd s.mem s.pos 0 s.pos = 0
      unfold upd; rw [if_pos rfl]
    · show s.pos ≤ s.size
      omega
    · show (s.bad || !decide (s.pos < s.size + 1)) = false
      rw [h.ok]
      have : s.pos < s.size + 1 := by omega
      simp [this]
  | swap =>
    unfold press swap want
    dsimp only
    rcases concat_cases l with rfl | ⟨m, a, rfl⟩
    · rw [if_neg (by simp at hp; omega)]
      exact h
    · rw [List.getLast?_concat, List.dropLast_concat]
      rw [List.length_append, List.length_singleton] at hp hl
      cases r with
      | nil =>
        rw [if_neg (by simp at hl; omega)]
        exact h
      | cons b r =>
        rw [List.length_cons] at hl
        rw [if_pos (by omega)]
        cases r with
        | nil =>
          rw [List.length_nil] at hl
          rw [if_neg (by omega)]
          exact rel_swap h (by simp) (by simp [hp])
        | cons d r =>
          rw [List.length_cons] at hl
          rw [if_pos (by omega)]
          exact rel_swap h (by simp) (by simp [hp])

theorem press_size (s : St) (k : Key) : (press s k).size = s.size := by
  cases k with
  | char c => simp only [press, insert]; split <;> (try split) <;> rfl
  | left => simp only [press, left]; split <;> rfl
  | right => simp only [press, right]; split <;> rfl
  | home => simp only [press, home]; split <;> rfl
  | toEnd => simp only [press, toEnd]; split <;> rfl
  | delete => simp only [press, delete]; split <;> rfl
  | backspace => simp only [press, backspace]; split <;> rfl
  | deleteWord => rfl
  | swap => simp only [press, swap]; split <;> rfl
  | clear => rfl
  | kill => rfl

theorem rel_run : ∀ (ks : List Key) (s : St) (t : Text), Rel s t → Rel (ks.foldl press s) (ks.foldl (want s.size) t)
  | [], _, _, h => h
  | k :: ks, s, (l, r), h => by
    have := rel_run ks (press s k) (want s.size (l, r) k) (rel_press h k)
    rw [press_size] at this
    exact this

theorem rel_start (m : Nat → UInt8) (size : Nat) : Rel (start m size) ([], []) := by
  refine ⟨fun i => ?_, rfl, ?_, Nat.zero_le _, ?_⟩
  · show ([] : List UInt8)[i]? = if i < 0 then _ else none
    rw [if_neg (by omega)]; rfl
  · show upd m 0 0 0 = 0
    unfold upd; rw [if_pos rfl]
  · show (false || !decide (0 < size + 1)) = false
    simp

/-- **C210 (part).** After any keys the line is that of an editor with a text before and a text after the cursor, the cursor is between them, and the
buffer ends behind it; nothing outside the buffer is read or written. -/
theorem C210_keys_partial (m : Nat → UInt8) (size : Nat) (ks : List Key) :
    line (ks.foldl press (start m size)) = (ks.foldl (want size) ([], [])).1 ++ (ks.foldl (want size) ([], [])).2 ∧
      (ks.foldl press (start m size)).pos = (ks.foldl (want size) ([], [])).1.length ∧
      (ks.foldl press (start m size)).mem (line (ks.foldl press (start m size))).length = 0 ∧
      (line (ks.foldl press (start m size))).length ≤ size ∧ (ks.foldl press (start m size)).bad = false := by
  have h := rel_run ks _ _ (rel_start m size)
  have e : (start m size).size = size := rfl
  rw [e] at h
  have hs : (ks.foldl press (start m size)).size = size := by
    have : ∀ (ks : List Key) (s : St), (ks.foldl press s).size = s.size := by
      intro ks
      induction ks with
      | nil => intro s; rfl
      | cons k ks ih => intro s; exact (ih _).trans (press_size s k)
    exact this ks _
  have hlen : (line (ks.foldl press (start m size))).length = (ks.foldl press (start m size)).len := by simp [line]
  refine ⟨h.line, h.pos, by rw [hlen]; exact h.term, by rw [hlen]; have := h.fits; rw [hs] at this; exact this, h.ok⟩

/-- **C210 (part).** A text that fits and is typed is the line. -/
theorem C210_typed_partial (m : Nat → UInt8) (size : Nat) (s : List UInt8) (h : s.length ≤ size) : line ((s.map .char).foldl press (start m size)) = s := by
  rw [(C210_keys_partial m size (s.map .char)).1]
  have : ∀ (s p : List UInt8), p.length + s.length ≤ size → (s.map Key.char).foldl (want size) (p, []) = (p ++ s, []) := by
    intro s
    induction s with
    | nil => intro p _; simp
    | cons c s ih =>
      intro p hp
      rw [List.length_cons] at hp
      have e : want size (p, []) (.char c) = (p ++ [c], []) := by
        show (if p.length + 0 < size then (p ++ [c], []) else (p, [])) = _
        rw [if_pos (by omega)]
      rw [List.map_cons, List.foldl_cons, e, ih (p ++ [c]) (by simp; omega)]
      simp
  rw [this s [] (by simpa using h)]
  simp

/-- Keys: `ab cd`, a word back, `x`, left, left, Ctrl-T, Home, Delete. -/
example : line (([.char 97, .char 98, .char 32, .char 99, .char 100, .deleteWord, .char 120, .left, .left, .swap, .home, .delete] : List Key).foldl press (start (fun _ => 7) 9)) =
    asc " bx" := by decide +kernel

/-- **C210 refuted.** Keys work on bytes: Backspace after `é` leaves half of it. -/
theorem C210_utf8_refuted (m : Nat → UInt8) : line (([.char 195, .char 169, .backspace] : List Key).foldl press (start m 9)) = [195] := by
  rw [(C210_keys_partial m 9 _).1]
  rfl

/-- **C210 refuted.** A key that does not fit is dropped without a word. -/
theorem C210_full_refuted (m : Nat → UInt8) : line (([.char 97, .char 98, .char 99] : List Key).foldl press (start m 2)) = [97, 98] := by
  rw [(C210_keys_partial m 2 _).1]
  rfl

end Verif.Edit
