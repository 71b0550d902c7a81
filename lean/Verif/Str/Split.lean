import Verif.Str.Model
import Mathlib.Data.List.TakeWhile

/-!
C23: `split` and `join`.  The specification of a separator's occurrences is Lean's `<:+:` (infix) and of
joining is `List.intercalate`.
-/

namespace Verif.Str

theorem cstr_eq {s : Bytes} (h : ∀ c ∈ s, c ≠ 0) : cstr s = s := by
  unfold cstr
  rw [List.takeWhile_eq_self_iff]
  simpa using h

/-! ### `strstr` finds the first occurrence -/

theorem strstr_none {sub : Bytes} : ∀ {s : Bytes}, strstr sub s = none → ¬ sub <:+: s
  | [], h => by
    rw [strstr] at h
    split at h
    · cases h
    · rename_i h1
      intro ⟨a, b, hab⟩
      simp at hab
      exact h1 hab.2.1
  | c :: s, h => by
    rw [strstr] at h
    split at h
    · cases h
    · rename_i h1
      rw [Option.map_eq_none_iff] at h
      intro hi
      rcases List.infix_cons_iff.1 hi with h2 | h2
      · exact h1 (List.isPrefixOf_iff_prefix.2 h2)
      · exact strstr_none h h2

theorem strstr_some {sub : Bytes} : ∀ {s : Bytes} {n : Nat}, strstr sub s = some n →
    ∃ t, s = s.take n ++ sub ++ t ∧ n + sub.length + t.length = s.length
  | [], n, h => by
    rw [strstr] at h
    split at h
    · rename_i h1
      simp at h
      subst h; subst h1
      exact ⟨[], rfl, rfl⟩
    · cases h
  | c :: s, n, h => by
    rw [strstr] at h
    split at h
    · rename_i h1
      simp at h
      subst h
      obtain ⟨t, ht⟩ := List.isPrefixOf_iff_prefix.1 h1
      refine ⟨t, by simp [ht], ?_⟩
      have := congrArg List.length ht
      simp at this ⊢; omega
    · rw [Option.map_eq_some_iff] at h
      obtain ⟨m, hm, rfl⟩ := h
      obtain ⟨t, h1, h2⟩ := strstr_some hm
      refine ⟨t, ?_, by simp; omega⟩
      rw [List.take_succ_cons, List.cons_append, List.cons_append, ← h1]

/-- There is no earlier occurrence. -/
theorem strstr_first {sub : Bytes} : ∀ {s : Bytes} {n : Nat}, strstr sub s = some n →
    ∀ m, m < n → ¬ sub <+: s.drop m
  | [], n, h, m, hm => by
    rw [strstr] at h
    split at h
    · simp at h; omega
    · cases h
  | c :: s, n, h, m, hm => by
    rw [strstr] at h
    split at h
    · simp at h; omega
    · rename_i h1
      rw [Option.map_eq_some_iff] at h
      obtain ⟨k, hk, rfl⟩ := h
      cases m with
      | zero => intro h2; exact h1 (List.isPrefixOf_iff_prefix.2 h2)
      | succ m => exact strstr_first hk m (by omega)

theorem strstr_drop {sub s : Bytes} {n : Nat} (h : strstr sub s = some n) :
    s = s.take n ++ sub ++ s.drop (n + sub.length) := by
  obtain ⟨t, h1, h2⟩ := strstr_some h
  have : s.drop (n + sub.length) = t := by
    have h3 : (s.take n ++ sub).length = n + sub.length := by simp; omega
    rw [← h3]
    conv => lhs; arg 2; rw [h1]
    rw [List.drop_left']
    rfl
  rw [this]; exact h1

/-- What is before the first occurrence, even with all but the last byte of the separator, does not contain
it. -/
theorem strstr_clean {sub s : Bytes} {n : Nat} (hs : sub ≠ []) (h : strstr sub s = some n) :
    ¬ sub <:+: s.take n ++ sub.dropLast := by
  rintro ⟨a, b, hab⟩
  have hd := strstr_drop h
  have hl : 0 < sub.length := List.length_pos_iff.2 hs
  have hlen := congrArg List.length hab
  simp only [List.length_append, List.length_dropLast, List.length_take] at hlen
  obtain ⟨t, -, h2⟩ := strstr_some h
  apply strstr_first h a.length (by omega)
  have he : s = a ++ sub ++ b ++ ([sub.getLast hs] ++ s.drop (n + sub.length)) := by
    rw [hab]
    conv => lhs; rw [hd]
    rw [List.append_assoc (s.take n) sub.dropLast, ← List.append_assoc sub.dropLast,
      List.dropLast_concat_getLast hs, List.append_assoc]
  rw [he]
  simp [List.append_assoc]

theorem pieces_ne_nil (sub s : Bytes) : pieces sub s ≠ [] := by
  rw [pieces.eq_def]
  split
  · simp
  · split
    · simp
    · split <;> simp

theorem intercalate_cons (sep p : Bytes) {l : List Bytes} (h : l ≠ []) :
    sep.intercalate (p :: l) = p ++ sep ++ sep.intercalate l := by
  cases l with
  | nil => exact absurd rfl h
  | cons q l => simp [List.intercalate, List.intersperse]

theorem pieces_join (sub : Bytes) (hs : sub ≠ []) (s : Bytes) : sub.intercalate (pieces sub s) = s := by
  induction s using pieces.induct (sub := sub) with
  | case1 => rw [pieces.eq_def, if_pos rfl]; simp [List.intercalate]
  | case2 s h h1 => rw [pieces.eq_def, if_neg h, h1]; simp [List.intercalate]
  | case3 s h n h1 h2 =>
    rw [pieces.eq_def, if_neg h, h1]
    simp only []
    rw [if_pos h2]; simp [List.intercalate]
  | case4 s h n h1 h2 ih =>
    rw [pieces.eq_def, if_neg h, h1]
    simp only []
    rw [if_neg h2, intercalate_cons _ _ (pieces_ne_nil _ _), ih]
    exact (strstr_drop h1).symm

theorem count_eq (sub s : Bytes) : (pieces sub s).length = 1 + countLoop sub s := by
  induction s using pieces.induct (sub := sub) with
  | case1 => rw [pieces.eq_def, countLoop.eq_def, if_pos rfl, if_pos rfl]; rfl
  | case2 s h h1 =>
    rw [pieces.eq_def, countLoop.eq_def, if_neg h, if_neg h, h1]; rfl
  | case3 s h n h1 h2 =>
    rw [pieces.eq_def, countLoop.eq_def, if_neg h, if_neg h, h1]
    simp only []
    rw [if_pos h2, if_pos h2]; rfl
  | case4 s h n h1 h2 ih =>
    rw [pieces.eq_def, countLoop.eq_def, if_neg h, if_neg h, h1]
    simp only []
    rw [if_neg h2, if_neg h2, List.length_cons, ih]; omega

theorem strstr_ne_end {sub s : Bytes} {n : Nat} (hs : sub ≠ []) (h : strstr sub s = some n) : s.drop n ≠ [] := by
  intro hd
  obtain ⟨t, -, h2⟩ := strstr_some h
  have := List.drop_eq_nil_iff.1 hd
  have := List.length_pos_iff.2 hs
  omega

theorem pieces_clean (sub : Bytes) (hs : sub ≠ []) (s : Bytes) :
    (∀ p ∈ (pieces sub s).dropLast, ¬ sub <:+: p ++ sub.dropLast) ∧
    ∀ p, (pieces sub s).getLast? = some p → ¬ sub <:+: p := by
  induction s using pieces.induct (sub := sub) with
  | case1 =>
    rw [pieces.eq_def, if_pos rfl]
    refine ⟨by simp, ?_⟩
    intro p hp
    simp at hp
    subst hp
    rintro ⟨a, b, hab⟩
    simp at hab
    exact hs hab.2.1
  | case2 s h h1 =>
    rw [pieces.eq_def, if_neg h, h1]
    refine ⟨by simp, ?_⟩
    intro p hp
    simp at hp
    subst hp
    exact strstr_none h1
  | case3 s h n h1 h2 =>
    rcases h2 with h2 | h2
    · exact absurd h2 hs
    · exact absurd h2 (strstr_ne_end hs h1)
  | case4 s h n h1 h2 ih =>
    rw [pieces.eq_def, if_neg h, h1]
    simp only []
    rw [if_neg h2, List.dropLast_cons_of_ne_nil (pieces_ne_nil _ _), List.getLast?_cons_of_ne_nil (pieces_ne_nil _ _)]
    refine ⟨?_, ih.2⟩
    intro p hp
    rcases List.mem_cons.1 hp with rfl | hp
    · exact strstr_clean hs h1
    · exact ih.1 p hp

/-- A string of a script without NUL bytes. -/
def noNul (s : Bytes) : Prop := ∀ c ∈ s, c ≠ 0

theorem splitStr_eq {s sep : Bytes} (h1 : noNul s) (h2 : noNul sep) (hs : sep ≠ []) :
    split s (.str sep) = some (pieces sep s) := by
  unfold split
  simp only []
  rw [if_neg hs]
  unfold splitStr
  rw [cstr_eq h1, cstr_eq h2, if_neg (by simpa using hs)]
  unfold stored
  rw [if_pos (count_eq sep s)]

theorem joinLoop_eq (jstr : Bytes) : ∀ (l : List Bytes) (i : Nat), i ≠ 0 → (∀ v ∈ l, noNul v) →
    joinLoop jstr i (l.map some) = (l.map fun v => jstr ++ v).flatten
  | [], _, _, _ => rfl
  | v :: l, i, hi, hv => by
    rw [List.map_cons, joinLoop, joinLoop_eq jstr l (i + 1) (by omega) (fun w hw => hv w (List.mem_cons_of_mem _ hw)),
      cstr_eq (hv v (by simp))]
    by_cases hj : jstr = []
    · simp [hj]
    · rw [if_pos ⟨hi, hj⟩]; simp

theorem intercalate_flatten (sep v : Bytes) : ∀ l : List Bytes,
    sep.intercalate (v :: l) = v ++ (l.map fun w => sep ++ w).flatten
  | [] => by simp [List.intercalate]
  | w :: l => by
    rw [intercalate_cons _ _ (by simp), intercalate_flatten sep w l]; simp

/-- **C23, join**: an array of strings (no holes, no NUL bytes) joined with a given separator. -/
theorem C23_join_partial (l : List Bytes) (sep : Bytes) (hl : ∀ v ∈ l, noNul v) (hs : noNul sep) :
    join (l.map some) (some sep) = sep.intercalate l := by
  unfold join
  simp only [cstr_eq hs]
  cases l with
  | nil => rfl
  | cons v l =>
    rw [List.map_cons, joinLoop, joinLoop_eq sep l 1 (by omega) (fun w hw => hl w (List.mem_cons_of_mem _ hw)),
      cstr_eq (hl v (by simp)), intercalate_flatten]
    simp

theorem noNul_pieces {sub s : Bytes} (h : noNul s) : ∀ p ∈ pieces sub s, noNul p := by
  induction s using pieces.induct (sub := sub) with
  | case1 =>
    rw [pieces.eq_def, if_pos rfl]
    intro p hp; simp at hp; subst hp
    intro c hc; cases hc
  | case2 s h' h1 =>
    rw [pieces.eq_def, if_neg h', h1]
    intro p hp; simp at hp; subst hp; exact h
  | case3 s h' n h1 h2 =>
    rw [pieces.eq_def, if_neg h', h1]
    simp only []
    rw [if_pos h2]
    intro p hp; simp at hp; subst hp; exact h
  | case4 s h' n h1 h2 ih =>
    rw [pieces.eq_def, if_neg h', h1]
    simp only []
    rw [if_neg h2]
    intro p hp
    rcases List.mem_cons.1 hp with rfl | hp
    · intro c hc; exact h c (List.mem_of_mem_take hc)
    · exact ih (fun c hc => h c (List.mem_of_mem_drop hc)) p hp

/-- **C23**: `s.split(sep).join(sep) == s`, and no piece contains `sep`, for all strings and non-empty
separators without NUL bytes.  (`split` stores exactly as many pieces as it made room for.) -/
theorem C23_split_join (s sep : Bytes) (h1 : noNul s) (h2 : noNul sep) (hs : sep ≠ []) :
    ∃ l, split s (.str sep) = some l ∧ join (l.map some) (some sep) = s ∧ ∀ p ∈ l, ¬ sep <:+: p := by
  refine ⟨_, splitStr_eq h1 h2 hs, ?_, ?_⟩
  · rw [C23_join_partial _ _ (noNul_pieces h1) h2]
    exact pieces_join sep hs s
  · intro p hp
    have hc := pieces_clean sep hs s
    rcases List.eq_nil_or_concat (pieces sep s) with h0 | ⟨L, q, hL⟩
    · rw [h0] at hp; cases hp
    · rw [hL] at hc hp
      rw [List.concat_eq_append] at hc hp
      simp only [List.dropLast_concat, List.getLast?_concat] at hc
      rcases List.mem_append.1 hp with hp | hp
      · intro hi
        exact hc.1 p hp (hi.trans (List.prefix_append _ _).isInfix)
      · simp at hp
        subst hp
        exact hc.2 _ rfl

/-- `sep` first occurs in `p ++ sep` at the end. -/
def Clean (sep p : Bytes) : Prop := ¬ sep <:+: p ++ sep.dropLast

theorem strstr_of_clean {sep p t : Bytes} (hs : sep ≠ []) (hc : Clean sep p) : strstr sep (p ++ sep ++ t) = some p.length := by
  cases hr : strstr sep (p ++ sep ++ t) with
  | none => exact absurd ⟨p, t, rfl⟩ (strstr_none hr)
  | some n =>
    have h1 := strstr_first hr
    have h2 := strstr_drop hr
    obtain ⟨u, h3, h4⟩ := strstr_some hr
    congr 1
    rcases Nat.lt_trichotomy n p.length with h | h | h
    · exfalso
      apply hc
      refine ⟨(p ++ sep ++ t).take n, ((p ++ sep).drop (n + sep.length)).dropLast, ?_⟩
      have hl : 0 < sep.length := List.length_pos_iff.2 hs
      have e1 : p ++ sep = ((p ++ sep ++ t).take n ++ sep) ++ (p ++ sep).drop (n + sep.length) := by
        have h5 : ((p ++ sep ++ t).take n ++ sep).length = n + sep.length := by
          simp; omega
        have h6 : ((p ++ sep ++ t).take n ++ sep) = (p ++ sep).take (n + sep.length) := by
          have : ((p ++ sep ++ t).take n ++ sep) = (p ++ sep ++ t).take (n + sep.length) := by
            conv => rhs; arg 2; rw [h2]
            rw [List.take_left' h5]
          rw [this, List.take_append_of_le_length (by simp; omega)]
        rw [h6, List.take_append_drop]
      have hne : (p ++ sep).drop (n + sep.length) ≠ [] := by
        intro hh
        have := List.drop_eq_nil_iff.1 hh
        simp at this; omega
      have e2 := congrArg List.dropLast e1
      rw [List.dropLast_append_of_ne_nil hs, List.dropLast_append_of_ne_nil hne] at e2
      rw [e2]
    · exact h
    · exact absurd ⟨t, by simp⟩ (h1 p.length h)

/-- **C23, uniqueness**: joining pieces none of which makes the separator appear early and splitting the
result gives the pieces back. -/
theorem C23_join_split (l : List Bytes) (sep : Bytes) (hl : l ≠ []) (hv : ∀ v ∈ l, noNul v) (h2 : noNul sep)
    (hs : sep ≠ []) (hc : ∀ p ∈ l.dropLast, Clean sep p) (hlast : ∀ p, l.getLast? = some p → ¬ sep <:+: p) :
    split (join (l.map some) (some sep)) (.str sep) = some l := by
  rw [C23_join_partial l sep hv h2]
  have hnn : noNul (sep.intercalate l) := by
    clear hc hlast
    induction l with
    | nil => exact absurd rfl hl
    | cons v l ih =>
      rw [intercalate_flatten]
      intro c hcm
      rcases List.mem_append.1 hcm with h | h
      · exact hv v (by simp) c h
      · simp only [List.mem_flatten, List.mem_map] at h
        obtain ⟨_, ⟨w, hw, rfl⟩, hcw⟩ := h
        rcases List.mem_append.1 hcw with h | h
        · exact h2 c h
        · exact hv w (List.mem_cons_of_mem _ hw) c h
  rw [splitStr_eq hnn h2 hs]
  congr 1
  clear hv hnn
  induction l with
  | nil => exact absurd rfl hl
  | cons v l ih =>
    cases l with
    | nil =>
      have h3 := hlast v rfl
      have he : sep.intercalate [v] = v := by simp [List.intercalate]
      rw [he, pieces.eq_def]
      by_cases hv0 : v = []
      · rw [if_pos hv0, hv0]
      · rw [if_neg hv0]
        cases hr : strstr sep v with
        | none => rfl
        | some n => exact absurd ⟨_, _, (strstr_drop hr).symm⟩ h3
    | cons w l =>
      have hcv := hc v (by simp [List.dropLast])
      rw [intercalate_cons _ _ (by simp), pieces.eq_def]
      have hst := strstr_of_clean (t := sep.intercalate (w :: l)) hs hcv
      rw [if_neg (by simp [hs]), hst]
      simp only []
      rw [if_neg (by
        rintro (h | h)
        · exact hs h
        · have := List.drop_eq_nil_iff.1 h
          have := List.length_pos_iff.2 hs
          simp at *; omega)]
      have e1 : (v ++ sep ++ sep.intercalate (w :: l)).take v.length = v := by
        rw [List.append_assoc, List.take_left' rfl]
      have e2 : (v ++ sep ++ sep.intercalate (w :: l)).drop (v.length + sep.length) = sep.intercalate (w :: l) := by
        rw [List.drop_left' (by simp)]
      rw [e1, e2, ih (by simp) (fun p hp => hc p (by
        rw [List.dropLast_cons_of_ne_nil (by simp)]; exact List.mem_cons_of_mem _ hp)) (fun p hp => hlast p (by
        rw [List.getLast?_cons_of_ne_nil (by simp)]; exact hp))]

/-- For a separator of one byte it is enough that no piece contains it. -/
theorem C23_join_split_char (l : List Bytes) (c : UInt8) (hl : l ≠ []) (hv : ∀ v ∈ l, noNul v) (h2 : c ≠ 0)
    (hc : ∀ p ∈ l, c ∉ p) : split (join (l.map some) (some [c])) (.str [c]) = some l := by
  have hi : ∀ p ∈ l, ¬ [c] <:+: p := by
    intro p hp hin
    exact hc p hp (hin.subset (by simp))
  refine C23_join_split l [c] hl hv (by intro x hx; simp at hx; subst hx; exact h2) (by simp) ?_ ?_
  · intro p hp
    have := hi p (List.dropLast_subset l hp)
    simpa [Clean] using this
  · intro p hp
    exact hi p (List.mem_of_getLast? hp)

/-- **C23 refuted** for separators that can overlap a piece: joining `"a", ""` with `"aa"` and splitting
gives `"", "a"`. -/
theorem C23_overlap_refuted :
    split (join [some [97], some []] (some [97, 97])) (.str [97, 97]) = some [[], [97]] := by decide +kernel

/-- **C23 refuted**: `join` without an argument puts nothing between the elements (JavaScript: commas). -/
theorem C23_join_default_refuted (a b : UInt8) (ha : a ≠ 0) (hb : b ≠ 0) :
    join [some [a], some [b]] none = [a, b] := by
  simp [join, joinLoop, cstr, ha, hb]

/-- **C23 refuted**: `join` skips holes together with their separator (JavaScript: `[,"a",,"b"].join("-")`
is `"-a--b"`). -/
theorem C23_join_hole_refuted :
    join [none, some (asc "a"), none, some (asc "b")] (some (asc "-")) = asc "-a-b" := by decide +kernel

/-- **C23 refuted**: what follows a NUL byte is lost, in `split` and in `join`. -/
theorem C23_nul_refuted :
    split [97, 0, 44, 98] (.str [44]) = some [[97]] ∧ join [some [97, 0, 98]] (some []) = [97] := by decide +kernel

/-- **C23 refuted**: `split()` splits on white space (documented: into bytes; JavaScript: one piece). -/
theorem C23_split_omitted_refuted : split (asc "ab c") .omitted = some [asc "ab", asc "c"] := by decide +kernel

theorem wsPieces_cons (s : Bytes) : ∀ cur, ∃ l, wsPieces cur s = (cur ++ s.takeWhile (fun c => !isspace c)) :: l := by
  induction s with
  | nil => intro cur; exact ⟨[], by simp [wsPieces]⟩
  | cons c s ih =>
    intro cur
    rw [wsPieces]
    by_cases h : isspace c = true
    · rw [if_pos h]; exact ⟨wsPieces [] s, by simp [h]⟩
    · rw [if_neg h]
      obtain ⟨l, hl⟩ := ih (cur ++ [c])
      exact ⟨l, by rw [hl]; simp [h]⟩

theorem wsPieces_length (s : Bytes) : ∀ cur, (wsPieces cur s).length = 1 + wsCount s := by
  induction s with
  | nil => intro cur; rfl
  | cons c s ih =>
    intro cur
    rw [wsPieces, wsCount]
    by_cases h : isspace c = true
    · rw [if_pos h, if_pos h, List.length_cons, ih]; omega
    · rw [if_neg h, if_neg h, ih]

theorem wsPieces_split (s : Bytes) : ∀ cur, (∀ c ∈ cur, isspace c = false) →
    wsPieces cur s = (cur ++ s).splitOnP isspace := by
  induction s with
  | nil =>
    intro cur hc
    rw [wsPieces, List.append_nil, List.splitOnP_eq_single (by intro x hx; simp [hc x hx])]
  | cons c s ih =>
    intro cur hc
    rw [wsPieces]
    by_cases h : isspace c = true
    · rw [if_pos h, ih [] (by simp), List.splitOnP_first (by intro x hx; simp [hc x hx]) _ h, List.nil_append]
    · rw [if_neg h, ih (cur ++ [c])]
      · simp
      · intro x hx
        rcases List.mem_append.1 hx with hx | hx
        · exact hc x hx
        · simp at hx; subst hx; simpa using h

/-- **C23, white space**: `split(null)` gives the non-empty runs between white space. -/
theorem C23_split_null (s : Bytes) (h : noNul s) :
    split s .null = some ((s.splitOnP isspace).filter (· ≠ [])) := by
  unfold split splitStr
  have h0 : cstr [] = [] := rfl
  simp only [h0, List.length_nil, if_true, cstr_eq h]
  unfold stored
  rw [if_pos (wsPieces_length s []), wsPieces_split s [] (by simp)]
  rfl

/-- **C23, bytes**: `split("")` gives the single bytes. -/
theorem C23_split_bytes (s : Bytes) (h : noNul s) : split s (.str []) = some (s.map fun c => [c]) := by
  unfold split
  simp only [if_true]
  congr 1
  apply List.map_congr_left
  intro c hc
  exact cstr_eq (by intro x hx; simp at hx; subst hx; exact h _ hc)

/-! ### Instances -/

example : noNul (asc "a,b,,c") ∧ split (asc "a,b,,c") (.str (asc ",")) = some [asc "a", asc "b", [], asc "c"] := by
  refine ⟨by intro c hc; revert c; decide +kernel, by decide +kernel⟩

example : Clean (asc "::") (asc "a:b") ∧ ¬ Clean (asc "::") (asc "a:") := by
  refine ⟨?_, ?_⟩
  · intro h; revert h; decide +kernel
  · intro h; apply h; decide +kernel

end Verif.Str
