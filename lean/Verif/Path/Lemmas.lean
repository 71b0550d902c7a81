import Verif.Path.Ops

namespace Verif.Path

theorem split_ne_nil (s : Str) : split s ≠ [] := by
  cases s with
  | nil => simp [split]
  | cons c t =>
    simp only [split]
    split
    · simp
    · split <;> simp

theorem split_append (a b : Str) : split (a ++ 47 :: b) = split a ++ split b := by
  induction a with
  | nil => simp [split]
  | cons c t ih =>
    simp only [List.cons_append, split, ih]
    split
    · simp
    · cases h : split t with
      | nil => exact absurd h (split_ne_nil t)
      | cons p ps => simp

theorem split_noslash (a : Str) (h : (47 : UInt8) ∉ a) : split a = [a] := by
  induction a with
  | nil => rfl
  | cons c t ih =>
    simp only [List.mem_cons, not_or] at h
    simp only [split]
    rw [if_neg (fun e => h.1 e.symm), ih h.2]

/-- No piece contains a slash. -/
theorem split_pieces (s : Str) : ∀ p ∈ split s, (47 : UInt8) ∉ p := by
  induction s with
  | nil => simp [split]
  | cons c t ih =>
    simp only [split]
    split
    · intro p hp
      simp only [List.mem_cons] at hp
      rcases hp with rfl | hp
      · simp
      · exact ih p hp
    · rename_i hc
      cases h : split t with
      | nil => exact absurd h (split_ne_nil t)
      | cons q qs =>
        rw [h] at ih
        intro p hp
        simp only [List.mem_cons] at hp
        rcases hp with rfl | hp
        · simp only [List.mem_cons, not_or]
          exact ⟨fun e => hc e.symm, ih q (by simp)⟩
        · exact ih p (by simp [hp])

/-- The path is its pieces with slashes between them. -/
def joinBare : List Str → Str
  | [] => []
  | [p] => p
  | p :: q :: qs => p ++ 47 :: joinBare (q :: qs)

theorem joinBare_split (s : Str) : joinBare (split s) = s := by
  induction s with
  | nil => rfl
  | cons c t ih =>
    simp only [split]
    cases h : split t with
    | nil => exact absurd h (split_ne_nil t)
    | cons q qs =>
      rw [h] at ih
      split
      · rename_i hc
        simp only [joinBare, ih, List.nil_append, hc]
      · cases qs with
        | nil => simp only [joinBare] at ih ⊢; rw [ih]
        | cons r rs => simp only [joinBare, List.cons_append] at ih ⊢; rw [ih]

theorem split_flatMap (l : List Str) (h : ∀ n ∈ l, (47 : UInt8) ∉ n) :
    split (l.flatMap (47 :: ·)) = [] :: l := by
  induction l with
  | nil => rfl
  | cons n l ih =>
    have hn := h n (by simp)
    have hl := ih (fun m hm => h m (by simp [hm]))
    simp only [List.flatMap_cons]
    cases l with
    | nil => simp only [List.flatMap_nil, List.append_nil, split, if_pos]; rw [split_noslash n hn]
    | cons m ms =>
      simp only [List.flatMap_cons] at hl ⊢
      simp only [List.cons_append, split, if_pos, List.cons.injEq, true_and] at hl ⊢
      rw [split_append, split_noslash n hn, hl]
      rfl

theorem comps_append (a b : Str) : comps (a ++ 47 :: b) = comps a ++ comps b := by
  unfold comps; rw [split_append, List.filter_append]

theorem comps_render (l : Loc) (h : ∀ n ∈ l, GoodName n) : comps (render l) = l := by
  unfold render
  split
  · rename_i h0; subst h0; decide
  · unfold comps
    rw [split_flatMap l (fun n hn => (h n hn).2.2.2)]
    simp only [ne_eq, not_true_eq_false, decide_false, Bool.false_eq_true, not_false_eq_true,
      List.filter_cons_of_neg]
    rw [List.filter_eq_self]
    intro n hn
    simpa using (h n hn).1

theorem comps_good_names (s : Str) : ∀ n ∈ comps s, n ≠ [] ∧ (47 : UInt8) ∉ n := by
  intro n hn
  unfold comps at hn
  simp only [ne_eq, decide_not, List.mem_filter, Bool.not_eq_eq_eq_not, Bool.not_true,
    decide_eq_false_iff_not] at hn
  exact ⟨hn.2, split_pieces s n hn.1⟩

/-- What the comparison with a listed entry means. -/
theorem entryAllows_prefix {d s : Str} (h : entryAllows d s = true) : comps d <+: comps s := by
  unfold entryAllows at h
  split at h
  · exact absurd h (by simp)
  split at h
  · rename_i h1
    simp only [beq_iff_eq] at h1
    rw [h1]; exact List.prefix_rfl
  split at h
  · exact absurd h (by simp)
  rename_i h0 h1 h2
  simp only [strncmpEq, List.take_length, Bool.not_eq_eq_eq_not, Bool.not_true, beq_eq_false_iff_ne, ne_eq,
    Decidable.not_not] at h2
  have hs : s = d ++ s.drop d.length := by
    conv => lhs; rw [← List.take_append_drop d.length s]
    rw [← h2]
  split at h
  · rename_i h3
    simp only [Bool.and_eq_true, decide_eq_true_eq, beq_iff_eq] at h3
    have hd : d = d.dropLast ++ 47 :: [] := by
      have hne : d ≠ [] := by intro e; rw [e] at h3; simp at h3
      have := List.dropLast_concat_getLast hne
      rw [List.getLast?_eq_some_getLast hne, Option.some.injEq] at h3
      rw [h3.2] at this
      exact this.symm
    rw [hs]
    generalize s.drop d.length = r
    rw [hd, comps_append]
    have : d.dropLast ++ [47] ++ r = d.dropLast ++ 47 :: r := by simp
    rw [this, comps_append]
    have : comps [] = [] := by decide
    rw [this, List.append_nil]
    exact List.prefix_append _ _
  · simp only [beq_iff_eq] at h
    rw [hs]
    have hr : (s.drop d.length)[0]? = some 47 := by
      rw [List.getElem?_drop]; simpa using h
    cases hq : s.drop d.length with
    | nil => rw [hq] at hr; simp at hr
    | cons c r =>
      rw [hq] at hr
      simp only [List.getElem?_cons_zero, Option.some.injEq] at hr
      rw [hr, comps_append]
      exact List.prefix_append _ _

/-- And conversely, for an entry other than "/". -/
theorem entryAllows_of_prefix {d : Loc} {l : Loc} (hd : d ≠ []) (hn : ∀ n ∈ l, GoodName n) (h : d <+: l) :
    entryAllows (render d) (render l) = true := by
  obtain ⟨r, rfl⟩ := h
  have hl : d ++ r ≠ [] := by simp [hd]
  unfold render
  rw [if_neg hd, if_neg hl]
  unfold entryAllows
  have hlen : (d.flatMap (fun x : Str => (47 : UInt8) :: x)).length ≠ 0 := by
    cases d with
    | nil => exact absurd rfl hd
    | cons x xs => simp
  rw [if_neg hlen]
  split
  · rfl
  rw [List.flatMap_append]
  have hp : ∀ a b : Str, strncmpEq a (a ++ b) a.length = true := by
    intro a b
    simp only [strncmpEq, List.take_length, List.take_left, beq_self_eq_true]
  rw [if_neg (by rw [hp]; simp)]
  split
  · rfl
  rename_i h1 _
  cases r with
  | nil => simp at h1
  | cons x xs => simp

/-! ### Resolution -/

theorem dropLast_exists {fs : Fs} (hw : fs.Wf) {l : Loc} (h : fs l ≠ none) : fs l.dropLast ≠ none := by
  cases hl : l.reverse with
  | nil =>
    have : l = [] := by simpa using hl
    subst this; exact h
  | cons n r =>
    have : l = r.reverse ++ [n] := by
      have := congrArg List.reverse hl
      simpa using this
    subst this
    simp only [List.dropLast_concat]
    rw [hw.parent _ _ h]; simp

theorem walkWith_exists {fs : Fs} (hw : fs.Wf) (more : Loc → List Str → Option Loc)
    (hm : ∀ c cs l, fs c ≠ none → more c cs = some l → fs l ≠ none) :
    ∀ (cs : List Str) (cur l : Loc), fs cur ≠ none → walkWith fs false more cur cs = some l →
      fs l ≠ none := by
  intro cs
  induction cs with
  | nil => intro cur l hc h; simp only [walkWith, Option.some.injEq] at h; subst h; exact hc
  | cons c cs ih =>
    intro cur l hc h
    simp only [walkWith] at h
    split at h
    · exact absurd h (by simp)
    split at h
    · exact ih cur l hc h
    split at h
    · exact ih _ l (dropLast_exists hw hc) h
    split at h
    · simp at h
    · split at h
      · exact hm _ _ _ (by rw [hw.root]; simp) h
      · exact hm _ _ _ hc h
    · refine ih _ l ?_ h
      simp_all

theorem walk_exists {fs : Fs} (hw : fs.Wf) (n : Nat) : ∀ (cs : List Str) (cur l : Loc), fs cur ≠ none →
    walk fs false n cur cs = some l → fs l ≠ none := by
  induction n with
  | zero => intro cs cur l; exact walkWith_exists hw _ (by simp) cs cur l
  | succ n ih => intro cs cur l; exact walkWith_exists hw _ (fun c cs l => ih cs c l) cs cur l

theorem resolve_exists {fs : Fs} (hw : fs.Wf) {cwd : Loc} (hc : fs cwd ≠ none) {p : Str} {l : Loc}
    (h : resolve fs cwd p = some l) : fs l ≠ none := by
  unfold resolve at h
  split at h
  · simp at h
  refine walk_exists hw _ _ _ _ ?_ h
  unfold start; split
  · rw [hw.root]; simp
  · exact hc

/-- Opening for creation finds what exists. -/
theorem walkWith_create {fs : Fs} (more more' : Loc → List Str → Option Loc)
    (hm : ∀ c cs l, fs l ≠ none → more c cs = some l → more' c cs = some l) :
    ∀ (cs : List Str) (cur l : Loc), fs l ≠ none → walkWith fs true more cur cs = some l →
      walkWith fs false more' cur cs = some l := by
  intro cs
  induction cs with
  | nil => intro cur l _ h; exact h
  | cons c cs ih =>
    intro cur l hl h
    simp only [walkWith] at h ⊢
    split at h
    · exact absurd h (by simp)
    rename_i h1
    rw [if_neg h1]
    split at h
    · rename_i h2; rw [if_pos h2]; exact ih cur l hl h
    rename_i h2
    rw [if_neg h2]
    split at h
    · rename_i h3; rw [if_pos h3]; exact ih _ l hl h
    rename_i h3
    rw [if_neg h3]
    split at h
    · rename_i h4
      split at h
      · simp only [Option.some.injEq] at h; subst h; exact absurd h4 hl
      · simp at h
    · split at h
      · rename_i h5; simp only [h5]; exact hm _ _ _ hl h
      · rename_i h5; simp only [h5]; exact hm _ _ _ hl h
    · exact ih _ l hl h

theorem walk_create {fs : Fs} (n : Nat) : ∀ (cs : List Str) (cur l : Loc), fs l ≠ none →
    walk fs true n cur cs = some l → walk fs false n cur cs = some l := by
  induction n with
  | zero => intro cs cur l; exact walkWith_create _ _ (by simp) cs cur l
  | succ n ih => intro cs cur l; exact walkWith_create _ _ (fun c cs l => ih cs c l) cs cur l

theorem resolve_of_create {fs : Fs} {cwd : Loc} {p : Str} {l : Loc} (hl : fs l ≠ none)
    (h : resolveCreate fs cwd p = some l) : resolve fs cwd p = some l := by
  unfold resolveCreate at h
  unfold resolve
  split at h
  · simp at h
  rename_i h0
  rw [if_neg h0]
  exact walk_create _ _ _ _ hl h

/-- Without links, dots and missing names, resolution is concatenation. -/
theorem walkWith_plain {fs : Fs} (hk : fs.NoLinks) (create : Bool) (more : Loc → List Str → Option Loc) :
    ∀ (cs : List Str) (cur l : Loc), (∀ c ∈ cs, c ≠ [46] ∧ c ≠ [46, 46]) →
      walkWith fs create more cur cs = some l → l = cur ++ cs.filter (· ≠ []) := by
  intro cs
  induction cs with
  | nil => intro cur l _ h; simp only [walkWith, Option.some.injEq] at h; simp [h]
  | cons c cs ih =>
    intro cur l hc h
    have hc1 := hc c (by simp)
    have hc2 : ∀ c ∈ cs, c ≠ [46] ∧ c ≠ [46, 46] := fun x hx => hc x (by simp [hx])
    simp only [walkWith] at h
    split at h
    · exact absurd h (by simp)
    split at h
    · rename_i h2
      rcases h2 with h2 | h2
      · rw [ih cur l hc2 h, h2]; simp
      · exact absurd h2 hc1.1
    rename_i h2
    have hne : c ≠ [] := fun e => h2 (Or.inl e)
    rw [if_neg hc1.2] at h
    split at h
    · split at h
      · rename_i h5
        simp only [Option.some.injEq] at h
        rw [← h, h5.2]; simp [hne]
      · simp at h
    · rename_i h5; exact absurd h5 (hk _ _)
    · rw [ih _ l hc2 h]; simp [hne]

theorem walk_plain {fs : Fs} (hk : fs.NoLinks) (create : Bool) (n : Nat) (cs : List Str) (cur l : Loc)
    (hc : ∀ c ∈ cs, c ≠ [46] ∧ c ≠ [46, 46]) (h : walk fs create n cur cs = some l) :
    l = cur ++ cs.filter (· ≠ []) := by
  cases n with
  | zero => exact walkWith_plain hk create _ cs cur l hc h
  | succ n => exact walkWith_plain hk create _ cs cur l hc h

end Verif.Path
