import Verif.Opt.Restore

/-!
C132: the members of an object of options select options by name or unique abbreviation.
-/

namespace Verif.Opt

/-- The option's name begins with the word. -/
def Begins (name : Str) (o : Opt) : Prop := name ≠ [] ∧ name <+: o.name

theorem hit_iff_begins (name : Str) (hn : name ≠ []) (o : Opt) :
    ¬ (o.name.headD 0 ≠ name.headD 0 ∨ name.isPrefixOf o.name = false) ↔ Begins name o := by
  constructor
  · intro h
    simp only [ne_eq, not_or, Bool.not_eq_false] at h
    exact ⟨hn, by simpa using h.2⟩
  · rintro ⟨-, h⟩
    obtain ⟨t, ht⟩ := h
    rw [← ht]
    cases name with
    | nil => exact absurd rfl hn
    | cons x l => simp

theorem findLoop_skip (name : Str) (hn : name ≠ []) : ∀ (l : List Opt) (m : Option Opt) (l' : List Opt),
    (∀ o ∈ l, ¬ Begins name o) → findLoop name m (l ++ l') = findLoop name m l'
  | [], _, _, _ => rfl
  | o :: l, m, l', h => by
    rw [List.cons_append, findLoop, if_pos]
    · exact findLoop_skip name hn l m l' (fun o ho => h o (by simp [ho]))
    · exact Classical.byContradiction (fun h2 => h o (by simp) ((hit_iff_begins name hn o).1 h2))

theorem findLoop_hit (name : Str) (hn : name ≠ []) (o : Opt) (l : List Opt) (m : Option Opt) (hb : Begins name o) :
    findLoop name m (o :: l) = if o.name.length = name.length then some o else if m.isSome then none
      else findLoop name (some o) l := by
  rw [findLoop, if_neg ((hit_iff_begins name hn o).2 hb)]

theorem begins_len {name : Str} {o : Opt} (h : Begins name o) : o.name.length = name.length ↔ o.name = name := by
  constructor
  · intro e; exact (h.2.eq_of_length e.symm).symm
  · intro e; rw [e]

/-- C132: a word that is the beginning (or the whole) of exactly one name selects that option. -/
theorem C132_unique (s : Specs) (name : Str) (hn : name ≠ []) (pre post : List Opt) (o : Opt)
    (hs : s.list = pre ++ o :: post) (hb : Begins name o) (h1 : ∀ p ∈ pre, ¬ Begins name p)
    (h2 : ∀ p ∈ post, ¬ Begins name p) : optFind s name = some o := by
  unfold optFind
  rw [hs, findLoop_skip name hn pre none _ h1, findLoop_hit name hn o post none hb]
  split
  · rfl
  · have := findLoop_skip name hn post (some o) [] h2
    rw [List.append_nil] at this
    simp only [Option.isSome_none, Bool.false_eq_true, if_false, this]
    rfl

/-- C132: the full name selects its option if at most one option before it in the table begins so. -/
theorem C132_full_partial (s : Specs) (pre mid post : List Opt) (p o : Opt) (hn : o.name ≠ [])
    (hs : s.list = pre ++ p :: (mid ++ o :: post) ∨ s.list = mid ++ o :: post) (h1 : ∀ q ∈ pre, ¬ Begins o.name q)
    (h2 : ∀ q ∈ mid, ¬ Begins o.name q) (hp : p.name ≠ o.name) : optFind s o.name = some o := by
  have hb : Begins o.name o := ⟨hn, List.prefix_refl _⟩
  have tail : ∀ m, findLoop o.name m (mid ++ o :: post) = some o := by
    intro m
    rw [findLoop_skip o.name hn mid m _ h2, findLoop_hit o.name hn o post m hb, if_pos rfl]
  unfold optFind
  rcases hs with hs | hs
  · rw [hs, findLoop_skip o.name hn pre none _ h1]
    by_cases hbp : Begins o.name p
    · rw [findLoop_hit o.name hn p _ none hbp, if_neg (fun e => hp ((begins_len hbp).1 e))]
      simpa using tail _
    · have := findLoop_skip o.name hn [p] none (mid ++ o :: post) (by simpa using hbp)
      rw [List.singleton_append] at this
      rw [this]; exact tail _
  · rw [hs]; exact tail _

/-- C132: a full name is refused as ambiguous when two options before it begin so: an option `a` after `ab` and `ac`
cannot be set. -/
theorem C132_full_refuted (s : Specs) (pre mid post : List Opt) (p q : Opt) (name : Str) (hn : name ≠ [])
    (hs : s.list = pre ++ p :: (mid ++ q :: post)) (h1 : ∀ x ∈ pre, ¬ Begins name x) (h2 : ∀ x ∈ mid, ¬ Begins name x)
    (hp : Begins name p) (hp' : p.name ≠ name) (hq : Begins name q) (hq' : q.name ≠ name) : optFind s name = none := by
  unfold optFind
  rw [hs, findLoop_skip name hn pre none _ h1, findLoop_hit name hn p _ none hp, if_neg (fun e => hp' ((begins_len hp).1 e))]
  simp only [Option.isSome_none, Bool.false_eq_true, if_false]
  rw [findLoop_skip name hn mid _ _ h2, findLoop_hit name hn q _ _ hq, if_neg (fun e => hq' ((begins_len hq).1 e))]
  simp

theorem findLoop_begins (name : Str) (hn : name ≠ []) : ∀ (l : List Opt) (m : Option Opt) (o : Opt),
    findLoop name m l = some o → m = some o ∨ (o ∈ l ∧ Begins name o)
  | [], m, o, h => Or.inl h
  | q :: l, m, o, h => by
    rw [findLoop] at h
    split at h
    · exact (findLoop_begins name hn l m o h).imp id (fun h => ⟨List.mem_cons_of_mem _ h.1, h.2⟩)
    · rename_i hq
      have hb := (hit_iff_begins name hn q).1 hq
      split at h
      · injection h with h; subst h; exact Or.inr ⟨by simp, hb⟩
      · split at h
        · cases h
        · rcases findLoop_begins name hn l _ o h with h | h
          · injection h with h; subst h; exact Or.inr ⟨by simp, hb⟩
          · exact Or.inr ⟨List.mem_cons_of_mem _ h.1, h.2⟩

/-- C132: what a word selects is an option of the table whose name begins with it. -/
theorem C132_sound (s : Specs) (name : Str) (hn : name ≠ []) (o : Opt) (h : optFind s name = some o) :
    o ∈ s.list ∧ Begins name o := by
  rcases findLoop_begins name hn _ _ _ h with h | h
  · cases h
  · exact h

theorem findLoop_amb (name : Str) (hn : name ≠ []) : ∀ (l : List Opt) (x : Opt),
    (∃ o ∈ l, Begins name o) → (∀ o ∈ l, o.name ≠ name) → findLoop name (some x) l = none
  | [], _, h, _ => by obtain ⟨o, h, -⟩ := h; cases h
  | q :: l, x, h, hne => by
    by_cases hb : Begins name q
    · rw [findLoop_hit name hn q l _ hb, if_neg (fun e => hne q (by simp) ((begins_len hb).1 e))]
      rfl
    · have := findLoop_skip name hn [q] (some x) l (by simpa using hb)
      rw [List.singleton_append] at this
      rw [this]
      refine findLoop_amb name hn l x ?_ (fun o ho => hne o (by simp [ho]))
      obtain ⟨o, ho, hbo⟩ := h
      rcases List.mem_cons.1 ho with rfl | ho
      · exact absurd hbo hb
      · exact ⟨o, ho, hbo⟩

/-- C132: a word that is no full name and begins two names selects none; likewise one that begins no name. -/
theorem C132_ambiguous (s : Specs) (name : Str) (hn : name ≠ []) (hne : ∀ o ∈ s.list, o.name ≠ name)
    (h : (∀ o ∈ s.list, ¬ Begins name o) ∨
      ∃ pre p post, s.list = pre ++ p :: post ∧ Begins name p ∧ ∃ q ∈ post, Begins name q) : optFind s name = none := by
  unfold optFind
  rcases h with h | ⟨pre, p, post, hs, hp, q, hq, hbq⟩
  · have := findLoop_skip name hn s.list none [] h
    rw [List.append_nil] at this
    rw [this]; rfl
  · -- the first that begins so
    have : ∃ pre p post, s.list = pre ++ p :: post ∧ Begins name p ∧ (∃ q ∈ post, Begins name q) ∧
        ∀ x ∈ pre, ¬ Begins name x := by
      rw [hs]
      clear hs
      induction pre with
      | nil => exact ⟨[], p, post, rfl, hp, ⟨q, hq, hbq⟩, by simp⟩
      | cons x pre ih =>
        by_cases hx : Begins name x
        · exact ⟨[], x, pre ++ p :: post, rfl, hx, ⟨q, by simp [hq], hbq⟩, by simp⟩
        · obtain ⟨pre', p', post', h1, h2, h3, h4⟩ := ih
          refine ⟨x :: pre', p', post', by rw [List.cons_append, h1]; rfl, h2, h3, ?_⟩
          intro y hy
          rcases List.mem_cons.1 hy with rfl | hy
          · exact hx
          · exact h4 y hy
    obtain ⟨pre, p, post, hs, hp, hq, hpre⟩ := this
    rw [hs] at hne ⊢
    rw [findLoop_skip name hn pre none _ hpre, findLoop_hit name hn p post none hp,
      if_neg (fun e => hne p (by simp) ((begins_len hp).1 e))]
    simp only [Option.isSome_none, Bool.false_eq_true, if_false]
    exact findLoop_amb name hn post p hq (fun o ho => hne o (by simp [ho]))

/-- C132: `conf` with an unknown or ambiguous member fails, unless extra members are to be ignored. -/
theorem C132_unknown (c : Call) (s : Specs) (b : Nat) (ms : Mems) (r : Rec) (kv : Str × V) (hi : c.ignoreExtra = false)
    (hm : kv ∈ ms.list) (hf : optFind s kv.1 = none) : (process c s b (some (.obj ms)) r).2 ≠ .ok := by
  have key : ∀ (ms : Mems) (r : Rec), kv ∈ ms.list → (procLoop c s b ms r).2.1 ≠ .ok := by
    intro ms
    induction ms using Mems.rec (motive_1 := fun _ => True) with
    | nil => intro r h; simp [Mems.list] at h
    | cons k v m _ ih =>
      intro r h
      simp only [Mems.list, List.mem_cons] at h
      simp only [procLoop]
      rcases h with rfl | h
      · simp [hf, hi]
      · split
        · simp [hi]
        · rename_i o' _
          generalize step c o' _ r = p
          obtain ⟨r1, e, d⟩ := p
          cases e with
          | ok => simp only [andThen]; exact ih r1 h
          | err => simp [andThen]
          | crash => simp [andThen]
    | _ => trivial
  have := key ms r hm
  simp only [process]
  generalize procLoop c s b ms r = p at this ⊢
  obtain ⟨r1, e, d⟩ := p
  cases e
  · simp at this
  · simp [finish]
  · simp [finish]

/-- The table of the counterexample, and an abbreviation that works. -/
example : optFind (.cons (asc "ab") 0 {} .bool (.cons (asc "ac") 1 {} .bool (.cons (asc "a") 2 {} .bool .nil))) (asc "a") = none ∧
    (optFind plain (asc "no")).map (·.off) = some 4 := by
  refine ⟨by rfl, by rfl⟩

/-- A member object for `C130_object_partial`. -/
example : MemNames [asc "noreturn", asc "nowith"] false (.cons (asc "nowith") (.bool true) .nil) [(1, true)] := by
  refine .cons (by decide) ⟨⟨asc "nowith", rfl, by simp [Means]⟩, ?_⟩ .nil
  intro j cc hj hm
  simp only [Means, Bool.false_eq_true, if_false] at hm
  rcases j with _ | _ | j
  · simp at hj; subst hj; revert hm; decide +kernel
  · rfl
  · simp at hj

end Verif.Opt
