import Verif.Match.Model
import Mathlib.Data.List.Nodup
/-!
# System.matchObj: theorems (C201)
-/
namespace Verif.Match

def entry (e : Bytes × Bytes) : Bytes := e.1 ++ 58 :: e.2

/-- The entries that follow the first one. -/
def tails (l : List (Bytes × Bytes)) : Bytes := l.flatMap (fun e => 44 :: entry e) ++ [125]

theorem tails_nil : tails [] = [125] := rfl
theorem tails_cons (e l) : tails (e :: l) = 44 :: (entry e ++ tails l) := by simp [tails]

theorem entries_tails : ∀ (e : Bytes × Bytes) (l : List (Bytes × Bytes)), entries (e :: l) ++ [125] = entry e ++ tails l
  | e, [] => by simp [entries, entry, tails]
  | e, f :: r => by
    rw [entries, tails_cons, ← entries_tails f r]
    simp [entry]

theorem sysType_cons (e l) : sysType (e :: l) = 123 :: (entry e ++ tails l) := by
  rw [sysType, entries_tails]

theorem sysType_nil : sysType [] = [123, 125] := rfl

theorem type_free : ∀ a ∈ typeNames, ∀ b ∈ typeNames, a.isPrefixOf b = true → a = b := by decide +kernel

theorem type_plain : ∀ a ∈ typeNames, 44 ∉ a ∧ 58 ∉ a ∧ 123 ∉ a ∧ 125 ∉ a ∧ (∀ c ∈ a, space c = false) ∧ a ≠ [] := by decide +kernel

/-- What `Ok` says of one entry. -/
def EOk (e : Bytes × Bytes) : Prop := Plain e.1 ∧ e.2 ∈ typeNames

theorem split_at (x : UInt8) : ∀ (a b s t : Bytes), x ∉ a → x ∉ b → a ++ x :: s = b ++ x :: t → a = b ∧ s = t
  | [], [], s, t, _, _, h => by simpa using h
  | [], b :: bs, s, t, _, h2, h => by
    have := (List.cons.inj h).1
    exact absurd (this ▸ List.mem_cons_self ..) h2
  | a :: as, [], s, t, h1, _, h => by
    have := (List.cons.inj h).1
    exact absurd (this ▸ List.mem_cons_self ..) h1
  | a :: as, b :: bs, s, t, h1, h2, h => by
    obtain ⟨e1, e2⟩ := List.cons.inj h
    obtain ⟨e3, e4⟩ := split_at x as bs s t (fun m => h1 (List.mem_cons_of_mem _ m)) (fun m => h2 (List.mem_cons_of_mem _ m)) e2
    exact ⟨by rw [e1, e3], e4⟩

theorem tails_head (l) : ∃ c t, tails l = c :: t ∧ (c = 44 ∨ c = 125) := by
  cases l with
  | nil => exact ⟨125, [], rfl, Or.inr rfl⟩
  | cons e l => exact ⟨44, _, tails_cons e l, Or.inl rfl⟩

/-- Two names of types before a comma or brace. -/
theorem type_eq : ∀ (a b x : Bytes) (l : List (Bytes × Bytes)), a ∈ typeNames → b ∈ typeNames → a ++ x = b ++ tails l → a = b := by
  intro a b x l ha hb h
  obtain ⟨c, t, ht, hc⟩ := tails_head l
  have key : a <+: b ++ tails l := ⟨x, h⟩
  rcases Nat.le_total a.length b.length with hl | hl
  · have : a <+: b := List.prefix_of_prefix_length_le key (List.prefix_append b (tails l)) hl
    exact type_free a ha b hb (List.isPrefixOf_iff_prefix.2 this)
  · obtain ⟨y, hy⟩ := List.prefix_of_prefix_length_le (List.prefix_append b (tails l)) key hl
    cases y with
    | nil => rw [← hy]; simp
    | cons d y =>
      rw [← hy, ht, List.append_assoc] at h
      have h2 := List.append_cancel_left h
      have : d = c := (List.cons.inj h2).1
      have hd : d ∈ a := by rw [← hy]; simp
      obtain ⟨p1, _, _, p2, _⟩ := type_plain a ha
      rcases hc with rfl | rfl
      · exact absurd (this ▸ hd) p1
      · exact absurd (this ▸ hd) p2

theorem entry_prefix {e f : Bytes × Bytes} {l : List (Bytes × Bytes)} (he : EOk e) (hf : EOk f) (x : Bytes)
    (h : entry e ++ x = entry f ++ tails l) : e = f := by
  have h' : e.1 ++ 58 :: (e.2 ++ x) = f.1 ++ 58 :: (f.2 ++ tails l) := by simpa [entry] using h
  obtain ⟨h1, h2⟩ := split_at 58 _ _ _ _ he.1.2.1 hf.1.2.1 h'
  exact Prod.ext h1 (type_eq _ _ _ _ he.2 hf.2 h2)

theorem entry_isPrefix {e f : Bytes × Bytes} {l : List (Bytes × Bytes)} (he : EOk e) (hf : EOk f) :
    (entry e).isPrefixOf (entry f ++ tails l) = decide (e = f) := by
  by_cases h : e = f
  · subst h
    rw [decide_eq_true rfl]
    exact List.isPrefixOf_iff_prefix.2 (List.prefix_append _ _)
  · rw [decide_eq_false h]
    cases hp : (entry e).isPrefixOf (entry f ++ tails l) with
    | false => rfl
    | true =>
      obtain ⟨x, hx⟩ := List.isPrefixOf_iff_prefix.1 hp
      exact absurd (entry_prefix he hf x hx) h

theorem entry_comma {e : Bytes × Bytes} (he : EOk e) : 44 ∉ entry e := by
  have := (type_plain e.2 he.2).1
  simp [entry, he.1.1, this]

theorem entry_brace {e : Bytes × Bytes} (he : EOk e) : 125 ∉ entry e ∧ 123 ∉ entry e := by
  obtain ⟨_, _, q1, q2, _⟩ := type_plain e.2 he.2
  have := he.1
  constructor
  · simp [entry, this.2.2.2.1, q2]
  · simp [entry, this.2.2.1, q1]

theorem entry_ne (e : Bytes × Bytes) : entry e ≠ [] := by simp [entry]

/-! ## One text for one object -/

theorem parts_cons : ∀ (a t : Bytes), 44 ∉ a → parts (a ++ 44 :: t) = a :: parts t
  | [], t, _ => by rw [List.nil_append, parts, if_pos rfl]
  | c :: a, t, h => by
    have hc : c ≠ 44 := fun e => h (e ▸ List.mem_cons_self ..)
    rw [List.cons_append, parts, if_neg hc, parts_cons a t (fun m => h (List.mem_cons_of_mem _ m))]

theorem parts_one : ∀ (a : Bytes), a ≠ [] → 44 ∉ a → parts a = [a]
  | [], h, _ => absurd rfl h
  | c :: a, _, h => by
    have hc : c ≠ 44 := fun e => h (e ▸ List.mem_cons_self ..)
    have ha : 44 ∉ a := fun m => h (List.mem_cons_of_mem _ m)
    rw [parts, if_neg hc]
    cases a with
    | nil => rfl
    | cons d a => rw [parts_one (d :: a) (by simp) ha]

theorem word_entry {e : Bytes × Bytes} (he : EOk e) : word (entry e) = 44 :: entry e := by
  unfold word
  rw [if_neg]
  rintro ⟨_, h⟩
  have := List.mem_of_getLast? h
  rcases List.mem_cons.1 this with h | h
  · exact absurd h (by decide)
  · exact (entry_brace he).1 h

theorem word_last (e : Bytes × Bytes) : word (entry e ++ [125]) = 44 :: entry e := by
  unfold word
  have : 44 :: (entry e ++ [125]) = (44 :: entry e) ++ [125] := by simp
  rw [if_pos, this, List.dropLast_concat]
  constructor
  · simp
  · rw [this, List.getLast?_concat]

/-- The words that are looked for. -/
theorem words : ∀ (e : Bytes × Bytes) (l : List (Bytes × Bytes)), (∀ x ∈ e :: l, EOk x) →
    (parts (entry e ++ tails l)).map word = (e :: l).map (fun x => 44 :: entry x)
  | e, [], h => by
    have he := h e (List.mem_cons_self ..)
    rw [tails_nil, parts_one _ (by simp) (by simp [entry_comma he])]
    simp [word_last]
  | e, f :: r, h => by
    have he := h e (List.mem_cons_self ..)
    rw [tails_cons, parts_cons _ _ (entry_comma he), List.map_cons, word_entry he,
      words f r (fun x hx => h x (List.mem_cons_of_mem _ hx))]
    rfl

theorem sysType_inj {o f : List (Bytes × Bytes)} (ho : ∀ x ∈ o, EOk x) (hf : ∀ x ∈ f, EOk x) (h : sysType o = sysType f) : o = f := by
  cases o with
  | nil =>
    cases f with
    | nil => rfl
    | cons e l =>
      rw [sysType_nil, sysType_cons] at h
      have hl := congrArg List.length h
      obtain ⟨c, t, ht, _⟩ := tails_head l
      simp [entry, ht] at hl
      omega
  | cons d k =>
    cases f with
    | nil =>
      rw [sysType_nil, sysType_cons] at h
      have hl := congrArg List.length h
      obtain ⟨c, t, ht, _⟩ := tails_head k
      simp [entry, ht] at hl
      omega
    | cons e l =>
      rw [sysType_cons, sysType_cons] at h
      have h2 := congrArg (fun s => (parts s).map word) (List.cons.inj h).2
      rw [words d k ho, words e l hf] at h2
      have inj : ∀ (a b : List (Bytes × Bytes)), (∀ x ∈ a, EOk x) → (∀ x ∈ b, EOk x) →
          a.map (fun x => (44 : UInt8) :: entry x) = b.map (fun x => 44 :: entry x) → a = b := by
        intro a
        induction a with
        | nil => intro b _ _ h; cases b with
          | nil => rfl
          | cons y b => simp at h
        | cons x a ih =>
          intro b ha hb h
          cases b with
          | nil => simp at h
          | cons y b =>
            obtain ⟨h1, h2⟩ := List.cons.inj h
            obtain ⟨e1, e2⟩ := split_at 58 _ _ _ _ (ha x (List.mem_cons_self ..)).1.2.1 (hb y (List.mem_cons_self ..)).1.2.1 (List.cons.inj h1).2
            rw [Prod.ext e1 e2, ih b (fun z hz => ha z (List.mem_cons_of_mem _ hz)) (fun z hz => hb z (List.mem_cons_of_mem _ hz)) h2]
      exact inj _ _ ho hf h2

/-! ## Spaces -/

theorem strip_filter : ∀ s : Bytes, (∀ c ∈ s, space c = true → c = 32) → s.getLast? ≠ some 32 → strip s = some (s.filter (· ≠ 32))
  | [], _, _ => rfl
  | c :: t, h, hl => by
    have ht : t.getLast? ≠ some 32 ∨ t = [] := by
      cases t with
      | nil => exact Or.inr rfl
      | cons d t => left; rwa [List.getLast?_cons_cons] at hl
    have hrec : strip t = some (t.filter (· ≠ 32)) := by
      rcases ht with ht | rfl
      · exact strip_filter t (fun x hx => h x (List.mem_cons_of_mem _ hx)) ht
      · rfl
    unfold strip
    cases hs : space c with
    | true =>
      have hc := h c (List.mem_cons_self ..) hs
      subst hc
      rw [if_pos rfl]
      cases t with
      | nil => exact absurd rfl hl
      | cons d t =>
        dsimp only
        rw [hrec, List.filter_cons_of_neg (a := 32) (by simp)]
    | false =>
      have hc : c ≠ 32 := by rintro rfl; exact absurd hs (by decide)
      rw [if_neg (by simp), hrec, List.filter_cons_of_pos (by simpa using hc)]
      rfl

theorem format_filter (s : Bytes) (h : ∀ c ∈ s, space c = true → c = 32) (hl : s.getLast? ≠ some 32) : format s = some (s.filter (· ≠ 32)) := by
  unfold format
  split
  · exact strip_filter s h hl
  · rename_i hn
    rw [List.filter_eq_self.2]
    intro a ha
    simp only [ne_eq, decide_not, Bool.not_eq_eq_eq_not, Bool.not_true, decide_eq_false_iff_not]
    rintro rfl
    exact hn ha

theorem mem_sysType {f : List (Bytes × Bytes)} (hf : ∀ x ∈ f, EOk x) : ∀ c ∈ sysType f, space c = false := by
  have ent : ∀ l : List (Bytes × Bytes), (∀ x ∈ l, EOk x) → ∀ c ∈ entries l, space c = false := by
    intro l
    induction l with
    | nil => intro _ c hc; simp [entries] at hc
    | cons e r ih =>
      intro h c hc
      have he := h e (List.mem_cons_self ..)
      have h1 := he.1.2.2.2.2
      have h2 := (type_plain e.2 he.2).2.2.2.2.1
      cases r with
      | nil =>
        simp only [entries, List.mem_append, List.mem_cons] at hc
        rcases hc with hc | rfl | hc
        · exact h1 c hc
        · rfl
        · exact h2 c hc
      | cons g r =>
        rw [entries] at hc
        have hc : c ∈ e.1 ∨ c = 58 ∨ c ∈ e.2 ∨ c = 44 ∨ c ∈ entries (g :: r) := by
          simpa only [List.mem_append, List.mem_cons, or_assoc] using hc
        rcases hc with hc | rfl | hc | rfl | hc
        · exact h1 c hc
        · rfl
        · exact h2 c hc
        · rfl
        · exact ih (fun x hx => h x (List.mem_cons_of_mem _ hx)) c hc
  intro c hc
  simp only [sysType, List.mem_cons, List.mem_append, List.not_mem_nil, or_false] at hc
  rcases hc with rfl | hc | rfl
  · rfl
  · exact ent f hf c hc
  · rfl

/-- `s` is the format of `f`, with spaces but not at its end. -/
def Writes (s : Bytes) (f : List (Bytes × Bytes)) : Prop := s.filter (· ≠ 32) = sysType f ∧ s.getLast? ≠ some 32

theorem format_writes {s f} (hf : ∀ x ∈ f, EOk x) (h : Writes s f) : format s = some (sysType f) := by
  rw [← h.1]
  refine format_filter s (fun c hc hs => ?_) h.2
  by_cases e : c = 32
  · exact e
  · have : c ∈ sysType f := by rw [← h.1]; exact List.mem_filter.2 ⟨hc, by simpa using e⟩
    rw [mem_sysType hf c this] at hs
    exact absurd hs (by simp)

/-! ## Part of a format -/

theorem find_skip (w : Bytes) : ∀ (a t : Bytes), 44 ∉ a → find (44 :: w) (a ++ t) = find (44 :: w) t
  | [], _, _ => rfl
  | c :: a, t, h => by
    have hc : 44 ≠ c := fun e => h (e ▸ List.mem_cons_self ..)
    rw [List.cons_append, find, if_neg, find_skip w a t (fun m => h (List.mem_cons_of_mem _ m))]
    simp [List.isPrefixOf, hc]

/-- The entry is found where it first stands. -/
theorem find_tails {e : Bytes × Bytes} (he : EOk e) : ∀ l : List (Bytes × Bytes), (∀ x ∈ l, EOk x) →
    (e ∉ l ∧ find (44 :: entry e) (tails l) = none) ∨
      ∃ a b, l = a ++ e :: b ∧ e ∉ a ∧ find (44 :: entry e) (tails l) = some (tails (e :: b))
  | [], _ => by
    left
    refine ⟨by simp, ?_⟩
    rw [tails_nil, find, if_neg (by simp [List.isPrefixOf]), find, if_neg (by simp)]
  | f :: l, h => by
    have hf := h f (List.mem_cons_self ..)
    rw [tails_cons, find]
    have hp : (44 :: entry e).isPrefixOf (44 :: (entry f ++ tails l)) = decide (e = f) := by
      rw [List.isPrefixOf, entry_isPrefix he hf]; simp
    rw [hp]
    by_cases hef : e = f
    · right
      subst hef
      rw [if_pos (by simp)]
      exact ⟨[], l, rfl, by simp, by rw [tails_cons]⟩
    · rw [if_neg (by simpa using hef), find_skip _ _ _ (entry_comma hf)]
      rcases find_tails he l (fun x hx => h x (List.mem_cons_of_mem _ hx)) with ⟨h1, h2⟩ | ⟨a, b, h1, h2, h3⟩
      · exact Or.inl ⟨by simp [hef, h1], h2⟩
      · exact Or.inr ⟨f :: a, b, by rw [h1]; rfl, by simp [hef, h2], h3⟩

theorem sublist_skip {e : Bytes × Bytes} {r a b : List (Bytes × Bytes)} (ha : e ∉ a) (h : (e :: r).Sublist (a ++ e :: b)) : r.Sublist b := by
  induction a with
  | nil => exact List.Sublist.of_cons_cons h
  | cons x a ih =>
    have hx : e ≠ x := fun he => ha (he ▸ List.mem_cons_self ..)
    cases h with
    | cons _ h => exact ih (fun m => ha (List.mem_cons_of_mem _ m)) h
    | cons_cons => exact absurd rfl hx

theorem seek_tails {p : Bytes} {e : Bytes × Bytes} (hw : word p = 44 :: entry e) (l) : seek (tails l) p = find (44 :: entry e) (tails l) := by
  obtain ⟨c, t, ht, hc⟩ := tails_head l
  unfold seek
  rw [if_neg, hw]
  rintro ⟨h, _⟩
  rw [ht] at h
  have : c = 123 := by simpa using h
  rcases hc with rfl | rfl <;> exact absurd this (by decide)

theorem seekAll_tails : ∀ (r : List (Bytes × Bytes)) (ps : List Bytes) (l : List (Bytes × Bytes)),
    ps.map word = r.map (fun x => 44 :: entry x) → (∀ x ∈ r, EOk x) → (∀ x ∈ l, EOk x) → r.Nodup →
    (seekAll (tails l) ps = true ↔ r.Sublist l)
  | [], ps, l, hm, _, _, _ => by
    have : ps = [] := by simpa using hm
    subst this
    simp [seekAll]
  | e :: r, ps, l, hm, hr, hl, hn => by
    cases ps with
    | nil => simp at hm
    | cons p ps =>
      obtain ⟨h1, h2⟩ := List.cons.inj hm
      have he := hr e (List.mem_cons_self ..)
      obtain ⟨hn1, hn2⟩ := List.nodup_cons.1 hn
      rw [seekAll, seek_tails h1]
      rcases find_tails he l hl with ⟨h3, h4⟩ | ⟨a, b, h3, h4, h5⟩
      · rw [h4]
        constructor
        · intro h; exact absurd h (by simp)
        · intro h; exact absurd (h.subset (List.mem_cons_self ..)) h3
      · rw [h5]
        show seekAll (tails (e :: b)) ps = true ↔ _
        have hb : ∀ x ∈ e :: b, EOk x := fun x hx => hl x (by rw [h3]; exact List.mem_append_right _ hx)
        rw [seekAll_tails r ps (e :: b) h2 (fun x hx => hr x (List.mem_cons_of_mem _ hx)) hb hn2, h3]
        constructor
        · intro h
          have : r.Sublist b := by
            cases h with
            | cons _ h => exact h
            | cons_cons => exact absurd (List.mem_cons_self ..) hn1
          exact List.Sublist.trans (List.Sublist.cons_cons e this) (List.sublist_append_right a (e :: b))
        · intro h
          exact List.Sublist.cons e (sublist_skip h4 h)

theorem seekAll_sysType {o f : List (Bytes × Bytes)} (ho : ∀ x ∈ o, EOk x) (hf : ∀ x ∈ f, EOk x) (hn : o.Nodup) :
    seekAll (sysType f) (parts (sysType o).tail) = true ↔ o.Sublist f := by
  cases o with
  | nil =>
    have hp : parts (sysType []).tail = [[125]] := by decide +kernel
    rw [hp, seekAll]
    have hs : seek (sysType f) [125] = some ((sysType f).drop 1) := by
      unfold seek
      rw [if_pos]
      · rfl
      · exact ⟨rfl, rfl⟩
    rw [hs]
    simp [seekAll]
  | cons d k =>
    have hd := ho d (List.mem_cons_self ..)
    have hw := words d k ho
    rw [sysType_cons d k, List.tail_cons]
    cases hp : parts (entry d ++ tails k) with
    | nil => rw [hp] at hw; simp at hw
    | cons p ps =>
      rw [hp] at hw
      obtain ⟨h1, h2⟩ := List.cons.inj hw
      obtain ⟨hn1, hn2⟩ := List.nodup_cons.1 hn
      have hk : ∀ x ∈ k, EOk x := fun x hx => ho x (List.mem_cons_of_mem _ hx)
      have h1' : word p = 44 :: entry d := h1
      have h2' : ps.map word = k.map (fun x => 44 :: entry x) := h2
      cases f with
      | nil =>
        rw [seekAll]
        have hs : seek (sysType []) p = none := by
          unfold seek
          rw [h1', sysType_nil, if_neg]
          · rw [find, if_neg (by simp [List.isPrefixOf]), find, if_neg (by simp [List.isPrefixOf]), find, if_neg (by simp)]
          · rintro ⟨_, h⟩
            obtain ⟨x, hx⟩ := List.isPrefixOf_iff_prefix.1 h
            have hl := congrArg List.length hx
            have : (type_plain d.2 hd.2).2.2.2.2.2 = (type_plain d.2 hd.2).2.2.2.2.2 := rfl
            have h0 : 0 < d.2.length := List.length_pos_iff.2 (type_plain d.2 hd.2).2.2.2.2.2
            simp [entry] at hl
            omega
        rw [hs]
        simp
      | cons e l =>
        have he := hf e (List.mem_cons_self ..)
        have hl : ∀ x ∈ l, EOk x := fun x hx => hf x (List.mem_cons_of_mem _ hx)
        rw [seekAll, sysType_cons]
        have hpre : ((44 :: entry d).tail.isPrefixOf (123 :: (entry e ++ tails l)).tail) = decide (d = e) := by
          rw [List.tail_cons, List.tail_cons, entry_isPrefix hd he]
        by_cases hde : d = e
        · subst hde
          have hs : seek (123 :: (entry d ++ tails l)) p = some (tails l) := by
            unfold seek
            rw [h1', if_pos ⟨rfl, by rw [hpre]; simp⟩]
            simp
          rw [hs]
          show seekAll (tails l) ps = true ↔ _
          rw [seekAll_tails k ps l h2' hk hl hn2]
          exact ⟨fun h => List.Sublist.cons_cons d h, fun h => List.Sublist.of_cons_cons h⟩
        · have hs : seek (123 :: (entry e ++ tails l)) p = find (44 :: entry d) (tails l) := by
            unfold seek
            rw [h1', if_neg (by rw [hpre]; simp [hde])]
            have : 44 ∉ 123 :: entry e := by simp [entry_comma he]
            exact find_skip (entry d) (123 :: entry e) (tails l) this
          have := seekAll_tails (d :: k) (p :: ps) l (by rw [List.map_cons, h1', h2']; rfl) ho hl hn
          rw [seekAll, seek_tails h1'] at this
          rw [hs, this]
          constructor
          · intro h; exact List.Sublist.cons e h
          · intro h
            cases h with
            | cons _ h => exact h
            | cons_cons => exact absurd rfl hde

theorem ok_nodup {o} (h : Ok o) : o.Nodup := by
  have := h.2
  exact List.Nodup.of_map _ this

/-- **C201 (part).** matchObj(o) is the same for two objects only if they have the same keys with values of the same types. -/
theorem C201_type_partial {o f : List (Bytes × Bytes)} (ho : Ok o) (hf : Ok f) : typeOf o = typeOf f ↔ o = f :=
  ⟨fun h => sysType_inj ho.1 hf.1 h, fun h => h ▸ rfl⟩

/-- **C201 (part).** matchObj(o, s): true if o has exactly the keys and types of the format s, else false, or an error if asserts are on. -/
theorem C201_exact_partial (assert junk : Bool) {o f : List (Bytes × Bytes)} {s : Bytes} (ho : Ok o) (hf : Ok f) (hs : Writes s f) :
    (o = f → matchObj assert junk o s none none = .ok true) ∧
      (o ≠ f → matchObj false junk o s none none = .ok false ∧
        ∀ n, matchObj assert junk o s (some false) (some n) = if assert && !n then .error else .ok false) := by
  have hfm := format_writes hf.1 hs
  constructor
  · rintro rfl
    show compare assert false junk o s = _
    unfold compare
    rw [hfm]
    dsimp only
    rw [if_pos rfl]
  · intro h
    have hne : sysType o ≠ sysType f := fun e => h (sysType_inj ho.1 hf.1 e)
    constructor
    · show compare false false junk o s = _
      unfold compare
      rw [hfm]
      dsimp only
      rw [if_neg hne, if_neg (by simp)]
      rfl
    · intro n
      show compare assert false n o s = _
      unfold compare
      rw [hfm]
      dsimp only
      rw [if_neg hne, if_neg (by simp)]
      rfl

/-- **C201 (part).** matchObj(o, s, true, n): true if the keys and types of o stand in the format s, in this order, else false or an error. -/
theorem C201_part_partial (assert junk n : Bool) {o f : List (Bytes × Bytes)} {s : Bytes} (ho : Ok o) (hf : Ok f) (hs : Writes s f) :
    (o.Sublist f → matchObj assert junk o s (some true) (some n) = .ok true) ∧
      (¬ o.Sublist f → matchObj assert junk o s (some true) (some n) = if assert && !n then .error else .ok false) := by
  have hfm := format_writes hf.1 hs
  have hse := seekAll_sysType ho.1 hf.1 (ok_nodup ho)
  have hne : sysType f ≠ [] := by simp [sysType]
  have hc : matchObj assert junk o s (some true) (some n) =
      if sysType o = sysType f then .ok true
      else if seekAll (sysType f) (parts (sysType o).tail) then .ok true else mismatch assert n := by
    show compare assert true n o s = _
    unfold compare
    rw [hfm]
    dsimp only
    simp [hne]
  rw [hc]
  constructor
  · intro h
    split
    · rfl
    · rw [if_pos (hse.2 h)]
  · intro h
    have h1 : sysType o ≠ sysType f := fun e => h (sysType_inj ho.1 hf.1 e ▸ List.Sublist.refl _)
    rw [if_neg h1, if_neg (fun e => h (hse.1 e))]
    rfl

/-! ## Where it is not so -/

def oA : List (Bytes × Bytes) := [(asc "a", asc "number"), (asc "b", asc "string")]
def fA : List (Bytes × Bytes) := [(asc "a", asc "number"), (asc "ab", asc "object"), (asc "b", asc "string")]

/-- The hypotheses are met. -/
example : Ok oA ∧ Ok fA ∧ Writes (asc "{ a:number, ab:object, b:string }") fA ∧ oA.Sublist fA ∧ oA ≠ fA := by
  refine ⟨⟨?_, by decide +kernel⟩, ⟨?_, by decide +kernel⟩, ⟨by decide +kernel, by decide +kernel⟩, by decide +kernel, by decide +kernel⟩ <;>
    (unfold Plain; decide +kernel)

/-- **C201 refuted.** With `partial` alone there is an error. -/
theorem C201_three_refuted (assert junk p : Bool) (o : List (Bytes × Bytes)) (s : Bytes) : matchObj assert junk o s (some p) none = .error := rfl

/-- **C201 refuted.** A space at the end of the format: behind the text is read. -/
theorem C201_space_refuted : matchObj false false oA (asc "{a:number,b:string} ") none none = .wild := by decide +kernel

/-- **C201 refuted.** With `partial`, a type may begin with that of the object. -/
theorem C201_prefix_refuted : matchObj true true oA (asc "{a:number,b:stringified}") (some true) (some false) = .ok true := by decide +kernel

/-- **C201 refuted.** A key with signs of the format. -/
theorem C201_key_refuted : matchObj true true [(asc "a:number,b", asc "string")] (asc "{a:number,b:string}") none none = .ok true := by
  decide +kernel

/-- **C201 refuted.** If asserts are on, what a call without `noerror` does is not determined. -/
theorem C201_junk_refuted : matchObj true true oA (asc "{}") none none = .ok false ∧ matchObj true false oA (asc "{}") none none = .error := by
  decide +kernel

end Verif.Match
