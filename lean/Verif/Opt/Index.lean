import Verif.Basic

/-!
Model of `Jsi_GetIndex` (src/jsiUtils.c:2081-2165), which looks a word up in a table of names (enumerations,
bit sets, subcommands), and C61.  Strings are lists of bytes without NUL; `tolower` is that of the C locale.
-/

namespace Verif.Opt

/-- A C string. -/
abbrev Str := List UInt8

/-- `tolower`. -/
def tolower (c : UInt8) : UInt8 := if 65 ≤ c ∧ c ≤ 90 then c + 32 else c

/-- `tolower(s[0])`. -/
def low0 (s : Str) : UInt8 := tolower (s.headD 0)

/-- src/jsiUtils.c:2100-2104: `cond == 0`. -/
def same (exact nocase : Bool) (c str : Str) : Bool :=
  if nocase then
    if exact then decide (c.map tolower = str.map tolower) else (str.map tolower).isPrefixOf (c.map tolower)
  else if exact then decide (c = str) else str.isPrefixOf c

/-- The loop of src/jsiUtils.c:2095-2114 from entry `i` on; `index` is the entry found so far.  The result is
`index` and `dup`. -/
def loop1 (exact nocase : Bool) (str : Str) : Nat → Option Nat → List Str → Option Nat × Bool
  | _, index, [] => (index, false)
  | i, index, c :: l =>
    if low0 c ≠ low0 str then loop1 exact nocase str (i + 1) index l
    else if same exact nocase c str then
      match index with
      | none => loop1 exact nocase str (i + 1) (some i) l
      | some _ => (index, true)
    else loop1 exact nocase str (i + 1) index l

/-- What the function answers: an index, or the first word of the message. -/
inductive Answer where
  | ok (i : Nat)
  | unknown
  | duplicate
  | ambiguous
deriving DecidableEq

/-- The loop of src/jsiUtils.c:2129-2145. -/
def loop2 (str : Str) : Nat → Option Nat → List Str → Answer
  | _, none, [] => .unknown
  | _, some j, [] => .ok j
  | i, index, c :: l =>
    if c.headD 0 = str.headD 0 ∧ str.isPrefixOf c then
      match index with
      | none => if str.length = c.length then .ok i else loop2 str (i + 1) (some i) l
      | some _ => .ambiguous
    else loop2 str (i + 1) index l

/-- src/jsiUtils.c:2081-2165  `Jsi_GetIndex`. -/
def getIndex (exact nocase : Bool) (str : Str) (table : List Str) : Answer :=
  match loop1 exact nocase str 0 none table with
  | (some i, false) => .ok i
  | (index, _) => if exact then (if index.isSome then .unknown else .duplicate) else loop2 str 0 none table

/-! ### C61 -/

/-- The character in lower case. -/
def lowerOf (c : UInt8) : UInt8 := (Char.ofNat c.toNat).toLower.toNat.toUInt8

theorem lowerOf_eq : lowerOf = tolower := by
  have h : ∀ c : Fin 256, lowerOf (UInt8.ofNat c.val) = tolower (UInt8.ofNat c.val) := by decide +kernel
  funext c
  have := h ⟨c.toNat, c.toNat_lt⟩
  simpa using this

/-- The word stands for the name, in the given mode: it is the name, or its beginning; without case if so
asked. -/
def Means (exact nocase : Bool) (str c : Str) : Prop :=
  let s := if nocase then str.map lowerOf else str
  let n := if nocase then c.map lowerOf else c
  if exact then n = s else s <+: n

/-- The word begins like the name, both ignoring case. -/
theorem low0_of_prefix {str c : Str} (hs : str ≠ []) (h : str.map tolower <+: c.map tolower) : low0 c = low0 str := by
  obtain ⟨a, s, rfl⟩ := List.exists_cons_of_ne_nil hs
  cases c with
  | nil => obtain ⟨t, ht⟩ := h; cases ht
  | cons b c =>
    rw [List.map_cons, List.map_cons, List.cons_prefix_cons] at h
    simp [low0, h.1]

theorem Means.low {exact nocase : Bool} {str c : Str} (hs : str ≠ []) (h : Means exact nocase str c) : low0 c = low0 str := by
  apply low0_of_prefix hs
  unfold Means at h
  rw [lowerOf_eq] at h
  cases exact <;> cases nocase <;> simp only [if_true, if_false, Bool.false_eq_true] at h
  · obtain ⟨t, rfl⟩ := h
    rw [List.map_append]; exact List.prefix_append _ _
  · exact h
  · rw [h]; exact List.prefix_refl _
  · rw [h]; exact List.prefix_refl _

theorem same_iff (exact nocase : Bool) (c str : Str) : same exact nocase c str = true ↔ Means exact nocase str c := by
  unfold same Means
  rw [lowerOf_eq]
  cases exact <;> cases nocase <;> simp

/-- The two tests of the first loop. -/
theorem hit_iff (exact nocase : Bool) (c str : Str) (hs : str ≠ []) :
    (low0 c = low0 str ∧ same exact nocase c str = true) ↔ Means exact nocase str c := by
  rw [same_iff]
  exact ⟨fun h => h.2, fun h => ⟨h.low hs, h⟩⟩

theorem loop1_hit {exact nocase : Bool} {str c : Str} (hs : str ≠ []) (h : Means exact nocase str c) (i : Nat)
    (index : Option Nat) (l : List Str) : loop1 exact nocase str i index (c :: l) =
      match index with
      | none => loop1 exact nocase str (i + 1) (some i) l
      | some _ => (index, true) := by
  rw [loop1.eq_def]
  simp only []
  rw [if_neg (by simpa using h.low hs), if_pos ((same_iff _ _ _ _).2 h)]

theorem loop1_miss {exact nocase : Bool} {str c : Str} (h : ¬ Means exact nocase str c) (i : Nat)
    (index : Option Nat) (l : List Str) : loop1 exact nocase str i index (c :: l) = loop1 exact nocase str (i + 1) index l := by
  rw [loop1.eq_def]
  simp only []
  split
  · rfl
  · rw [if_neg (fun h2 => h ((same_iff _ _ _ _).1 h2))]

theorem loop1_none {exact nocase : Bool} {str : Str} : ∀ (l : List Str) (i : Nat) (index : Option Nat),
    (∀ c ∈ l, ¬ Means exact nocase str c) → loop1 exact nocase str i index l = (index, false)
  | [], _, _, _ => rfl
  | c :: l, i, index, h => by
    rw [loop1_miss (h c (by simp))]
    exact loop1_none l _ _ (fun d hd => h d (List.mem_cons_of_mem _ hd))

theorem loop1_some {exact nocase : Bool} {str : Str} (hs : str ≠ []) : ∀ (l : List Str) (i j : Nat),
    (∃ c ∈ l, Means exact nocase str c) → loop1 exact nocase str i (some j) l = (some j, true)
  | [], _, _, h => by obtain ⟨c, hc, -⟩ := h; cases hc
  | c :: l, i, j, h => by
    by_cases hc : Means exact nocase str c
    · rw [loop1_hit hs hc]
    · rw [loop1_miss hc]
      refine loop1_some hs l _ _ ?_
      obtain ⟨d, hd, hm⟩ := h
      rcases List.mem_cons.1 hd with rfl | hd
      · exact absurd hm hc
      · exact ⟨d, hd, hm⟩

/-- The table has one entry the word stands for: entry `i`. -/
def Only (exact nocase : Bool) (str : Str) (table : List Str) (i : Nat) : Prop :=
  (∃ c, table[i]? = some c ∧ Means exact nocase str c) ∧
  ∀ (j : Nat) (c : Str), table[j]? = some c → Means exact nocase str c → j = i

theorem split_at {table : List Str} {i : Nat} {c : Str} (h : table[i]? = some c) :
    table = table.take i ++ c :: table.drop (i + 1) ∧ (table.take i).length = i := by
  obtain ⟨hi, rfl⟩ := List.getElem?_eq_some_iff.1 h
  refine ⟨?_, by simp; omega⟩
  rw [← List.drop_eq_getElem_cons hi, List.take_append_drop]

theorem loop1_skip {exact nocase : Bool} {str : Str} : ∀ (a l : List Str) (i : Nat) (index : Option Nat),
    (∀ c ∈ a, ¬ Means exact nocase str c) →
    loop1 exact nocase str i index (a ++ l) = loop1 exact nocase str (i + a.length) index l
  | [], _, _, _, _ => rfl
  | c :: a, l, i, index, h => by
    rw [List.cons_append, loop1_miss (h c (by simp)), loop1_skip a l _ _ (fun d hd => h d (List.mem_cons_of_mem _ hd)),
      List.length_cons]
    congr 1; omega

theorem only_loop1 {exact nocase : Bool} {str : Str} (hs : str ≠ []) {table : List Str} {i : Nat}
    (h : Only exact nocase str table i) : loop1 exact nocase str 0 none table = (some i, false) := by
  obtain ⟨⟨c, hc, hm⟩, hu⟩ := h
  obtain ⟨he, hl⟩ := split_at hc
  have h1 : ∀ d ∈ table.take i, ¬ Means exact nocase str d := by
    intro d hd hmd
    obtain ⟨j, hj⟩ := List.mem_iff_getElem?.1 hd
    rw [List.getElem?_take] at hj
    split at hj
    · rename_i hji
      have := hu j d hj hmd
      omega
    · cases hj
  have h2 : ∀ d ∈ table.drop (i + 1), ¬ Means exact nocase str d := by
    intro d hd hmd
    obtain ⟨j, hj⟩ := List.mem_iff_getElem?.1 hd
    rw [List.getElem?_drop] at hj
    have := hu _ d hj hmd
    omega
  rw [he, loop1_skip _ _ _ _ h1, hl, loop1_hit hs hm]
  simp only []
  rw [loop1_none _ _ _ h2]; simp

/-- **C61**: a word that stands for exactly one name is accepted and gives that name, in all four modes. -/
theorem C61_unique (exact nocase : Bool) (str : Str) (hs : str ≠ []) (table : List Str) (i : Nat)
    (h : Only exact nocase str table i) : getIndex exact nocase str table = .ok i := by
  unfold getIndex
  rw [only_loop1 hs h]

theorem loop1_spec {exact nocase : Bool} {str : Str} (hs : str ≠ []) (table : List Str) :
    (loop1 exact nocase str 0 none table = (none, false) ∧ ∀ c ∈ table, ¬ Means exact nocase str c) ∨
    (∃ i, loop1 exact nocase str 0 none table = (some i, false) ∧ Only exact nocase str table i) ∨
    ∃ i, loop1 exact nocase str 0 none table = (some i, true) ∧
      ∃ (j k : Nat) (c d : Str), j ≠ k ∧ table[j]? = some c ∧ table[k]? = some d ∧ Means exact nocase str c ∧ Means exact nocase str d := by
  by_cases h : ∃ c ∈ table, Means exact nocase str c
  · have : ∃ a c b, table = a ++ c :: b ∧ Means exact nocase str c ∧ ∀ d ∈ a, ¬ Means exact nocase str d := by
      clear hs
      induction table with
      | nil => obtain ⟨c, hc, -⟩ := h; cases hc
      | cons x l ih =>
        by_cases hx : Means exact nocase str x
        · exact ⟨[], x, l, rfl, hx, by simp⟩
        · obtain ⟨a, c, b, h1, h2, h3⟩ := ih (by
            obtain ⟨c, hc, hm⟩ := h
            rcases List.mem_cons.1 hc with rfl | hc
            · exact absurd hm hx
            · exact ⟨c, hc, hm⟩)
          refine ⟨x :: a, c, b, by rw [h1]; rfl, h2, ?_⟩
          intro d hd
          rcases List.mem_cons.1 hd with rfl | hd
          · exact hx
          · exact h3 d hd
    obtain ⟨a, c, b, rfl, hm, ha⟩ := this
    right
    have hstep : loop1 exact nocase str 0 none (a ++ c :: b) = loop1 exact nocase str (a.length + 1) (some a.length) b := by
      rw [loop1_skip _ _ _ _ ha, loop1_hit hs hm]; simp
    by_cases hb : ∃ d ∈ b, Means exact nocase str d
    · right
      refine ⟨a.length, by rw [hstep, loop1_some hs b _ _ hb], ?_⟩
      obtain ⟨d, hd, hmd⟩ := hb
      obtain ⟨k, hk⟩ := List.mem_iff_getElem?.1 hd
      refine ⟨a.length, a.length + 1 + k, c, d, by omega, by simp, ?_, hm, hmd⟩
      rw [List.getElem?_append_right (by omega)]
      have : a.length + 1 + k - a.length = k + 1 := by omega
      rw [this, List.getElem?_cons_succ]; exact hk
    · left
      refine ⟨a.length, by rw [hstep, loop1_none b _ _ (fun d hd hmd => hb ⟨d, hd, hmd⟩)], ⟨c, by simp, hm⟩, ?_⟩
      intro j d hj hmd
      by_cases h1 : j < a.length
      · rw [List.getElem?_append_left h1] at hj
        exact absurd hmd (ha d (List.mem_of_getElem? hj))
      · rw [List.getElem?_append_right (by omega)] at hj
        cases hk : j - a.length with
        | zero => omega
        | succ k =>
          rw [hk, List.getElem?_cons_succ] at hj
          exact absurd ⟨d, List.mem_of_getElem? hj, hmd⟩ hb
  · exact Or.inl ⟨loop1_none _ _ _ (fun c hc hm => h ⟨c, hc, hm⟩), fun c hc hm => h ⟨c, hc, hm⟩⟩

/-- **C61, exact mode**: a word is accepted only if it is the name of exactly one entry (with or without
case). -/
theorem C61_exact (nocase : Bool) (str : Str) (hs : str ≠ []) (table : List Str) (i : Nat) :
    getIndex true nocase str table = .ok i ↔ Only true nocase str table i := by
  refine ⟨?_, C61_unique true nocase str hs table i⟩
  unfold getIndex
  rcases loop1_spec (exact := true) (nocase := nocase) hs table with ⟨h, -⟩ | ⟨j, h, ho⟩ | ⟨j, h, -⟩
  · rw [h]; simp
  · rw [h]; simp only [Answer.ok.injEq]; rintro rfl; exact ho
  · rw [h]; simp

/-- **C61 refuted**: in exact mode the message for a name that is not in the table says "duplicate", that for
a name that is there twice says "unknown", for all tables. -/
theorem C61_message_refuted (nocase : Bool) (str : Str) (hs : str ≠ []) (table : List Str) :
    ((∀ c ∈ table, ¬ Means true nocase str c) → getIndex true nocase str table = .duplicate) ∧
    ((∃ (j k : Nat) (c d : Str), j ≠ k ∧ table[j]? = some c ∧ table[k]? = some d ∧ Means true nocase str c ∧ Means true nocase str d) →
      getIndex true nocase str table = .unknown) := by
  constructor
  · intro h
    unfold getIndex
    rw [loop1_none _ _ _ h]; rfl
  · rintro ⟨j, k, c, d, hne, hj, hk, hmc, hmd⟩
    unfold getIndex
    rcases loop1_spec (exact := true) (nocase := nocase) hs table with ⟨h, hn⟩ | ⟨i, h, ho⟩ | ⟨i, h, -⟩
    · exact absurd hmc (hn c (List.mem_of_getElem? hj))
    · have := ho.2 j c hj hmc
      have := ho.2 k d hk hmd
      omega
    · rw [h]; rfl

theorem loop2_sound (str : Str) : ∀ (l : List Str) (i : Nat) (index : Option Nat) (r : Nat),
    loop2 str i index l = .ok r → index = some r ∨ ∃ c, l[r - i]? = some c ∧ i ≤ r ∧ str <+: c
  | [], i, none, r, h => by cases h
  | [], i, some j, r, h => by left; simp [loop2] at h; rw [h]
  | c :: l, i, index, r, h => by
    rw [loop2.eq_def] at h
    simp only [] at h
    split at h
    · rename_i hc
      cases index with
      | none =>
        simp only [] at h
        split at h
        · cases h
          exact Or.inr ⟨c, by simp, by omega, List.isPrefixOf_iff_prefix.1 hc.2⟩
        · rcases loop2_sound str l (i + 1) (some i) r h with h1 | ⟨d, h1, h2, h3⟩
          · cases h1
            exact Or.inr ⟨c, by simp, by omega, List.isPrefixOf_iff_prefix.1 hc.2⟩
          · refine Or.inr ⟨d, ?_, by omega, h3⟩
            have : r - i = (r - (i + 1)) + 1 := by omega
            rw [this, List.getElem?_cons_succ]; exact h1
      | some j => cases h
    · rcases loop2_sound str l (i + 1) index r h with h1 | ⟨d, h1, h2, h3⟩
      · exact Or.inl h1
      · refine Or.inr ⟨d, ?_, by omega, h3⟩
        have : r - i = (r - (i + 1)) + 1 := by omega
        rw [this, List.getElem?_cons_succ]; exact h1

/-- **C61, soundness**: the entry that is given always has the word as its beginning (or is the word, in exact
mode). -/
theorem C61_sound (exact nocase : Bool) (str : Str) (hs : str ≠ []) (table : List Str) (i : Nat)
    (h : getIndex exact nocase str table = .ok i) : ∃ c, table[i]? = some c ∧ Means exact nocase str c := by
  cases exact with
  | true => exact ((C61_exact nocase str hs table i).1 h).1
  | false =>
    have h2 : loop2 str 0 none table = .ok i → ∃ c, table[i]? = some c ∧ Means false nocase str c := by
      intro h
      rcases loop2_sound str table 0 none i h with h1 | ⟨c, h1, -, h3⟩
      · cases h1
      · refine ⟨c, by simpa using h1, ?_⟩
        unfold Means
        cases nocase
        · simpa using h3
        · obtain ⟨t, rfl⟩ := h3
          simp
    unfold getIndex at h
    rcases loop1_spec (exact := false) (nocase := nocase) hs table with ⟨h1, -⟩ | ⟨j, h1, ho⟩ | ⟨j, h1, -⟩
    · rw [h1] at h; simp only [] at h; exact h2 (by simpa using h)
    · rw [h1] at h; simp only [Answer.ok.injEq] at h; subst h; exact ho.1
    · rw [h1] at h; simp only [] at h; exact h2 (by simpa using h)

theorem loop2_miss (str c : Str) (h : ¬ str <+: c) (i : Nat) (index : Option Nat) (l : List Str) :
    loop2 str i index (c :: l) = loop2 str (i + 1) index l := by
  cases index <;> rw [loop2, if_neg (fun hc => h (List.isPrefixOf_iff_prefix.1 hc.2))]

theorem headD_prefix {str c : Str} (hs : str ≠ []) (h : str <+: c) : c.headD 0 = str.headD 0 := by
  obtain ⟨t, rfl⟩ := h
  cases str with
  | nil => exact absurd rfl hs
  | cons a s => rfl

theorem loop2_skip (str : Str) : ∀ (a l : List Str) (i : Nat) (index : Option Nat), (∀ c ∈ a, ¬ str <+: c) →
    loop2 str i index (a ++ l) = loop2 str (i + a.length) index l
  | [], _, _, _, _ => rfl
  | c :: a, l, i, index, h => by
    rw [List.cons_append, loop2_miss _ _ (h c (by simp)), loop2_skip str a l _ _ (fun d hd => h d (List.mem_cons_of_mem _ hd)),
      List.length_cons]
    congr 1; omega

/-- **C61, abbreviating mode**: the full name of an entry is accepted and gives that entry, if no entry before
it begins with it. -/
theorem C61_full_name_partial (str : Str) (hs : str ≠ []) (a b : List Str) (ha : ∀ c ∈ a, ¬ str <+: c) :
    getIndex false false str (a ++ str :: b) = .ok a.length := by
  have hm : Means false false str str := by simp [Means]
  have hget : (a ++ str :: b)[a.length]? = some str := by simp
  unfold getIndex
  rcases loop1_spec (exact := false) (nocase := false) hs (a ++ str :: b) with ⟨-, h⟩ | ⟨j, h, ho⟩ | ⟨j, h, -⟩
  · exact absurd hm (h str (by simp))
  · rw [h]; simp only []
    rw [ho.2 _ _ hget hm]
  · rw [h]
    simp only [Bool.false_eq_true, if_false]
    rw [loop2_skip str a _ _ _ ha, loop2, if_pos ⟨rfl, by simp⟩]
    simp

/-- **C61 refuted**: in abbreviating mode the full name of an entry is rejected as ambiguous when an entry
before it is longer and begins with it, for all such tables. -/
theorem C61_full_name_refuted (str t : Str) (hs : str ≠ []) (ht : t ≠ []) (a b d : List Str)
    (ha : ∀ c ∈ a, ¬ str <+: c) (hb : ∀ c ∈ b, ¬ str <+: c) :
    getIndex false false str (a ++ (str ++ t) :: (b ++ str :: d)) = .ambiguous := by
  have hm1 : Means false false str (str ++ t) := by simp [Means]
  have hm2 : Means false false str str := by simp [Means]
  unfold getIndex
  have hdup : loop1 false false str 0 none (a ++ (str ++ t) :: (b ++ str :: d)) = (some a.length, true) := by
    have hn : ∀ c, ¬ str <+: c → ¬ Means false false str c := by intro c h; simpa [Means] using h
    rw [loop1_skip _ _ _ _ (fun c hc => hn c (ha c hc)), loop1_hit hs hm1]
    simp only []
    rw [loop1_some hs _ _ _ ⟨str, by simp, hm2⟩]; simp
  rw [hdup]
  simp only [Bool.false_eq_true, if_false]
  rw [loop2_skip str a _ _ _ ha, loop2, if_pos ⟨headD_prefix hs (List.prefix_append _ _), by simp⟩]
  rw [if_neg (by
    have := List.length_pos_iff.2 ht
    rw [List.length_append]; omega), loop2_skip str b _ _ _ hb, loop2, if_pos ⟨rfl, by simp⟩]

example : getIndex false false (asc "al") [asc "beta", asc "alpha"] = .ok 1 ∧
    getIndex false false (asc "on") [asc "one", asc "on"] = .ambiguous ∧
    getIndex false false (asc "on") [asc "on", asc "one"] = .ok 0 ∧
    getIndex false true (asc "ON") [asc "beta", asc "one"] = .ok 1 ∧
    getIndex true false (asc "on") [asc "beta", asc "one"] = .duplicate ∧
    getIndex false false (asc "x") [asc "beta", asc "one"] = .unknown := by decide +kernel

end Verif.Opt
