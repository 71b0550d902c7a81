import Verif.Json.Safe
import Verif.Json.Spec

/-!
What `JSON.check` does guarantee of any accepted text: its brackets match.  And what an object with a
repeated key means.
-/

namespace Verif.Json

/-! ### Specification -/

/-- What follows a string whose opening quote was just read. -/
def afterStr : List UInt8 → List UInt8
  | [] => []
  | [92] => []
  | c :: d :: t => if c = 34 then d :: t else if c = 92 then afterStr t else afterStr (d :: t)
  | [_] => []

theorem afterStr_le (t : List UInt8) : (afterStr t).length ≤ t.length := by
  induction t using afterStr.induct <;> simp_all [afterStr] <;> omega

/-- What ends a word: white space, a comma, a closing bracket; a colon too if not strict. -/
def wordEnd (strict : Bool) (c : UInt8) : Bool :=
  (asc " \t\r\n,]}").contains c || (!strict && c = 58)

/-- The brackets of a text in order, skipping strings and words.  (A word is a run of other
characters; the tokeniser lets it go on to the next separator or closing bracket.) -/
def outline (strict : Bool) (s : List UInt8) : List UInt8 :=
  match s with
  | [] => []
  | c :: t =>
    if c = 123 ∨ c = 125 ∨ c = 91 ∨ c = 93 then c :: outline strict t
    else if c = 34 then outline strict (afterStr t)
    else if (asc " \t\r\n,:").contains c then outline strict t
    else outline strict (t.dropWhile (fun c => !wordEnd strict c))
termination_by s.length
decreasing_by
  · simp
  · have := afterStr_le t; simp; omega
  · simp
  · have := (List.dropWhile_sublist (l := t) (fun c => !wordEnd strict c)).length_le; simp; omega

/-- Every bracket is closed by one of its kind; `st`: the closing brackets awaited. -/
def nested : List UInt8 → List UInt8 → Bool
  | st, [] => st.isEmpty
  | st, c :: t =>
    if c = 123 then nested (125 :: st) t
    else if c = 91 then nested (93 :: st) t
    else match st with
      | [] => false
      | k :: st => k == c && nested st t

/-- The members of an object text: the key and the value of each. -/
def Mems.pairs : Mems → List (List UInt8 × JVal)
  | .one _ k _ _ d _ => [(pval k, d.val)]
  | .cons _ k _ _ d _ t => (pval k, d.val) :: t.pairs

/-- `o[k]`. -/
def JObj.get (k : List UInt8) : JObj → Option JVal
  | .nil => none
  | .cons k' v t => if k' = k then some v else t.get k

/-! ### Proofs -/

theorem get_insert (k k' : List UInt8) (v : JVal) (o : JObj) :
    (o.insert k v).get k' = if k = k' then some v else o.get k' := by
  cases o with
  | nil => rfl
  | cons k1 v1 t =>
    have ih := get_insert k k' v t
    rw [JObj.insert]
    by_cases h : k1 = k
    · subst h
      rw [if_pos rfl]
      simp only [JObj.get]
      split <;> rfl
    · rw [if_neg h]
      simp only [JObj.get, ih]
      by_cases h1 : k1 = k'
      · rw [if_pos h1, if_pos h1, if_neg (by rw [← h1]; exact fun e => h e.symm)]
      · rw [if_neg h1, if_neg h1]

theorem get_val (m : Mems) (o : JObj) (k : List UInt8) :
    (m.val o).get k = match m.pairs.reverse.find? (fun p => p.1 = k) with
      | some p => some p.2
      | none => o.get k := by
  match m with
  | .one _ k' _ _ d _ =>
    rw [Mems.val, get_insert]
    by_cases h : pval k' = k <;> simp [Mems.pairs, h]
  | .cons _ k' _ _ d _ t =>
    rw [Mems.val, get_val t, Mems.pairs, List.reverse_cons, List.find?_append]
    cases List.find? (fun p => decide (p.1 = k)) t.pairs.reverse with
    | some p => rfl
    | none =>
      simp only [Option.none_or]
      rw [get_insert]
      by_cases h : pval k' = k <;> simp [h]

/-- **C50 (part).** In a text with a repeated key the last value counts. -/
theorem C50_last_value_counts (m : Mems) (k : List UInt8) :
    (m.val .nil).get k = (m.pairs.reverse.find? (fun p => p.1 = k)).map Prod.snd := by
  rw [get_val]
  cases List.find? (fun p => decide (p.1 = k)) m.pairs.reverse <;> rfl

theorem keys_insert (k : List UInt8) (v : JVal) (o : JObj) :
    (o.insert k v).keys = if k ∈ o.keys then o.keys else o.keys ++ [k] := by
  cases o with
  | nil => rfl
  | cons k1 v1 t =>
    have ih := keys_insert k v t
    rw [JObj.insert]
    by_cases h : k1 = k
    · subst h; simp [JObj.keys]
    · have h' : k ≠ k1 := fun e => h e.symm
      rw [if_neg h]
      simp only [JObj.keys, ih, List.mem_cons, h', false_or]
      split <;> simp

theorem val_nodup (m : Mems) (o : JObj) (ho : o.keys.Nodup) : (m.val o).keys.Nodup := by
  have key : ∀ k v, ((o.insert k v).keys).Nodup := by
    intro k v
    rw [keys_insert]
    split
    · exact ho
    · rename_i hk
      rw [List.nodup_append]
      exact ⟨ho, by simp, by simp; intro a ha e; exact hk (e ▸ ha)⟩
  match m with
  | .one _ k' _ _ d _ => exact key _ _
  | .cons _ k' _ _ d _ t => exact val_nodup t _ (key _ _)

/-- **C50 (part).** No key is listed twice. -/
theorem C50_keys_once (m : Mems) : (m.val .nil).keys.Nodup := val_nodup m .nil (by simp [JObj.keys])

/-! The open tokens. -/

/-- The kinds of the open tokens, outermost first. -/
def kinds : List Tok → List Typ
  | [] => []
  | t :: l => if t.stop = none then t.typ :: kinds l else kinds l

theorem kinds_append (a b : List Tok) : kinds (a ++ b) = kinds a ++ kinds b := by
  induction a with
  | nil => rfl
  | cons t a ih => simp only [List.cons_append, kinds, ih]; split <;> simp

theorem kinds_bump (i : Nat) (l : List Tok) : kinds (bump i l) = kinds l := by
  unfold bump
  induction l generalizing i with
  | nil => simp
  | cons t l ih =>
    cases i with
    | zero => simp [kinds]
    | succ i => simp only [List.modify_succ_cons, kinds, ih]

theorem lastOpen_kinds (l : List Tok) : (lastOpen l = none → kinds l = []) ∧
    ∀ i, lastOpen l = some i → ∃ t, l[i]? = some t ∧ ∀ pos, kinds l = kinds (setStop i pos l) ++ [t.typ] := by
  induction l with
  | nil => exact ⟨fun _ => rfl, fun i h => by cases h⟩
  | cons t l ih =>
    rw [lastOpen]
    cases h : lastOpen l with
    | some j =>
      refine ⟨fun hh => by simp at hh, fun i hi => ?_⟩
      simp only [Option.some.injEq] at hi
      subst hi
      obtain ⟨t', h1, h2⟩ := ih.2 j h
      refine ⟨t', by simpa using h1, fun pos => ?_⟩
      have := h2 pos
      simp only [setStop, List.modify_succ_cons, kinds] at this ⊢
      rw [this]
      split <;> simp
    | none =>
      have h0 := ih.1 h
      simp only []
      split
      · rename_i ht
        refine ⟨fun hh => by simp at hh, fun i hi => ?_⟩
        simp only [Option.some.injEq] at hi
        subst hi
        refine ⟨t, rfl, fun pos => ?_⟩
        simp [setStop, kinds, ht, h0]
      · rename_i ht
        refine ⟨fun _ => ?_, fun i hi => by simp at hi⟩
        rw [kinds, if_neg ht, h0]

/-- The closing bracket of a kind. -/
def closer : Typ → UInt8
  | .object => 125
  | _ => 93

/-- The closing brackets awaited. -/
def awaited (p : P) : List UInt8 := ((kinds p.toks).map closer).reverse

theorem awaited_open (p : P) (typ : Typ) (pos : Nat) :
    awaited (openTok p typ pos) = closer typ :: awaited p := by
  unfold awaited openTok bumpSuper
  simp only [kinds_append]
  cases p.super <;> simp [kinds_bump, kinds]

theorem awaited_close {p p' : P} {typ : Typ} {pos : Nat} (h : closeTok p typ pos = some p') :
    awaited p = closer typ :: awaited p' := by
  unfold closeTok at h
  cases hl : lastOpen p.toks with
  | none => rw [hl] at h; cases h
  | some i =>
    rw [hl] at h
    simp only [] at h
    split at h
    · rename_i ht
      cases h
      obtain ⟨t, h1, h2⟩ := (lastOpen_kinds p.toks).2 i hl
      have : t.typ = typ := by
        simp only [typAt, Option.bind_some, h1, Option.map_some, Option.some.injEq] at ht; exact ht
      unfold awaited
      rw [h2 pos, this]
      simp
    · cases h

theorem awaited_str (q : Bool) (p : P) (pos n : Nat) : awaited (addString q p pos n) = awaited p := by
  unfold awaited addString
  simp only []
  cases p.super with
  | some i => simp only [kinds_bump, kinds_append]; simp [kinds]
  | none => cases q <;> simp [kinds_bump, kinds_append, kinds]

theorem awaited_prim (p : P) (pos n : Nat) : awaited (addPrim p pos n) = awaited p := by
  unfold awaited addPrim bumpSuper
  simp only []
  cases p.super with
  | some i => simp only [kinds_bump, kinds_append]; simp [kinds]
  | none => simp [kinds_append, kinds]

theorem scanStr_after (t : List UInt8) : ∀ n, scanStr t = some n → t.drop (n + 1) = afterStr t := by
  induction h : t.length using Nat.strongRecOn generalizing t with
  | _ k ih =>
  subst h
  intro n hn
  cases t with
  | nil => cases hn
  | cons c t =>
    rw [scanStr.eq_def] at hn
    simp only [] at hn
    split at hn
    · rename_i hc
      subst hc
      cases hn
      cases t with
      | nil => rfl
      | cons d t => rw [afterStr, if_pos rfl]; rfl
    · rename_i hc
      split at hn
      · rename_i hb
        subst hb
        cases t with
        | nil => cases hn
        | cons e t =>
          have key : ∀ m, (scanStr t).map (· + 2) = some m →
              (92 :: e :: t).drop (m + 1) = afterStr (92 :: e :: t) := by
            intro m hm
            obtain ⟨m', h1, h2⟩ := Option.map_eq_some_iff.1 hm
            subst h2
            have := ih t.length (by simp only [List.length_cons]; omega) t rfl m' h1
            rw [afterStr, if_neg (by decide), if_pos rfl, ← this]
            simp
          simp only [] at hn
          split at hn
          · exact key n hn
          · split at hn
            · exact key n hn
            · cases hn
      · rename_i hb
        obtain ⟨m', h1, h2⟩ := Option.map_eq_some_iff.1 hn
        subst h2
        have := ih t.length (by simp) t rfl m' h1
        cases t with
        | nil => cases h1
        | cons d t =>
          rw [afterStr, if_neg hc, if_neg hb, ← this]
          simp

theorem wordEnd_eq (strict : Bool) (c : UInt8) : wordEnd strict c = primEnd strict c := by
  have : ∀ (strict : Bool) (n : Fin 256), wordEnd strict (UInt8.ofFin n) = primEnd strict (UInt8.ofFin n) := by
    decide +kernel
  exact this strict c.toFin

theorem scanPrim_after (strict : Bool) (s : List UInt8) : ∀ n, scanPrim strict s = some n →
    s.drop n = s.dropWhile (fun c => !wordEnd strict c) := by
  induction s with
  | nil => intro n h; simp
  | cons c t ih =>
    intro n h
    rw [scanPrim] at h
    split at h
    · rename_i hc
      cases h
      rw [List.dropWhile_cons_of_neg (by rw [wordEnd_eq, hc]; simp)]
      rfl
    · rename_i hc
      split at h
      · cases h
      · obtain ⟨m, h1, h2⟩ := Option.map_eq_some_iff.1 h
        subst h2
        rw [List.dropWhile_cons_of_pos (by rw [wordEnd_eq]; simp [hc]), ← ih m h1]
        rfl

theorem loop_nested (strict q : Bool) (s : List UInt8) : ∀ (pos : Nat) (p p' : P),
    loop strict q pos p s = some p' → nested (awaited p) (outline strict s) = true := by
  induction h : s.length using Nat.strongRecOn generalizing s with
  | _ n ih =>
  intro pos p p' hl
  subst h
  cases s with
  | nil =>
    rw [loop] at hl
    split at hl
    · rename_i h0
      have := (lastOpen_kinds p.toks).1 h0
      simp [awaited, this, outline, nested]
    · cases hl
  | cons c t =>
    have step : ∀ (t' : List UInt8) (pos' : Nat) (q1 : P), t'.length < (c :: t).length →
        loop strict q pos' q1 t' = some p' → nested (awaited q1) (outline strict t') = true :=
      fun t' pos' q1 hlt h => ih t'.length hlt t' rfl pos' q1 p' h
    rw [loop] at hl
    rw [outline]
    split at hl
    · rename_i hc; subst hc
      have := step _ _ _ (by simp) hl
      rw [awaited_open] at this
      rw [if_pos (by simp), nested.eq_def]; exact this
    split at hl
    · rename_i hc; subst hc
      have := step _ _ _ (by simp) hl
      rw [awaited_open] at this
      rw [if_pos (by simp), nested.eq_def]; exact this
    split at hl
    · rename_i hc; subst hc
      split at hl
      · cases hl
      · rename_i hcl
        have := step _ _ _ (by simp) hl
        rw [if_pos (by simp), nested.eq_def, awaited_close hcl]
        simp [closer, this]
    split at hl
    · rename_i hc; subst hc
      split at hl
      · cases hl
      · rename_i hcl
        have := step _ _ _ (by simp) hl
        rw [if_pos (by simp), nested.eq_def, awaited_close hcl]
        simp [closer, this]
    rename_i n1 n2 n3 n4
    rw [if_neg (by simp [n1, n2, n3, n4])]
    split at hl
    · rename_i hc; subst hc
      split at hl
      · cases hl
      · rename_i m hm
        have := step _ _ _ (by simp; omega) hl
        rw [awaited_str, scanStr_after t m hm] at this
        rw [if_pos rfl]; exact this
    rename_i n5
    rw [if_neg n5]
    split at hl
    · rename_i hc; subst hc
      split at hl
      · have := step _ _ _ (by simp) hl
        rw [if_pos (by decide)]; exact this
      · cases hl
    rename_i n6
    split at hl
    · rename_i hc; subst hc
      split at hl
      · have := step _ _ _ (by simp) hl
        rw [if_pos (by decide)]; exact this
      · cases hl
    rename_i n7
    split at hl
    · rename_i hc
      have := step _ _ _ (by simp) hl
      rw [if_pos (by rcases hc with rfl | rfl | rfl | rfl <;> decide)]; exact this
    rename_i n8
    split at hl
    · cases hl
    split at hl
    · cases hl
    · rename_i m hm
      have h0 := step _ _ _ (by simp; omega) hl
      have hin : (asc " \t\r\n,:").contains c = false := by
        rw [show asc " \t\r\n,:" = [32, 9, 13, 10, 44, 58] by decide]
        simp only [List.contains_cons, List.contains_nil, Bool.or_false]
        simp only [not_or] at n8
        simp [n6, n7, n8]
      rw [if_neg (by rw [hin]; simp)]
      rw [awaited_prim] at h0
      have hpe : primEnd strict c = false := by
        unfold primEnd
        simp only [not_or] at n8
        simp [n3, n4, n6, n7, n8]
      have hd := scanPrim_after strict (c :: t) m hm
      rw [List.dropWhile_cons_of_pos (by rw [wordEnd_eq, hpe]; rfl)] at hd
      have : m ≠ 0 := by
        rintro rfl
        have hl := congrArg List.length hd
        have := (List.dropWhile_sublist (l := t) (fun c => !wordEnd strict c)).length_le
        simp only [List.drop_zero, List.length_cons] at hl
        omega
      obtain ⟨m', rfl⟩ : ∃ m', m = m' + 1 := ⟨m - 1, by omega⟩
      rw [List.drop_succ_cons] at hd
      rw [Nat.add_sub_cancel, hd] at h0
      exact h0

/-- **C51 (part).** Whatever else is wrong with an accepted text, its brackets match: outside strings
and words every `{` is closed by a `}` and every `[` by a `]`, properly nested. -/
theorem C51_brackets_match_partial (strict : Bool) (text : List UInt8) (h : check strict text = true) :
    nested [] (outline strict text) = true := by
  unfold check at h
  obtain ⟨p, hp⟩ := Option.isSome_iff_exists.1 h
  exact loop_nested strict _ text 0 init p hp

example : outline true (asc "{\"a[\":[1,{},\"\\\"}\"]}") = asc "{[{}]}" := by
  decide +kernel

example : check true (asc "[}") = false ∧ check true (asc "[{]}") = false ∧ check true (asc "[") = false ∧
    check true (asc "{\"a[\":[1,{},\"\\\"}\"]}") = true := by decide +kernel

/-- The words: a bracket inside one is not seen. -/
theorem C51_word_refuted : check true (asc "[1{[\"]") = true := by decide +kernel

end Verif.Json
