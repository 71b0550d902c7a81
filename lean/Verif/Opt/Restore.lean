import Verif.Opt.Names

/-!
C130 for strings and objects; C131 (what `conf()` returns, given back to `conf`, restores the options).
-/

namespace Verif.Opt

open Verif.Value (Num roundNum one roundNat log2 limit)

/-! ### C130, strings and objects -/

/-- Words with commas between them. -/
def joined : List Str → Str
  | [] => []
  | [w] => w
  | w :: l => w ++ 44 :: joined l

theorem commas_ne : ∀ s, commas s ≠ []
  | [] => by simp [commas]
  | c :: s => by
    rw [commas]
    split
    · simp
    · split <;> simp

theorem commas_plain : ∀ {w : Str}, (44 : UInt8) ∉ w → commas w = [w]
  | [], _ => rfl
  | c :: w, h => by
    simp only [List.mem_cons, not_or] at h
    have hc : c ≠ 44 := fun e => h.1 e.symm
    rw [commas, commas_plain h.2]
    simp [hc]

theorem commas_word (s : Str) : ∀ {w : Str}, (44 : UInt8) ∉ w → commas (w ++ 44 :: s) = w :: commas s
  | [], _ => by
    rw [List.nil_append, commas]
    cases hc : commas s with
    | nil => exact absurd hc (commas_ne s)
    | cons x l => simp
  | c :: w, h => by
    simp only [List.mem_cons, not_or] at h
    have hc : c ≠ 44 := fun e => h.1 e.symm
    rw [List.cons_append, commas, commas_word s h.2]
    simp [hc]

theorem commas_joined : ∀ {ws : List Str}, ws ≠ [] → (∀ w ∈ ws, (44 : UInt8) ∉ w) → commas (joined ws) = ws
  | [], h, _ => absurd rfl h
  | [w], _, h => by rw [joined]; exact commas_plain (h w (by simp))
  | w :: x :: l, _, h => by
    rw [joined]
    · rw [commas_word _ (h w (by simp)), commas_joined (by simp) (fun y hy => h y (by simp [hy]))]
    · simp

theorem word1_names {w : Str} {p : Nat × Bool} {names : List Str} {nc ass : Bool} (hl : names.length ≤ 32)
    (ha : ass = true → p.2 = true) (h : Names names nc w p) (m : Nat) : word1 names 4 nc ass w m = some (put m p.1 p.2) := by
  obtain ⟨body, h1, h2, h3, h4⟩ := neg_of h
  unfold word1
  rw [h4]
  have := h3.lt
  simp only [C61_unique false nc body h1 names _ h3, Bool.not_not]
  rw [if_neg (by cases ass <;> simp_all), if_neg (by omega)]

theorem words_names {names : List Str} {nc ass : Bool} (hl : names.length ≤ 32) : ∀ {ws : List Str} {ps : List (Nat × Bool)},
    List.Forall₂ (Names names nc) ws ps → (ass = true → ∀ p ∈ ps, p.2 = true) → ∀ m, words names 4 nc ass ws m =
      some (ps.foldl (fun m p => put m p.1 p.2) m)
  | _, _, .nil, _, m => rfl
  | _, _, .cons h hs, ha, m => by
    rw [words, word1_names hl (fun e => ha e _ (by simp)) h]
    exact words_names hl hs (fun e p hp => ha e p (by simp [hp])) _

theorem setStr_bits (c : Call) (names : List Str) (nc : Bool) (a : Nat) (r : Rec) (s : Str) (m : Nat) (hc : c.incr = false)
    (h : bitsOfStr names 4 nc (peek r.raw a 4) (cstr s) = some m) :
    setOpt c (.bitset names 4 nc) a (.str s) r = (storeI 4 r a m, .ok) := by
  simp only [setOpt, setLeaf, setBitset, h]
  simp [fin, hc]

theorem joined_nul : ∀ {ws : List Str}, (∀ w ∈ ws, (0 : UInt8) ∉ w) → (0 : UInt8) ∉ joined ws
  | [], _ => by simp [joined]
  | [w], h => by rw [joined]; exact h w (by simp)
  | w :: x :: l, h => by
    rw [joined]
    · have h1 := h w (by simp)
      have h2 := joined_nul (ws := x :: l) (fun y hy => h y (by simp [hy]))
      simp [h1, h2]
    · simp

theorem joined_head : ∀ {ws : List Str} {w : Str} {l : List Str}, ws = w :: l → w ≠ [] → (joined ws).headD 0 = w.headD 0 ∧ joined ws ≠ []
  | _, w, [], rfl, h => ⟨rfl, h⟩
  | _, w, x :: l, rfl, h => by
    rw [joined]
    · cases w with
      | nil => exact absurd rfl h
      | cons y t => simp
    · simp

theorem Names.ne_nil {w : Str} {p : Nat × Bool} {names : List Str} {nc : Bool} (h : Names names nc w p) : w ≠ [] := by
  obtain ⟨body, h1, h2, h3, ⟨h4, rfl, h6⟩ | ⟨h4, rfl⟩⟩ := h
  · exact h1
  · simp

theorem forall2_all {α β : Type} {R : α → β → Prop} {P : α → Prop} (hp : ∀ a b, R a b → P a) : ∀ {l : List α} {m : List β},
    List.Forall₂ R l m → ∀ a ∈ l, P a
  | _, _, .nil, a, h => by cases h
  | _, _, .cons h hs, a, ha => by
    rcases List.mem_cons.1 ha with rfl | ha
    · exact hp _ _ h
    · exact forall2_all hp hs a ha

/-- C130: a string of words with commas changes exactly the bits they name. -/
theorem C130_string (c : Call) (names : List Str) (nc : Bool) (a : Nat) (r : Rec) (ws : List Str)
    (ps : List (Nat × Bool)) (hc : c.incr = false) (hl : names.length ≤ 32)
    (hw : List.Forall₂ (Names names nc) ws ps) (hk : ∀ w ∈ ws, (44 : UInt8) ∉ w) (he : (joined ws).headD 0 ≠ 61) :
    (setOpt c (.bitset names 4 nc) a (.str (joined ws)) r).2 = .ok ∧
    ∀ i, i < 32 → IsOn (setOpt c (.bitset names 4 nc) a (.str (joined ws)) r).1 a i = after (IsOn r a) ps i := by
  have hn : (0 : UInt8) ∉ joined ws := joined_nul (forall2_all (fun _ _ h => h.nul) hw)
  have hb : bitsOfStr names 4 nc (peek r.raw a 4) (cstr (joined ws)) =
      some (ps.foldl (fun m p => put m p.1 p.2) (peek r.raw a 4)) := by
    rw [cstr_id hn]
    cases hw with
    | nil => rfl
    | @cons w p l ps h hs =>
      have e2 := (joined_head (ws := w :: l) rfl h.ne_nil).2
      have hcj := commas_joined (by simp) hk
      revert he hcj e2
      generalize joined (w :: l) = s
      intro he e2 hcj
      cases s with
      | nil => exact absurd rfl e2
      | cons x t =>
        simp only [List.headD_cons] at he
        rw [bitsOfStr, if_neg he, hcj]
        exact words_names hl (.cons h hs) (by simp) _
  rw [setStr_bits c names nc a r _ _ hc hb]
  refine ⟨rfl, fun i hi => ?_⟩
  rw [isOn_store _ _ _ _ hi]
  exact testBit_fold hl hw _ i _ hi (fun j _ => rfl)

/-- C130: with a `=` in front, all other bits are cleared. -/
theorem C130_string_only (c : Call) (names : List Str) (nc : Bool) (a : Nat) (r : Rec) (ws : List Str)
    (ps : List (Nat × Bool)) (hc : c.incr = false) (hl : names.length ≤ 32)
    (hw : List.Forall₂ (Names names nc) ws ps) (hk : ∀ w ∈ ws, (44 : UInt8) ∉ w) (ht : ∀ p ∈ ps, p.2 = true) :
    (setOpt c (.bitset names 4 nc) a (.str (61 :: joined ws)) r).2 = .ok ∧
    ∀ i, i < 32 → IsOn (setOpt c (.bitset names 4 nc) a (.str (61 :: joined ws)) r).1 a i = after (fun _ => false) ps i := by
  have hn : (0 : UInt8) ∉ (61 : UInt8) :: joined ws := by
    have := joined_nul (forall2_all (fun _ _ h => h.nul) hw)
    simp [this]
  have hb : bitsOfStr names 4 nc (peek r.raw a 4) (cstr (61 :: joined ws)) =
      some (ps.foldl (fun m p => put m p.1 p.2) 0) := by
    rw [cstr_id hn]
    cases hw with
    | nil => rfl
    | @cons w p l ps h hs =>
      have e2 := (joined_head (ws := w :: l) rfl h.ne_nil).2
      rw [bitsOfStr, if_pos rfl, if_neg e2, commas_joined (by simp) hk]
      exact words_names hl (.cons h hs) (fun _ => ht) _
  rw [setStr_bits c names nc a r _ _ hc hb]
  refine ⟨rfl, fun i hi => ?_⟩
  rw [isOn_store _ _ _ _ hi]
  exact testBit_fold hl hw _ i _ hi (fun j _ => by simp)

/-- The members name bits. -/
inductive MemNames (names : List Str) (nc : Bool) : Mems → List (Nat × Bool) → Prop
  | nil : MemNames names nc .nil []
  | cons {k : Str} {b : Bool} {i : Nat} {m : Mems} {ps : List (Nat × Bool)} : k ≠ [] → Only false nc k names i →
      MemNames names nc m ps → MemNames names nc (.cons k (.bool b) m) ((i, b) :: ps)

theorem bitsOfMems_names {names : List Str} {nc : Bool} : ∀ {ms : Mems} {ps : List (Nat × Bool)},
    MemNames names nc ms ps → ∀ m, bitsOfMems names nc ms m = some (ps.foldl (fun m p => put m p.1 p.2) m)
  | _, _, .nil, m => rfl
  | _, _, .cons hk h hs, m => by
    rw [bitsOfMems]
    simp only [mem1, C61_unique false nc _ hk names _ h]
    exact bitsOfMems_names hs _

theorem testBit_foldM {names : List Str} {nc : Bool} (hl : names.length ≤ 32) :
    ∀ {ms : Mems} {ps : List (Nat × Bool)}, MemNames names nc ms ps → ∀ (m i : Nat) (on : Nat → Bool),
      i < 32 → (∀ j, j < 32 → m.testBit j = on j) → (ps.foldl (fun m p => put m p.1 p.2) m).testBit i = after on ps i
  | _, _, .nil, m, i, on, hi, h => h i hi
  | _, _, .cons hk h3 hs, m, i, on, hi, h => by
    rw [List.foldl_cons, after]
    apply testBit_foldM hl hs _ i _ hi
    intro j hj
    rw [testBit_put (Nat.lt_of_lt_of_le h3.lt hl) hj, h j hj]

theorem after_ge {ps : List (Nat × Bool)} : ∀ {on : Nat → Bool} {i : Nat}, (∀ p ∈ ps, p.1 ≠ i) → after on ps i = on i := by
  induction ps with
  | nil => intro on i _; rfl
  | cons p ps ih =>
    intro on i h
    rw [after, ih (fun q hq => h q (by simp [hq]))]
    rw [if_neg (fun e => h p (by simp) e.symm)]

theorem MemNames.lt {names : List Str} {nc : Bool} {ms : Mems} {ps : List (Nat × Bool)} (h : MemNames names nc ms ps) :
    ∀ p ∈ ps, p.1 < names.length := by
  induction h with
  | nil => simp
  | cons hk ho hs ih =>
    intro p hp
    rcases List.mem_cons.1 hp with rfl | hp
    · exact ho.lt
    · exact ih p hp

/-- C130: an object of names changes exactly the bits it names when the list has at most eight names. -/
theorem C130_object_partial (c : Call) (names : List Str) (nc : Bool) (a : Nat) (r : Rec) (ms : Mems)
    (ps : List (Nat × Bool)) (hc : c.incr = false) (hl : names.length ≤ 8) (hw : MemNames names nc ms ps) :
    (setOpt c (.bitset names 4 nc) a (.obj ms) r).2 = .ok ∧
    ∀ i, i < 32 → IsOn (setOpt c (.bitset names 4 nc) a (.obj ms) r).1 a i = after (IsOn r a) ps i := by
  have hb := bitsOfMems_names hw (peek r.raw a 4)
  have e : setOpt c (.bitset names 4 nc) a (.obj ms) r =
      (storeI 1 r a (ps.foldl (fun m p => put m p.1 p.2) (peek r.raw a 4) : Nat), .ok) := by
    simp only [setOpt, setLeaf, setBitset, hb]
    simp [fin, hc]
  rw [e]
  refine ⟨rfl, fun i hi => ?_⟩
  have hf := testBit_foldM (Nat.le_trans hl (by omega)) hw (peek r.raw a 4) i (IsOn r a) hi (fun j _ => rfl)
  revert hf
  generalize ps.foldl (fun m p => put m p.1 p.2) (peek r.raw a 4) = m
  intro hf
  show (peek (storeI 1 r a (m : Int)).raw a 4).testBit i = _
  -- the four bytes: the first is new
  have h1 : peek (storeI 1 r a (m : Int)).raw a 4 = m % 256 + 256 * peek r.raw (a + 1) 3 := by
    have e1 : peek (storeI 1 r a (m : Int)).raw a 4 =
        ((storeI 1 r a (m : Int)).raw a).toNat + 256 * peek (storeI 1 r a (m : Int)).raw (a + 1) 3 := rfl
    have e2 : peek (storeI 1 r a (m : Int)).raw a 1 = m % 256 := peek_store r 1 a m
    have e3 : peek (storeI 1 r a (m : Int)).raw (a + 1) 3 = peek r.raw (a + 1) 3 := by
      apply peek_congr
      intro j h1 _
      exact poke_out (by rw [leBytes_length]; omega)
    have e4 : peek (storeI 1 r a (m : Int)).raw a 1 = ((storeI 1 r a (m : Int)).raw a).toNat := by
      simp [peek]
    rw [e1, e3, ← e4, e2]
  have h0 : peek r.raw a 4 = (r.raw a).toNat + 256 * peek r.raw (a + 1) 3 := rfl
  have split : ∀ (x y i : Nat), x < 256 → (x + 256 * y).testBit i = if i < 8 then x.testBit i else y.testBit (i - 8) := by
    intro x y i hx
    have : x + 256 * y = 2 ^ 8 * y + x := by omega
    rw [this, Nat.testBit_two_pow_mul_add y (by simpa using hx)]
  rw [h1, split _ _ _ (Nat.mod_lt _ (by omega))]
  by_cases h8 : i < 8
  · rw [if_pos h8, ← hf]
    have : m % 256 = m % 2 ^ 8 := rfl
    rw [this, Nat.testBit_mod_two_pow]
    simp [h8]
  · rw [if_neg h8]
    rw [after_ge (fun p hp e => by have := hw.lt p hp; omega)]
    unfold IsOn
    rw [h0, split _ _ _ (UInt8.toNat_lt _), if_neg h8]

/-! ### C131 -/

/-- Whole numbers up to 2^53 are exact. -/
theorem roundNat_exact (k j : Nat) (hk : k < 2 ^ 53) : roundNat (k * 2 ^ j) = k * 2 ^ j := by
  unfold roundNat
  split
  · rfl
  · rename_i hm
    have hm0 : k * 2 ^ j ≠ 0 := by
      intro e; rw [e] at hm; exact hm (by decide)
    have hlog : log2 (k * 2 ^ j) < 53 + j := by
      show Nat.log2 _ < _
      rw [Nat.log2_lt hm0, Nat.pow_add]
      exact Nat.mul_lt_mul_of_pos_right hk (Nat.two_pow_pos j)
    have hd : 2 ^ (log2 (k * 2 ^ j) - 52) ∣ k * 2 ^ j :=
      Nat.dvd_trans (Nat.pow_dvd_pow 2 (by omega)) (Nat.dvd_mul_left _ _)
    rw [Nat.mod_eq_zero_of_dvd hd, if_pos (by simpa using Nat.two_pow_pos _), Nat.div_mul_cancel hd]

theorem lim_aux (k a b : Nat) (h : k < 2 ^ 53) (ha : 53 < a) : ¬ 2 ^ (a + b) ≤ k * 2 ^ b := by
  rw [Nat.pow_add, Nat.not_le]
  exact Nat.mul_lt_mul_of_pos_right (Nat.lt_trans h (Nat.pow_lt_pow_right (by omega) ha)) (Nat.two_pow_pos _)

theorem isDouble_small {z : Int} (hz : z.natAbs < 2 ^ 53) : IsDouble (.fin (z * (one : Int))) := by
  show roundNum _ = _
  unfold roundNum
  have e : (z * (one : Int)).natAbs = z.natAbs * 2 ^ 1074 := by
    rw [Int.natAbs_mul, Int.natAbs_natCast]; rfl
  have hlim : ¬ limit ≤ z.natAbs * 2 ^ 1074 := by
    unfold limit
    exact lim_aux _ 1024 1074 hz (by omega)
  have hr : roundNat (z * (one : Int)).natAbs = (z * (one : Int)).natAbs := by
    rw [e, roundNat_exact _ _ hz]
  rw [hr, if_neg (by rw [e]; exact hlim)]
  generalize z * (one : Int) = y
  congr 1
  split <;> omega

/-- The field holds something that can be written as a value and read again. -/
def Good : Kind → Nat → Rec → Prop
  | .bool, _, _ => True
  | .int sg n, a, r => Size n ∧ ¬ (sg = false ∧ n = 8) ∧ IsDouble (.fin (loadI sg n r a * (one : Int)))
  | .number, a, r => r.num a ≠ .nan
  | .ref k, a, r => ∀ v, r.ref a = some v → v ≠ .null ∧ refOk k v = true ∧
      ∀ s : Str, v = .str s → (0 : UInt8) ∉ s
  | .strbuf n, a, r => ∃ j, j < n ∧ r.raw (a + j) = 0
  | .enum names sg n ex nc _, a, r => Size n ∧ names.length < 2 ^ 63 ∧ ∃ (i : Nat) (w : Str), loadI sg n r a = i ∧
      names[i]? = some w ∧ w ≠ [] ∧ (0 : UInt8) ∉ w ∧ Only ex nc w names i
  | .bitset .., _, _ => False
  | .sub _, _, _ => False

theorem loadI_range (sg : Bool) {n : Nat} (r : Rec) (a : Nat) (hn : Size n) : InRange sg n (loadI sg n r a) := by
  have h : peek r.raw a n < 2 ^ (8 * n) := by
    rw [pow8]
    clear hn
    induction n generalizing a with
    | zero => simp [peek]
    | succ n ih =>
      rw [peek, Nat.pow_succ]
      have := ih (a + 1)
      have := UInt8.toNat_lt (r.raw a)
      omega
  unfold loadI InRange asS
  rcases hn with rfl | rfl | rfl | rfl <;> cases sg <;> simp at h ⊢ <;> (try split) <;> omega

theorem cstr_take : ∀ {s : Str} {j : Nat}, s[j]? = some 0 → (cstr s).length ≤ j
  | [], _, h => by simp at h
  | x :: s, 0, h => by simp at h; subst h; simp [cstr]
  | x :: s, j + 1, h => by
    simp at h
    have := cstr_take h
    unfold cstr at this ⊢
    rw [List.takeWhile_cons]
    split
    · simp only [List.length_cons]; omega
    · simp

theorem cstr_nul : ∀ (s : Str), (0 : UInt8) ∉ cstr s
  | [] => by simp [cstr]
  | x :: s => by
    have ih := cstr_nul s
    unfold cstr at ih ⊢
    rw [List.takeWhile_cons]
    split
    · rename_i h
      simp only [ne_eq, decide_not, Bool.not_eq_eq_eq_not, Bool.not_true, decide_eq_false_iff_not] at h
      simp only [List.mem_cons, not_or]
      exact ⟨fun e => h e.symm, ih⟩
    · simp

theorem cstr_append_zero : ∀ {s : Str} (t : Str), (0 : UInt8) ∉ s → cstr (s ++ 0 :: t) = s
  | [], t, _ => by simp [cstr]
  | x :: s, t, h => by
    simp only [List.mem_cons, not_or] at h
    have ih := cstr_append_zero t h.2
    unfold cstr at ih ⊢
    rw [List.cons_append, List.takeWhile_cons, if_pos (by simpa using fun e => h.1 e.symm), ih]

/-- The bytes of a buffer after a string has been written. -/
theorem buf_poke (r : Rec) (a n : Nat) (s : Str) (hs : s.length < n) (h0 : (0 : UInt8) ∉ s) :
    cstr ((List.range n).map fun i => poke r.raw a (s ++ [0]) (a + i)) = s := by
  have e : (List.range n).map (fun i => poke r.raw a (s ++ [0]) (a + i)) =
      s ++ 0 :: ((List.range n).map (fun i => poke r.raw a (s ++ [0]) (a + i))).drop (s.length + 1) := by
    apply List.ext_getElem?
    intro i
    by_cases h1 : i < s.length
    · rw [List.getElem?_append_left h1, List.getElem?_map, List.getElem?_range (by omega), Option.map_some,
        poke_in (by simp; omega)]
      rw [List.getD_eq_getElem?_getD, List.getElem?_append_left h1]
      rw [List.getElem?_eq_getElem h1]; rfl
    · by_cases h2 : i = s.length
      · subst h2
        rw [List.getElem?_append_right (Nat.le_refl _), List.getElem?_map, List.getElem?_range (by omega), Option.map_some,
          poke_in (by simp)]
        simp [List.getD_eq_getElem?_getD]
      · rw [List.getElem?_append_right (by omega)]
        have e2 : i - s.length = (i - s.length - 1) + 1 := by omega
        rw [e2, List.getElem?_cons_succ, List.getElem?_drop]
        congr 1
        omega
  rw [e]
  exact cstr_append_zero _ h0

/-- A text without NUL, and every other value, is kept as it is. -/
theorem refVal_id (k : RK) (v : V) (h : ∀ s : Str, v = .str s → (0 : UInt8) ∉ s) : refVal k v = v := by
  unfold refVal
  split
  · rename_i s
    have h0 := h s rfl
    have : ∀ t : Str, (0 : UInt8) ∉ t → cstr t = t := by
      intro t
      induction t with
      | nil => intro _; rfl
      | cons x t ih =>
        intro h
        simp only [List.mem_cons, not_or] at h
        have := ih h.2
        unfold cstr at this ⊢
        rw [List.takeWhile_cons, if_pos (by simpa using fun e => h.1 e.symm), this]
    rw [this s h0]
  · rfl

/-- A value read from one record can be set in another, and is then read there. -/
theorem restore_leaf (c : Call) (k : Kind) (a : Nat) (r r2 : Rec) (hc : c.incr = false) (hg : Good k a r) :
    ∃ v, getOpt k a r = some v ∧ (setOpt c k a v r2).2 = .ok ∧ getOpt k a (setOpt c k a v r2).1 = some v := by
  cases k with
  | bool =>
    refine ⟨.bool (r.raw a != 0), rfl, ?_, ?_⟩
    · simp [setOpt, setLeaf, fin, hc]
    · simp only [setOpt, setLeaf, getOpt, fin_fst]
      have := poke_in (m := r2.raw) (a := a) (j := 0) (b := [if (r.raw a != 0) = true then (1 : UInt8) else 0]) (by simp)
      simp only [Nat.add_zero, List.getD_cons_zero] at this
      rw [this]
      cases r.raw a != 0 <;> rfl
  | int sg n =>
    simp only [Good] at hg
    obtain ⟨hn, h8, hd⟩ := hg
    have hx : IsInt (.fin (loadI sg n r a * (one : Int))) (loadI sg n r a) := rfl
    have hr := loadI_range sg r a hn
    have h := C123_int_partial c sg n a _ _ r2 hc hn hx hd (fun e => by
      subst e
      cases sg
      · exact absurd ⟨rfl, rfl⟩ h8
      · exact ⟨rfl, hr⟩)
    refine ⟨.num (.fin (loadI sg n r a * (one : Int))), ?_, h.1.2 hr, h.2.1 (h.1.2 hr)⟩
    simp only [getOpt, ofInt]
    have : roundNum (loadI sg n r a * (one : Int)) = .fin (loadI sg n r a * (one : Int)) := hd
    rw [this]
  | number =>
    simp only [Good] at hg
    refine ⟨.num (r.num a), rfl, ?_, ?_⟩
    · simp [setOpt, setLeaf, setNumber, hc, hg]
    · simp [setOpt, setLeaf, setNumber, hc, getOpt, setNum]
  | ref q =>
    simp only [Good] at hg
    cases hr : r.ref a with
    | none =>
      refine ⟨.null, by simp [getOpt, hr], ?_, ?_⟩
      · simp [setOpt, setLeaf, setRefK, fin, hc]
      · simp [setOpt, setLeaf, setRefK, fin_fst, getOpt, setRef]
    | some v =>
      obtain ⟨h1, h2, h3⟩ := hg v hr
      have e : setRefK q a v r2 = (setRef r2 a (some v), .ok) := by
        unfold setRefK
        split
        · exact absurd rfl h1
        · rw [if_pos h2, refVal_id q v h3]
      refine ⟨v, by simp [getOpt, hr], ?_, ?_⟩
      · simp [setOpt, setLeaf, e, fin, hc]
      · simp [setOpt, setLeaf, e, fin_fst, getOpt, setRef]
  | strbuf n =>
    simp only [Good] at hg
    obtain ⟨j, hj, h0⟩ := hg
    have hlen : (cstr ((List.range n).map fun i => r.raw (a + i))).length < n := by
      refine Nat.lt_of_le_of_lt (cstr_take (j := j) ?_) hj
      rw [List.getElem?_map, List.getElem?_range hj, Option.map_some, h0]
    refine ⟨.str (cstr ((List.range n).map fun i => r.raw (a + i))), by simp only [getOpt], ?_, ?_⟩
    · simp only [setOpt, setLeaf, setStrbuf]
      rw [if_neg (by omega)]
      simp [fin, hc]
    · simp only [setOpt, setLeaf, fin_fst, setStrbuf]
      rw [if_neg (by omega)]
      simp only [getOpt]
      rw [buf_poke r2 a n _ hlen (cstr_nul _)]
  | enum names sg n ex nc co =>
    simp only [Good] at hg
    obtain ⟨hn, hb, i, w, hl, hi, hw, h0, ho⟩ := hg
    have hlt : i < names.length := ho.lt
    have hr : InRange sg n i := by rw [← hl]; exact loadI_range sg r a hn
    have h := C129_round_partial c names sg n ex nc co a w w i r2 hc hn hw h0 ho hi hr hb
    refine ⟨.str w, ?_, h⟩
    simp only [getOpt]
    unfold getEnum
    rw [if_pos (show n = 1 ∨ n = 2 ∨ n = 4 ∨ n = 8 from hn), hl]
    have hc8 : cast true 8 (i : Int) = i := by
      apply cast_fix (Or.inr (Or.inr (Or.inr rfl)))
      have : (i : Int) < (2 ^ 63 : Nat) := by exact_mod_cast Nat.lt_trans hlt hb
      unfold InRange
      simp at this ⊢
      omega
    rw [hc8]
    simp [hi]
  | bitset _ _ _ => exact absurd hg (by simp [Good])
  | sub s => exact absurd hg (by simp [Good])

theorem peek_same {r r' : Rec} {a n : Nat} (h : ∀ i, i < n → Same r r' (.raw (a + i))) : peek r'.raw a n = peek r.raw a n := by
  apply peek_congr
  intro i h1 h2
  have := h (i - a) (by omega)
  simp only [Same] at this
  rwa [show a + (i - a) = i by omega] at this

/-- What is read of an option depends only on its field (a bit set reads more, see C130). -/
theorem getOpt_congr (k : Kind) (a : Nat) (r r' : Rec) (r0 : Rec) (hg : Good k a r0)
    (h : ∀ l, Owns k a l → Same r r' l) : getOpt k a r' = getOpt k a r := by
  cases k with
  | bool =>
    have := h (.raw a) (by simp [Owns])
    simp only [Same] at this
    simp only [getOpt, this]
  | int sg n =>
    have := peek_same (r := r) (r' := r') (a := a) (n := n) (fun i hi => h _ (by simp only [Owns]; exact ⟨i, hi, rfl⟩))
    simp only [getOpt, loadI, this]
  | number =>
    have := h (.num a) (by simp [Owns])
    simp only [Same] at this
    simp only [getOpt, this]
  | ref q =>
    have := h (.ref a) (by simp [Owns])
    simp only [Same] at this
    simp only [getOpt, this]
  | strbuf n =>
    simp only [getOpt]
    congr 3
    apply List.map_congr_left
    intro i hi
    exact h (.raw (a + i)) (by simp only [Owns]; exact ⟨i, List.mem_range.1 hi, rfl⟩)
  | enum names sg n ex nc co =>
    have := peek_same (r := r) (r' := r') (a := a) (n := n) (fun i hi => h _ (by simp only [Owns]; exact ⟨i, hi, rfl⟩))
    simp only [getOpt, getEnum, loadI, this]
  | bitset _ _ _ => exact absurd hg (by simp [Good])
  | sub s => exact absurd hg (by simp [Good])

theorem dump_names : ∀ {t : Specs} {b : Nat} {r : Rec} {m : Mems}, dump t b r = some m →
    ∀ kv ∈ m.list, ∃ o ∈ t.list, kv.1 = o.name
  | .nil, b, r, m, h => by
    simp only [dump, Option.some.injEq] at h; subst h; simp [Mems.list]
  | .cons n o f k t, b, r, m, h => by
    rw [dump] at h
    cases hv : getOpt k (b + o) r with
    | none => rw [hv] at h; cases h
    | some v =>
      rw [hv] at h
      simp only [] at h
      cases hm : dump t b r with
      | none => rw [hm] at h; cases h
      | some m' =>
        rw [hm] at h
        simp only [Option.some.injEq] at h
        subst h
        intro kv hk
        simp only [Mems.list, List.mem_cons] at hk
        rcases hk with rfl | hk
        · exact ⟨⟨n, o, f, k⟩, by simp [Specs.list], rfl⟩
        · obtain ⟨o', h1, h2⟩ := dump_names hm kv hk
          exact ⟨o', by simp [Specs.list, h1], h2⟩

/-- The step of the proof of C131: the rest `t` of the table `s`. -/
theorem restore_loop (c : Call) (s : Specs) (b : Nat) (r : Rec) (hs : s.Ok) (ha : Apart s b) (hc : c.incr = false)
    (hu : c.update = true)
    (hf : ∀ o ∈ s.list, optFind s o.name = some o ∧ otherPass c o.fl = false ∧ barred c o.fl = false ∧
      Good o.k (b + o.off) r) : ∀ (t : Specs), (∀ o ∈ t.list, o ∈ s.list) → ∀ r2, ∃ m, dump t b r = some m ∧
      (procLoop c s b m r2).2.1 = .ok ∧
      ∀ o ∈ t.list, getOpt o.k (b + o.off) (procLoop c s b m r2).1 = getOpt o.k (b + o.off) r
  | .nil, _, r2 => ⟨.nil, by simp only [dump], by simp only [procLoop], by simp [Specs.list]⟩
  | .cons n off f k t, hsub, r2 => by
    have hmem : (⟨n, off, f, k⟩ : Opt) ∈ s.list := hsub _ (by simp [Specs.list])
    obtain ⟨h1, h2, h3, h4⟩ := hf _ hmem
    simp only [] at h1 h2 h3 h4
    obtain ⟨v, hv, hset, hget⟩ := restore_leaf c k (b + off) r r2 hc h4
    obtain ⟨m, hm, hok, hall⟩ := restore_loop c s b r hs ha hc hu hf t (fun o ho => hsub o (by simp [Specs.list, ho]))
      (setOpt c k (b + off) v r2).1
    have hstep : step c ⟨n, off, f, k⟩ (setOpt c k (b + off) v) r2 = ((setOpt c k (b + off) v r2).1, .ok, [n]) := by
      unfold step
      rw [if_neg (by rw [h2]; simp), if_neg (by rw [h3]; simp)]
      revert hset
      generalize setOpt c k (b + off) v r2 = p
      obtain ⟨r3, e⟩ := p
      intro hset
      simp only [] at hset
      subst hset
      rfl
    have hloop : (procLoop c s b (.cons n v m) r2).1 = (procLoop c s b m (setOpt c k (b + off) v r2).1).1 ∧
        (procLoop c s b (.cons n v m) r2).2.1 = (procLoop c s b m (setOpt c k (b + off) v r2).1).2.1 := by
      simp only [procLoop, h1, hstep, andThen, and_self]
    refine ⟨.cons n v m, by simp only [dump, hv, hm], ?_, ?_⟩
    · rw [hloop.2]; exact hok
    · rw [hloop.1]
      intro o ho
      simp only [Specs.list, List.mem_cons] at ho
      by_cases ht : o ∈ t.list
      · exact hall o ht
      · rcases ho with rfl | ho
        · rw [← hget] at hv
          rw [hv]
          simp only []
          refine getOpt_congr k (b + off) _ _ r h4 (fun l hl => procLoop_same c s b m _ l hs hu ?_)
          intro htouch
          obtain ⟨kv, hkv, o', ho', -, -, h5⟩ := htouch.named
          obtain ⟨o'', hm1, hm2⟩ := dump_names hm kv hkv
          have hfo := (hf o'' (hsub o'' (by simp [Specs.list, hm1]))).1
          rw [hm2, hfo] at ho'
          injection ho' with ho'
          subst ho'
          rcases ha _ hmem o'' (optFind_mem hfo) with h6 | h6
          · exact ht (by rw [← h6]; exact hm1)
          · exact h6 l ⟨hl, h5.owns⟩
        · exact absurd ho ht

/-- C131: what `conf()` shows of one record, given to `conf` on another (or later on the same), is accepted and gives all
options the values shown.  For tables of plain options, open to the script and found by their names, with values that
can be written. -/
theorem C131_restore_partial (c : Call) (s : Specs) (b : Nat) (r r2 : Rec) (hs : s.Ok) (ha : Apart s b)
    (hc : c.incr = false) (hu : c.update = true)
    (hf : ∀ o ∈ s.list, optFind s o.name = some o ∧ otherPass c o.fl = false ∧ barred c o.fl = false ∧
      Good o.k (b + o.off) r) :
    ∃ m, dump s b r = some m ∧ (process c s b (some (.obj m)) r2).2 = .ok ∧
      ∀ o ∈ s.list, getOpt o.k (b + o.off) (process c s b (some (.obj m)) r2).1 = getOpt o.k (b + o.off) r := by
  obtain ⟨m, h1, h2, h3⟩ := restore_loop c s b r hs ha hc hu hf s (fun _ h => h) r2
  refine ⟨m, h1, ?_, ?_⟩
  · simp only [process, finish_update hu]; exact h2
  · simp only [process, finish_update hu]; exact h3

/-- C131: a bit set is not restored: bits set since stay set, since an array only adds. -/
theorem C131_bitset_refuted :
    ∃ r r2 : Rec, ∀ v, getOpt (.bitset traceNames 4 false) 0 r = some v →
      (setOpt {} (.bitset traceNames 4 false) 0 v r2).2 = .ok ∧
      getOpt (.bitset traceNames 4 false) 0 (setOpt {} (.bitset traceNames 4 false) 0 v r2).1 ≠ some v := by
  refine ⟨storeI 4 rec0 0 1, storeI 4 rec0 0 2, ?_⟩
  intro v hv
  have e : bitNames (peek (storeI 4 rec0 0 1).raw 0 4) 0 traceNames = [some (asc "funcs")] := by decide +kernel
  simp only [getOpt, e, Option.some.injEq] at hv
  subst hv
  refine ⟨by decide +kernel, ?_⟩
  have e2 : bitNames (peek (setOpt {} (.bitset traceNames 4 false) 0 (.arr [some (asc "funcs")]) (storeI 4 rec0 0 2)).1.raw 0 4)
      0 traceNames = [some (asc "funcs"), some (asc "cmds")] := by decide +kernel
  simp only [getOpt, e2]
  simp

/-- C131: a dump of a table with a read-only option is refused as a whole. -/
theorem C131_readonly_refuted : ∀ m, dump subOpts 0 rec0 = some m →
    (process { update := true } subOpts 0 (some (.obj m)) rec0).2 = .err := by
  intro m h
  simp [dump, subOpts, getOpt, rec0] at h
  subst h
  decide +kernel

/-- A table for which `C131_restore_partial` holds. -/
def plain : Specs := .cons (asc "limit") 0 {} (.int true 4) (.cons (asc "nocache") 4 {} .bool
  (.cons (asc "table") 8 {} (.ref .strkey) (.cons (asc "mode") 16 {} (.enum [asc "rows", asc "json"] true 4 false false false) .nil)))

example : plain.Ok ∧ Apart plain 0 ∧ ∀ o ∈ plain.list, optFind plain o.name = some o ∧
    otherPass { update := true } o.fl = false ∧ barred { update := true } o.fl = false ∧ Good o.k (0 + o.off) (storeI 4 rec0 0 (-7)) := by
  have hon : Only false false (asc "rows") [asc "rows", asc "json"] 0 := by
    refine ⟨⟨asc "rows", rfl, by simp [Means]⟩, ?_⟩
    intro j cc hj hm
    simp only [Means, Bool.false_eq_true, if_false] at hm
    rcases j with _ | _ | j
    · rfl
    · simp at hj; subst hj; revert hm; decide +kernel
    · simp at hj
  refine ⟨?_, ?_, ?_⟩
  · simp [plain, Specs.Ok, Kind.Ok]
  · intro o ho o' ho'
    simp only [plain, Specs.list, List.mem_cons, List.not_mem_nil, or_false] at ho ho'
    rcases ho with rfl | rfl | rfl | rfl <;> rcases ho' with rfl | rfl | rfl | rfl <;>
      first
      | exact Or.inl rfl
      | (right; rintro l ⟨h1, h2⟩; simp only [Owns] at h1 h2
         first
         | (rw [h1] at h2; simp at h2; done)
         | (obtain ⟨i, hi, e⟩ := h1; rw [e] at h2; simp at h2; done)
         | (obtain ⟨i, hi, e⟩ := h2; rw [e] at h1; simp at h1; done)
         | (obtain ⟨i, hi, e⟩ := h1; rw [e] at h2; simp at h2; omega)
         | (obtain ⟨i, hi, e⟩ := h2; rw [e] at h1; simp at h1; omega)
         | (obtain ⟨i, hi, e⟩ := h1; obtain ⟨j, hj, e2⟩ := h2; rw [e] at e2; simp at e2; omega))
  · intro o ho
    simp only [plain, Specs.list, List.mem_cons, List.not_mem_nil, or_false] at ho
    rcases ho with rfl | rfl | rfl | rfl
    · refine ⟨by rfl, rfl, rfl, Or.inr (Or.inr (Or.inl rfl)), by simp, isDouble_small ?_⟩
      decide +kernel
    · exact ⟨by rfl, rfl, rfl, trivial⟩
    · refine ⟨by rfl, rfl, rfl, ?_⟩
      intro v hv
      simp [storeI, rec0] at hv
    · refine ⟨by rfl, rfl, rfl, Or.inr (Or.inr (Or.inl rfl)), by decide, 0, asc "rows", by decide +kernel, rfl, by decide,
        by decide +kernel, hon⟩

end Verif.Opt
