import Verif.Opt.Lock

/-!
C128 (required options), C129 (enumerations), C130 (bit sets).
-/

namespace Verif.Opt

open Verif.Value (Num roundNum one)

/-! ### C128 -/

/-- What has been specified was given by a member. -/
theorem procLoop_done (c : Call) (s : Specs) (b : Nat) (n : Str) : ∀ (ms : List (Str × V)) (r : Rec),
    n ∈ (procLoop c s b (Mems.ofList ms) r).2.2 →
      ∃ kv ∈ ms, ∃ o, optFind s kv.1 = some o ∧ o.name = n ∧ o.fl.pass2 = c.pass2 ∧ barred c o.fl = false
  | [], r, h => by simp [Mems.ofList, procLoop] at h
  | kv :: ms, r, h => by
    have ih := procLoop_done c s b n ms
    have lift : (∃ kv ∈ ms, ∃ o, optFind s kv.1 = some o ∧ o.name = n ∧ o.fl.pass2 = c.pass2 ∧ barred c o.fl = false) →
        ∃ kv' ∈ kv :: ms, ∃ o, optFind s kv'.1 = some o ∧ o.name = n ∧ o.fl.pass2 = c.pass2 ∧ barred c o.fl = false := by
      rintro ⟨kv', h1, h2⟩; exact ⟨kv', List.mem_cons_of_mem _ h1, h2⟩
    simp only [Mems.ofList, procLoop] at h
    cases hf : optFind s kv.1 with
    | none =>
      rw [hf] at h
      simp only [] at h
      split at h
      · exact lift (ih r h)
      · simp at h
    | some o =>
      rw [hf] at h
      simp only [] at h
      cases hp : step c o (setOpt c o.k (b + o.off) kv.2) r with
      | mk r1 q =>
        obtain ⟨ee, d⟩ := q
        rw [hp] at h
        have hd : n ∈ d → ∃ kv' ∈ kv :: ms, ∃ o, optFind s kv'.1 = some o ∧ o.name = n ∧ o.fl.pass2 = c.pass2 ∧
            barred c o.fl = false := by
          intro hn
          refine ⟨kv, by simp, o, hf, ?_⟩
          revert hp
          unfold step
          split
          · intro hp; simp only [Prod.mk.injEq] at hp; rw [← hp.2.2] at hn; simp at hn
          · rename_i hop
            split
            · intro hp; simp only [Prod.mk.injEq] at hp; rw [← hp.2.2] at hn; simp at hn
            · rename_i hb
              have h2 : o.fl.pass2 = c.pass2 := by
                unfold otherPass at hop
                revert hop
                cases c.pass2 <;> cases o.fl.pass2 <;> simp
              split
              · intro hp; simp only [Prod.mk.injEq] at hp; rw [← hp.2.2] at hn
                simp only [List.mem_singleton] at hn
                exact ⟨hn.symm, h2, by simpa using hb⟩
              · intro hp; simp only [Prod.mk.injEq] at hp; rw [← hp.2.2] at hn; simp at hn
        cases ee with
        | ok =>
          simp only [andThen, List.mem_append] at h
          rcases h with h | h
          · exact hd h
          · exact lift (ih r1 h)
        | err => simp only [andThen] at h; exact hd h
        | crash => simp only [andThen] at h; exact hd h

/-- C128: an object is made from a given object of options only if each required option of the table is named in it (by
a member that selects an option of that name). -/
theorem C128_required (c : Call) (s : Specs) (b : Nat) (ms : Mems) (r : Rec) (hu : c.update = false)
    (hp : c.pass2 = false) (h : (process c s b (some (.obj ms)) r).2 = .ok) (o : Opt) (ho : o ∈ s.list)
    (hr : o.fl.required = true) :
    ∃ kv ∈ ms.list, ∃ o', optFind s kv.1 = some o' ∧ o'.name = o.name := by
  simp only [process] at h
  have hd : o.name ∈ (procLoop c s b ms r).2.2 := by
    generalize procLoop c s b ms r = p at h ⊢
    obtain ⟨r1, e, d⟩ := p
    cases e with
    | ok =>
      simp only [finish] at h
      split at h
      · cases h
      · rename_i hm
        by_cases hc : o.name ∈ d
        · exact hc
        · exfalso
          apply hm
          unfold missing
          rw [hu, hp]
          simp only [Bool.not_false, Bool.true_and, List.any_eq_true]
          exact ⟨o, ho, by simp [hr, hc]⟩
    | err => simp [finish] at h
    | crash => simp [finish] at h
  rw [← ofList_list ms] at hd
  obtain ⟨kv, h1, o', h2, h3, -⟩ := procLoop_done c s b _ _ _ hd
  exact ⟨kv, h1, o', h2, h3⟩

/-- C128: conversely a missing required option is an error, and what was set is cleared. -/
theorem C128_missing (c : Call) (s : Specs) (b : Nat) (ms : Mems) (r : Rec) (hu : c.update = false)
    (hp : c.pass2 = false) (o : Opt) (ho : o ∈ s.list) (hr : o.fl.required = true)
    (hn : ∀ kv ∈ ms.list, ∀ o', optFind s kv.1 = some o' → o'.name ≠ o.name) :
    (process c s b (some (.obj ms)) r).2 ≠ .ok := by
  intro h
  obtain ⟨kv, h1, o', h2, h3⟩ := C128_required c s b ms r hu hp h o ho hr
  exact hn kv h1 o' h2 h3

/-- C128: `null` in place of the object is accepted though a required option is missing. -/
theorem C128_null_refuted : (process {} (.cons (asc "file") 0 { required := true } (.ref .strkey) .nil) 0 (some .null) rec0).2 = .ok ∧
    (process {} (.cons (asc "file") 0 { required := true } (.ref .strkey) .nil) 0 (some (.obj .nil)) rec0).2 = .err := by
  refine ⟨by decide +kernel, by decide +kernel⟩

/-- C128 is not about nothing. -/
example : (process {} (.cons (asc "file") 0 { required := true } (.ref .strkey) .nil) 0
    (some (.obj (.cons (asc "fi") (.str (asc "a.js")) .nil))) rec0).2 = .ok := by decide +kernel

/-! ### C129 -/

theorem cast8_of_range {sg : Bool} {n : Nat} {z : Int} (hn : Size n) (h : InRange sg n z) (h0 : 0 ≤ z)
    (hz : z < 2 ^ 63) : cast true 8 (cast sg n z) = z := by
  rw [cast_fix hn h]
  apply cast_fix (Or.inr (Or.inr (Or.inr rfl)))
  unfold InRange
  simp
  omega

/-- A word without NUL is seen whole. -/
theorem cstr_id : ∀ {s : Str}, (0 : UInt8) ∉ s → cstr s = s
  | [], _ => rfl
  | x :: s, h => by
    simp only [List.mem_cons, not_or] at h
    have ih := cstr_id h.2
    unfold cstr at ih ⊢
    rw [List.takeWhile_cons, if_pos (by simpa using fun e => h.1 e.symm), ih]

/-- C129: an enumerated option set with a word that stands for one name of the list is read as that name, in full. -/
theorem C129_round_partial (c : Call) (names : List Str) (sg : Bool) (n : Nat) (ex nc co : Bool) (a : Nat) (w name : Str)
    (i : Nat) (r : Rec) (hc : c.incr = false) (hn : Size n) (hw : w ≠ []) (h0 : (0 : UInt8) ∉ w)
    (ho : Only ex nc w names i) (hi : names[i]? = some name) (hr : InRange sg n i) (hb : names.length < 2 ^ 63) :
    (setOpt c (.enum names sg n ex nc co) a (.str w) r).2 = .ok ∧
    getOpt (.enum names sg n ex nc co) a (setOpt c (.enum names sg n ex nc co) a (.str w) r).1 = some (.str name) := by
  have hg := C61_unique ex nc w hw names i ho
  have e : setOpt c (.enum names sg n ex nc co) a (.str w) r = (storeI n r a i, .ok) := by
    simp only [setOpt, setLeaf, setEnum, cstr_id h0, hg]
    rw [if_pos (show n = 1 ∨ n = 2 ∨ n = 4 ∨ n = 8 from hn)]
    simp [fin, hc]
  rw [e]
  refine ⟨rfl, ?_⟩
  simp only [getOpt]
  unfold getEnum
  rw [if_pos (show n = 1 ∨ n = 2 ∨ n = 4 ∨ n = 8 from hn), load_store]
  have hl : i < names.length := by
    rw [List.getElem?_eq_some_iff] at hi
    exact hi.1
  rw [cast8_of_range hn hr (by omega) (by have : (i : Int) < (2 ^ 63 : Nat) := by exact_mod_cast Nat.lt_trans hl hb
                                          simpa using this)]
  simp [hi]

/-- C129: what it accepts stands for a name of the list, and is then read as that name. -/
theorem C129_sound_partial (c : Call) (names : List Str) (sg : Bool) (n : Nat) (ex nc co : Bool) (a : Nat) (w : Str)
    (r : Rec) (hc : c.incr = false) (hn : Size n) (hw : w ≠ []) (h0 : (0 : UInt8) ∉ w) (hb : names.length < 2 ^ 63)
    (hr : ∀ i : Nat, i < names.length → InRange sg n i)
    (h : (setOpt c (.enum names sg n ex nc co) a (.str w) r).2 = .ok) :
    ∃ (i : Nat) (name : Str), names[i]? = some name ∧ Means ex nc w name ∧
      getOpt (.enum names sg n ex nc co) a (setOpt c (.enum names sg n ex nc co) a (.str w) r).1 = some (.str name) := by
  have e : setOpt c (.enum names sg n ex nc co) a (.str w) r = fin c (setEnum names n ex nc a (.str w) r) := by
    simp only [setOpt, setLeaf]
  rw [e, fin_err hc] at h
  rw [e, fin_fst]
  simp only [setEnum, cstr_id h0] at h ⊢
  cases hg : getIndex ex nc w names with
  | ok i =>
    obtain ⟨name, h1, h2⟩ := C61_sound ex nc w hw names i hg
    have hl : i < names.length := by
      rw [List.getElem?_eq_some_iff] at h1
      exact h1.1
    refine ⟨i, name, h1, h2, ?_⟩
    simp only []
    rw [if_pos (show n = 1 ∨ n = 2 ∨ n = 4 ∨ n = 8 from hn)]
    simp only [getOpt]
    unfold getEnum
    rw [if_pos (show n = 1 ∨ n = 2 ∨ n = 4 ∨ n = 8 from hn), load_store]
    rw [cast8_of_range hn (hr i hl) (by omega) (by have : (i : Int) < (2 ^ 63 : Nat) := by exact_mod_cast Nat.lt_trans hl hb
                                                   simpa using this)]
    simp [h1]
  | unknown => rw [hg] at h; simp at h
  | duplicate => rw [hg] at h; simp at h
  | ambiguous => rw [hg] at h; simp at h

/-- C129: a value below zero, which is none of the list, is shown as the first name. -/
theorem C129_negative_refuted (w : Str) (names : List Str) (ex nc co : Bool) :
    getOpt (.enum (w :: names) true 4 ex nc co) 0 (storeI 4 rec0 0 (-1)) = some (.str w) := by
  simp only [getOpt]
  unfold getEnum
  rw [if_pos (by decide), load_store]
  rfl

/-- The hypotheses of `C129_round_partial` are met: the output modes of a query, abbreviated. -/
example : Only false false (asc "js") [asc "rows", asc "arrays", asc "json", asc "list"] 2 ∧ InRange true 4 (2 : Nat) ∧
    (0 : UInt8) ∉ asc "js" := by
  refine ⟨⟨⟨asc "json", rfl, ?_⟩, ?_⟩, ?_, by decide +kernel⟩
  · unfold Means
    simp only [Bool.false_eq_true, if_false]
    decide +kernel
  · intro j cc hj hm
    unfold Means at hm
    simp only [Bool.false_eq_true, if_false] at hm
    rcases j with _ | _ | _ | _ | j
    · simp at hj; subst hj; revert hm; decide +kernel
    · simp at hj; subst hj; revert hm; decide +kernel
    · rfl
    · simp at hj; subst hj; revert hm; decide +kernel
    · simp at hj
  · unfold InRange; decide

/-! ### C130 -/

/-- Bit `i` of the 32 bit field is set. -/
def IsOn (r : Rec) (a i : Nat) : Bool := (peek r.raw a 4).testBit i

/-- A word of a set names bit `p.1`, to be set (`p.2`) or, with a `!`, cleared. -/
def Names (names : List Str) (nocase : Bool) (w : Str) (p : Nat × Bool) : Prop :=
  ∃ body, body ≠ [] ∧ (0 : UInt8) ∉ body ∧ Only false nocase body names p.1 ∧
    ((p.2 = true ∧ w = body ∧ body.headD 0 ≠ 33) ∨ (p.2 = false ∧ w = 33 :: body))

/-- The effect of a list of words on bit `i`: the last one that names it decides. -/
def after (on : Nat → Bool) : List (Nat × Bool) → Nat → Bool
  | [] => on
  | p :: l => after (fun i => if i = p.1 then p.2 else on i) l

theorem testBit_bit {n i : Nat} (hn : n < 32) (hi : i < 32) : (bit n).testBit i = decide (i = n) := by
  unfold bit
  rw [Nat.mod_eq_of_lt hn]
  split
  · have key : ∀ i : Fin 32, (2 ^ 64 - 2 ^ 31 : Nat).testBit i.val = decide (i.val = 31) := by decide +kernel
    rename_i h
    rw [h]
    exact key ⟨i, hi⟩
  · rw [Nat.testBit_two_pow]
    by_cases h : n = i
    · simp [h]
    · have : i ≠ n := fun e => h e.symm
      simp [h, this]

theorem testBit_put {m n i : Nat} {on : Bool} (hn : n < 32) (hi : i < 32) :
    (put m n on).testBit i = if i = n then on else m.testBit i := by
  unfold put
  cases on
  · simp only [Bool.false_eq_true, if_false, Nat.testBit_and, Nat.testBit_xor, Nat.testBit_two_pow_sub_one, testBit_bit hn hi]
    by_cases h : i = n
    · simp [h]; intro _; omega
    · simp [h]; intro _; omega
  · simp only [if_true, Nat.testBit_or, testBit_bit hn hi]
    by_cases h : i = n <;> simp [h]

theorem neg_of {w : Str} {p : Nat × Bool} {names : List Str} {nc : Bool} (h : Names names nc w p) :
    ∃ body, body ≠ [] ∧ (0 : UInt8) ∉ body ∧ Only false nc body names p.1 ∧ neg w = (!p.2, body) := by
  obtain ⟨body, h1, h2, h3, ⟨h4, rfl, h6⟩ | ⟨h4, rfl⟩⟩ := h
  · refine ⟨w, h1, h2, h3, ?_⟩
    cases w with
    | nil => exact absurd rfl h1
    | cons x t => simp at h6; simp [neg, h6, h4]
  · exact ⟨body, h1, h2, h3, by simp [neg, h4]⟩

theorem Names.nul {w : Str} {p : Nat × Bool} {names : List Str} {nc : Bool} (h : Names names nc w p) : (0 : UInt8) ∉ w := by
  obtain ⟨body, h1, h2, h3, ⟨h4, rfl, h6⟩ | ⟨h4, rfl⟩⟩ := h
  · exact h2
  · simp [h2]

theorem Only.lt {ex nc : Bool} {w : Str} {names : List Str} {i : Nat} (h : Only ex nc w names i) : i < names.length := by
  obtain ⟨⟨c, h, -⟩, -⟩ := h
  rw [List.getElem?_eq_some_iff] at h
  exact h.1

theorem elem1_names {w : Str} {p : Nat × Bool} {names : List Str} {nc : Bool} (h : Names names nc w p) (m : Nat) :
    elem1 names nc w m = some (put m p.1 p.2) := by
  obtain ⟨body, h1, h2, h3, h4⟩ := neg_of h
  unfold elem1
  rw [h4]
  simp only [C61_unique false nc body h1 names _ h3, Bool.not_not]

theorem bitsOfElems_names {names : List Str} {nc : Bool} : ∀ {ws : List Str} {ps : List (Nat × Bool)},
    List.Forall₂ (Names names nc) ws ps → ∀ m, bitsOfElems names nc (ws.map some) m =
      some (ps.foldl (fun m p => put m p.1 p.2) m)
  | _, _, .nil, m => rfl
  | _, _, .cons h hs, m => by
    rw [List.map_cons, bitsOfElems]
    rw [cstr_id h.nul, elem1_names h]
    exact bitsOfElems_names hs _

theorem testBit_fold {names : List Str} {nc : Bool} (hl : names.length ≤ 32) :
    ∀ {ws : List Str} {ps : List (Nat × Bool)}, List.Forall₂ (Names names nc) ws ps → ∀ (m i : Nat) (on : Nat → Bool),
      i < 32 → (∀ j, j < 32 → m.testBit j = on j) → (ps.foldl (fun m p => put m p.1 p.2) m).testBit i = after on ps i
  | _, _, .nil, m, i, on, hi, h => h i hi
  | _, _, .cons (b := p) hp hs, m, i, on, hi, h => by
    obtain ⟨body, -, -, h3, -⟩ := hp
    have hlt : p.1 < 32 := Nat.lt_of_lt_of_le h3.lt hl
    rw [List.foldl_cons, after]
    apply testBit_fold hl hs _ i _ hi
    intro j hj
    rw [testBit_put hlt hj, h j hj]

theorem peek_store (r : Rec) (n a m : Nat) : peek (storeI n r a m).raw a n = m % 2 ^ (8 * n) := by
  unfold storeI
  simp only [peek_poke]
  have : wrapU n (m : Int) = m % 2 ^ (8 * n) := by
    unfold wrapU
    have : ((m : Int) % ((2 ^ (8 * n) : Nat) : Int)) = ((m % 2 ^ (8 * n) : Nat) : Int) := by push_cast; rfl
    rw [this, Int.toNat_natCast]
  rw [this, ← pow8, Nat.mod_mod]

theorem isOn_store (r : Rec) (a m i : Nat) (hi : i < 32) : IsOn (storeI 4 r a m) a i = m.testBit i := by
  unfold IsOn
  rw [peek_store, Nat.testBit_mod_two_pow]
  simp; intro; omega

/-- Words of an array are not the lone `=`. -/
theorem Names.ne_eq {w : Str} {p : Nat × Bool} {names : List Str} {nc : Bool} (hne : ∀ x ∈ names, x ≠ [] → x.headD 0 ≠ 61)
    (h : Names names nc w p) : w ≠ [61] := by
  obtain ⟨body, h1, h2, ⟨⟨c, hc, hm⟩, -⟩, ⟨h4, rfl, h6⟩ | ⟨h4, rfl⟩⟩ := h
  · rintro rfl
    have hp : low0 c = low0 [61] := hm.low (by simp)
    have hc' : c ≠ [] := by
      rintro rfl
      revert hp; decide
    have := hne c (List.mem_of_getElem? hc) hc'
    unfold low0 at hp
    apply this
    revert hp
    simp only [List.headD_cons]
    have e : ∀ x : Fin 256, tolower (UInt8.ofNat x.val) = tolower 61 → UInt8.ofNat x.val = 61 := by decide +kernel
    intro hh
    have := e ⟨(c.headD 0).toNat, (c.headD 0).toNat_lt⟩
    simp only [UInt8.ofNat_toNat] at this
    exact this hh
  · simp

/-- C130: a bit set of 32 bits given an array of words changes exactly the bits they name. -/
theorem C130_array (c : Call) (names : List Str) (nc : Bool) (a : Nat) (r : Rec) (ws : List Str)
    (ps : List (Nat × Bool)) (hc : c.incr = false) (hl : names.length ≤ 32) (hne : ∀ x ∈ names, x ≠ [] → x.headD 0 ≠ 61)
    (hw : List.Forall₂ (Names names nc) ws ps) (hws : ws ≠ []) :
    (setOpt c (.bitset names 4 nc) a (.arr (ws.map some)) r).2 = .ok ∧
    ∀ i, i < 32 → IsOn (setOpt c (.bitset names 4 nc) a (.arr (ws.map some)) r).1 a i = after (IsOn r a) ps i := by
  have hb : bitsOfArr names nc (peek r.raw a 4) (ws.map some) = some (ps.foldl (fun m p => put m p.1 p.2) (peek r.raw a 4)) := by
    cases hw with
    | nil => exact absurd rfl hws
    | cons h hs =>
      rw [List.map_cons, bitsOfArr, cstr_id h.nul, if_neg (h.ne_eq hne)]
      exact bitsOfElems_names (.cons h hs) _
  have e : setOpt c (.bitset names 4 nc) a (.arr (ws.map some)) r =
      (storeI 4 (storeI 1 r a (ps.foldl (fun m p => put m p.1 p.2) (peek r.raw a 4) : Nat)) a
        (ps.foldl (fun m p => put m p.1 p.2) (peek r.raw a 4) : Nat), .ok) := by
    simp only [setOpt, setLeaf, setBitset, hb]
    simp [fin, hc]
  rw [e]
  refine ⟨rfl, fun i hi => ?_⟩
  rw [isOn_store _ _ _ _ hi]
  exact testBit_fold hl hw _ i _ hi (fun j _ => rfl)

/-- C130: with `=` as first element the other bits are cleared; an empty array clears all. -/
theorem C130_array_only (c : Call) (names : List Str) (nc : Bool) (a : Nat) (r : Rec) (ws : List Str)
    (ps : List (Nat × Bool)) (hc : c.incr = false) (hl : names.length ≤ 32)
    (hw : List.Forall₂ (Names names nc) ws ps) (l : List (Option Str)) (hx : l = some [61] :: ws.map some ∨ (l = [] ∧ ps = [])) :
    (setOpt c (.bitset names 4 nc) a (.arr l) r).2 = .ok ∧
    ∀ i, i < 32 → IsOn (setOpt c (.bitset names 4 nc) a (.arr l) r).1 a i = after (fun _ => false) ps i := by
  have hb : bitsOfArr names nc (peek r.raw a 4) l = some (ps.foldl (fun m p => put m p.1 p.2) 0) := by
    rcases hx with rfl | ⟨rfl, rfl⟩
    · rw [bitsOfArr, if_pos (by decide)]
      exact bitsOfElems_names hw _
    · rfl
  have e : setOpt c (.bitset names 4 nc) a (.arr l) r =
      (storeI 4 (storeI 1 r a (ps.foldl (fun m p => put m p.1 p.2) 0 : Nat)) a
        (ps.foldl (fun m p => put m p.1 p.2) 0 : Nat), .ok) := by
    simp only [setOpt, setLeaf, setBitset, hb]
    simp [fin, hc]
  rw [e]
  refine ⟨rfl, fun i hi => ?_⟩
  rw [isOn_store _ _ _ _ hi]
  exact testBit_fold hl hw _ i _ hi (fun j _ => by simp)

/-- The names whose bit is set. -/
def onNames (on : Nat → Bool) : Nat → List Str → List (Option Str)
  | _, [] => []
  | i, w :: l => if on i then some w :: onNames on (i + 1) l else onNames on (i + 1) l

/-- C130: reading a bit set gives the names of the bits that are set, in the order of the list. -/
theorem C130_read (names : List Str) (nc : Bool) (a : Nat) (r : Rec) (hl : names.length ≤ 32) :
    getOpt (.bitset names 4 nc) a r = some (.arr (onNames (IsOn r a) 0 names)) := by
  have key : ∀ (l : List Str) (i : Nat), i + l.length ≤ 32 →
      bitNames (peek r.raw a 4) i l = onNames (IsOn r a) i l := by
    intro l
    induction l with
    | nil => intro i _; rfl
    | cons w l ih =>
      intro i h
      rw [List.length_cons] at h
      rw [bitNames, onNames, ih (i + 1) (by omega), Nat.mod_eq_of_lt (by omega)]
      rfl
  simp only [getOpt]
  rw [key names 0 (by omega)]

/-- What `trace` can be set to (src/jsiInterp.c:78). -/
def traceNames : List Str :=
  [asc "funcs", asc "cmds", asc "new", asc "return", asc "args", asc "notrunc", asc "noparent", asc "full", asc "before"]

/-- C130: an object of names changes only the bits of the first byte: `conf({traceCall:{before:true}})` is accepted and
does nothing, while `["before"]` sets it. -/
theorem C130_object_refuted (nc : Bool) :
    (setOpt {} (.bitset traceNames 4 nc) 0 (.obj (.cons (asc "before") (.bool true) .nil)) rec0).2 = .ok ∧
    (∀ i, i < 32 → IsOn (setOpt {} (.bitset traceNames 4 nc) 0 (.obj (.cons (asc "before") (.bool true) .nil)) rec0).1 0 i
      = false) ∧
    IsOn (setOpt {} (.bitset traceNames 4 nc) 0 (.arr [some (asc "before")]) rec0).1 0 8 = true := by
  cases nc <;> refine ⟨by decide +kernel, ?_, by decide +kernel⟩ <;>
  · intro i hi
    have key : ∀ nc, ∀ i : Fin 32, IsOn (setOpt {} (.bitset traceNames 4 nc) 0
      (.obj (.cons (asc "before") (.bool true) .nil)) rec0).1 0 i.val = false := by decide +kernel
    exact key _ ⟨i, hi⟩

/-- C130: `null` for a bit set inside a group that is reset follows a null pointer. -/
theorem C130_reset_refuted (c : Call) (names : List Str) (n : Nat) (nc : Bool) (name : Str) (off b : Nat) (fl : SFlags)
    (r : Rec) : (process c (.cons name off fl (.bitset names n nc) .nil) b (some .null) r).2 = .crash := by
  simp [process, resetAll, resetOpt]

/-- C130: a bit set in a field of one byte shows bits of the next field. -/
theorem C130_narrow_refuted : getOpt (.bitset traceNames 1 false) 0 (storeI 1 rec0 1 1) =
    some (.arr [some (asc "before")]) := by
  have e : bitNames (peek (storeI 1 rec0 1 1).raw 0 4) 0 traceNames = [some (asc "before")] := by decide +kernel
  simp only [getOpt, e]

/-- The hypotheses of `C130_array` are met. -/
example : List.Forall₂ (Names [asc "bug", asc "warn", asc "error"] false) [asc "warn", asc "!bug"] [(1, true), (0, false)] := by
  refine .cons ⟨asc "warn", by decide, by decide +kernel, ⟨⟨asc "warn", rfl, ?_⟩, ?_⟩, Or.inl ⟨rfl, rfl, by decide +kernel⟩⟩
    (.cons ⟨asc "bug", by decide, by decide +kernel, ⟨⟨asc "bug", rfl, ?_⟩, ?_⟩, Or.inr ⟨rfl, by decide +kernel⟩⟩ .nil)
  · simp [Means]
  · intro j cc hj hm
    simp only [Means, Bool.false_eq_true, if_false] at hm
    rcases j with _ | _ | _ | j
    · simp at hj; subst hj; revert hm; decide +kernel
    · rfl
    · simp at hj; subst hj; revert hm; decide +kernel
    · simp at hj
  · simp [Means]
  · intro j cc hj hm
    simp only [Means, Bool.false_eq_true, if_false] at hm
    rcases j with _ | _ | _ | j
    · rfl
    · simp at hj; subst hj; revert hm; decide +kernel
    · simp at hj; subst hj; revert hm; decide +kernel
    · simp at hj

end Verif.Opt
