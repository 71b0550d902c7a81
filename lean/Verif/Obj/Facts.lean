import Verif.Obj.Fine
import Verif.Json.Gen

/-! Basic facts. -/

namespace Verif.Obj

/-! ### Trees -/

theorem before_irrefl : ∀ a, before a a = false
  | [] => rfl
  | c :: a => by simp [before, before_irrefl a]

theorem before_trans : ∀ {a b c}, before a b = true → before b c = true → before a c = true
  | [], [], c, h1, _ => by simp [before] at h1
  | [], y :: b, [], _, h2 => by simp [before] at h2
  | [], y :: b, z :: c, _, _ => by simp [before]
  | x :: a, [], c, h1, _ => by simp [before] at h1
  | x :: a, y :: b, [], _, h2 => by simp [before] at h2
  | x :: a, y :: b, z :: c, h1, h2 => by
    simp only [before, Bool.or_eq_true, decide_eq_true_eq, Bool.and_eq_true, beq_iff_eq] at h1 h2 ⊢
    rcases h1 with h1 | ⟨h1, h1'⟩ <;> rcases h2 with h2 | ⟨h2, h2'⟩
    · left; exact UInt8.lt_trans h1 h2
    · left; rw [← h2]; exact h1
    · left; rw [h1]; exact h2
    · right; exact ⟨h1.trans h2, before_trans h1' h2'⟩

theorem before_total : ∀ {a b}, a ≠ b → before a b = false → before b a = true
  | [], [], h, _ => absurd rfl h
  | [], y :: b, _, h2 => by simp [before] at h2
  | x :: a, [], _, _ => by simp [before]
  | x :: a, y :: b, h, h2 => by
    simp only [before, Bool.or_eq_false_iff, decide_eq_false_iff_not, Bool.and_eq_false_iff, beq_eq_false_iff_ne, Bool.or_eq_true,
      decide_eq_true_eq, Bool.and_eq_true, beq_iff_eq] at h2 ⊢
    by_cases e : x = y
    · subst e
      right
      refine ⟨rfl, before_total (fun e => h (by rw [e])) ?_⟩
      rcases h2.2 with h | h
      · exact absurd rfl h
      · exact h
    · left
      rcases UInt8.lt_or_lt_of_ne e with h | h
      · exact absurd h h2.1
      · exact h

theorem before_ne {a b} (h : before a b = true) : a ≠ b := by
  intro e; subst e; rw [before_irrefl] at h; cases h

/-- Keys in ascending order. -/
def Sorted (t : List Ent) : Prop := t.Pairwise (fun a b => before a.key b.key = true)

theorem treeGet_nil (k) : treeGet [] k = none := rfl

theorem treeGet_cons (e : Ent) (t k) : treeGet (e :: t) k = if e.key = k then some e.cell else treeGet t k := by
  by_cases h : e.key = k
  · simp [treeGet, List.find?, h]
  · have h' : (e.key == k) = false := beq_eq_false_iff_ne.2 h
    simp only [treeGet, List.find?, h', h, if_false]

theorem treeGet_set (k c hid) : ∀ t k', treeGet (treeSet k c hid t) k' = if k' = k then some c else treeGet t k'
  | [], k' => by
    simp only [treeSet, treeGet_cons, treeGet_nil]
    by_cases h : k' = k
    · simp [h]
    · have h2 : ¬ k = k' := fun e => h e.symm
      simp only [h, h2, if_false]
  | e :: t, k' => by
    rw [treeSet]
    split
    · next h =>
      rw [treeGet_cons, treeGet_cons]
      by_cases h' : k' = k
      · simp [h']
      · have h2 : ¬ k = k' := fun e => h' e.symm
        have h3 : ¬ e.key = k' := fun e' => h2 (h ▸ e')
        simp only [h', h2, h3, if_false]
    · next h =>
      split
      · rw [treeGet_cons]
        by_cases h' : k' = k
        · simp [h']
        · have h2 : ¬ k = k' := fun e => h' e.symm
          simp only [h', h2, if_false]
      · rw [treeGet_cons, treeGet_set k c hid t k', treeGet_cons]
        by_cases h' : k' = k
        · have h2 : ¬ e.key = k' := fun e' => h (e'.trans h')
          rw [if_neg h2, if_pos h']; simp [h']
        · simp only [h', if_false]

theorem treeGet_del (t : List Ent) (k k') : treeGet (treeDel t k) k' = if k' = k then none else treeGet t k' := by
  induction t with
  | nil => simp [treeDel, treeGet]
  | cons e t ih =>
    rw [treeGet_cons]
    by_cases h : e.key = k
    · have h1 : treeDel (e :: t) k = treeDel t k := by simp [treeDel, List.filter_cons, h]
      rw [h1, ih]
      by_cases h' : k' = k
      · simp [h']
      · have : ¬ e.key = k' := fun e' => h' (e'.symm.trans h)
        simp only [h', this, if_false]
    · have h1 : treeDel (e :: t) k = e :: treeDel t k := by simp [treeDel, List.filter_cons, h]
      rw [h1, treeGet_cons, ih]
      by_cases h' : e.key = k'
      · have : ¬ k' = k := fun e' => h (h'.trans e')
        simp only [h', this, if_true, if_false]
      · simp only [h', if_false]

theorem treeGet_mem {t : List Ent} {k c} (h : treeGet t k = some c) : ∃ e ∈ t, e.key = k ∧ e.cell = c := by
  induction t with
  | nil => cases h
  | cons e t ih =>
    rw [treeGet_cons] at h
    split at h
    · next h' => exact ⟨e, List.mem_cons_self, h', Option.some.inj h⟩
    · obtain ⟨e', h1, h2⟩ := ih h
      exact ⟨e', List.mem_cons_of_mem _ h1, h2⟩

theorem treeGet_none {t : List Ent} {k} : treeGet t k = none ↔ ∀ e ∈ t, e.key ≠ k := by
  induction t with
  | nil => simp [treeGet]
  | cons e t ih =>
    rw [treeGet_cons]
    by_cases h : e.key = k
    · simp [h]
    · simp [h, ih]

theorem treeGet_of_mem {t : List Ent} (hs : Sorted t) {e} (he : e ∈ t) : treeGet t e.key = some e.cell := by
  induction t with
  | nil => cases he
  | cons d t ih =>
    rw [treeGet_cons]
    rcases List.mem_cons.1 he with h | h
    · subst h; simp
    · have hs' := List.pairwise_cons.1 hs
      rw [if_neg (before_ne (hs'.1 e h))]
      exact ih hs'.2 h

theorem treeSet_mem {k c hid} : ∀ {t : List Ent} {e}, e ∈ treeSet k c hid t → e.key = k ∧ e.cell = c ∨ e ∈ t
  | [], e, h => by simp only [treeSet, List.mem_singleton] at h; subst h; exact Or.inl ⟨rfl, rfl⟩
  | d :: t, e, h => by
    rw [treeSet] at h
    split at h
    · rcases List.mem_cons.1 h with h | h
      · subst h; exact Or.inl ⟨rfl, rfl⟩
      · exact Or.inr (List.mem_cons_of_mem _ h)
    · split at h
      · rcases List.mem_cons.1 h with h | h
        · subst h; exact Or.inl ⟨rfl, rfl⟩
        · exact Or.inr h
      · rcases List.mem_cons.1 h with h | h
        · subst h; exact Or.inr List.mem_cons_self
        · rcases treeSet_mem h with h | h
          · exact Or.inl h
          · exact Or.inr (List.mem_cons_of_mem _ h)

theorem treeSet_keys {k c hid} {t : List Ent} {e} (h : e ∈ treeSet k c hid t) : e.key = k ∨ ∃ d ∈ t, d.key = e.key := by
  rcases treeSet_mem h with h | h
  · exact Or.inl h.1
  · exact Or.inr ⟨e, h, rfl⟩

theorem sorted_set {k c hid} : ∀ {t : List Ent}, Sorted t → Sorted (treeSet k c hid t)
  | [], _ => List.pairwise_singleton _ _
  | d :: t, hs => by
    have hs' := List.pairwise_cons.1 hs
    rw [treeSet]
    split
    · next h => exact List.pairwise_cons.2 ⟨fun e he => h ▸ hs'.1 e he, hs'.2⟩
    · next h =>
      split
      · next hb =>
        refine List.pairwise_cons.2 ⟨fun e he => ?_, hs⟩
        rcases List.mem_cons.1 he with h | h
        · subst h; exact hb
        · exact before_trans hb (hs'.1 e h)
      · next hb =>
        refine List.pairwise_cons.2 ⟨fun e he => ?_, sorted_set hs'.2⟩
        rcases treeSet_keys he with h' | ⟨d', hd, h'⟩
        · rw [h']; exact before_total (Ne.symm h) (by simpa using hb)
        · rw [← h']; exact hs'.1 d' hd

theorem sorted_del {t : List Ent} (k) (hs : Sorted t) : Sorted (treeDel t k) := hs.filter _

/-! ### Index strings -/

theorem digits_append (b : Nat) : ∀ (l r : Bytes) (acc), (∀ c ∈ l, hexval c < b) → digits b acc (l ++ r) = digits b (digits b acc l) r
  | [], r, acc, _ => rfl
  | c :: l, r, acc, h => by
    have hc := h c List.mem_cons_self
    simp only [List.cons_append, digits, hc, if_true]
    exact digits_append b l r _ (fun d hd => h d (List.mem_cons_of_mem _ hd))

theorem isdig_val : ∀ n < 10, isdigit (UInt8.ofNat (48 + n)) = true ∧ hexval (UInt8.ofNat (48 + n)) = n := by decide

theorem decNat_dig (n : Nat) : ∀ c ∈ Json.decNat n, isdigit c = true ∧ hexval c < 10 := by
  induction n using Nat.strongRecOn with
  | ind n ih =>
    intro c hc
    rw [Json.decNat] at hc
    split at hc
    · next h => rw [List.mem_singleton] at hc; subst hc; have := isdig_val n h; exact ⟨this.1, by omega⟩
    · rcases List.mem_append.1 hc with h | h
      · exact ih _ (by omega) c h
      · rw [List.mem_singleton] at h; subst h
        have := isdig_val (n % 10) (by omega); exact ⟨this.1, by omega⟩

theorem digits_decNat (n : Nat) : digits 10 0 (Json.decNat n) = n := by
  induction n using Nat.strongRecOn with
  | ind n ih =>
    rw [Json.decNat]
    split
    · next h => have := isdig_val n h; simp only [digits, this.2, h, if_true]; omega
    · have h2 := isdig_val (n % 10) (by omega)
      rw [digits_append _ _ _ _ (fun c hc => (decNat_dig _ c hc).2), ih _ (by omega)]
      simp only [digits, h2.2]
      rw [if_pos (by omega)]; omega

theorem decNat_inj {m n : Nat} (h : Json.decNat m = Json.decNat n) : m = n := by
  rw [← digits_decNat m, h, digits_decNat]

theorem indexKey_dec (n : Nat) : indexKey (Json.decNat n) = some n := by
  simp [indexKey, digits_decNat]

theorem indexKey_some {k i} (h : indexKey k = some i) : k = Json.decNat i := by
  rw [indexKey] at h
  split at h
  · next h' => rw [← Option.some.inj h]; exact h'
  · cases h

theorem decNat_cons (n : Nat) : ∃ c r, Json.decNat n = c :: r ∧ isdigit c = true := by
  cases h : Json.decNat n with
  | nil => exact absurd h (Json.decNat_ne n)
  | cons c r => exact ⟨c, r, rfl, (decNat_dig n c (by rw [h]; simp)).1⟩

theorem digitStart_dec (n : Nat) : digitStart (Json.decNat n) = true := by
  obtain ⟨c, r, h, hc⟩ := decNat_cons n
  rw [h]; exact hc

theorem indexKey_nodigit {k} (h : digitStart k = false) : indexKey k = none := by
  cases e : indexKey k with
  | none => rfl
  | some i => rw [indexKey_some e, digitStart_dec] at h; cases h

/-- The first digit is 0 only for 0. -/
theorem decNat_zero {n : Nat} {r} (h : Json.decNat n = 48 :: r) : n = 0 ∧ r = [] := by
  induction n using Nat.strongRecOn generalizing r with
  | ind n ih =>
    rw [Json.decNat] at h
    split at h
    · next hn =>
      injection h with h1 h2
      refine ⟨?_, h2.symm⟩
      revert h1 hn; clear h2 ih
      have : ∀ m < 10, UInt8.ofNat (48 + m) = 48 → m = 0 := by decide
      intro hn h1; exact this n hn h1
    · next hn =>
      exfalso
      cases e : Json.decNat (n / 10) with
      | nil => exact Json.decNat_ne _ e
      | cons c t =>
        rw [e] at h
        injection h with h1 h2
        subst h1
        have := ih _ (by omega) e
        omega

theorem strtol0_dec (n : Nat) : strtol0 (Json.decNat n) = min n (2 ^ 63 - 1) := by
  have e : ∀ k, strtol0 k = min (match k with
    | 48 :: x :: h :: r => if (x = 120 ∨ x = 88) ∧ hexval h < 16 then digits 16 0 (h :: r) else digits 8 0 k
    | 48 :: _ => digits 8 0 k
    | _ => digits 10 0 k) (2 ^ 63 - 1) := fun k => by unfold strtol0; rfl
  rw [e]
  congr 1
  split
  · next x h r e => have := decNat_zero e; simp at this
  · next r e =>
    obtain ⟨h1, h2⟩ := decNat_zero e
    rw [e, h2, h1]; decide
  · exact digits_decNat n

theorem idxOf_dec {n : Nat} (h : n < 2 ^ 31) : idxOf (Json.decNat n) = some n := by
  rw [idxOf, strtol0_dec]
  have h1 : min n (2 ^ 63 - 1) % 2 ^ 32 = n := by omega
  rw [h1, if_pos h]

theorem name_nat (i : Int) (h : 0 ≤ i) : (Key.n i).name = Json.decNat i.toNat := by
  have : ¬ i < 0 := by omega
  simp only [Key.name, Json.dec, this, if_false]
  congr 1; omega

/-! ### Cells -/

/-- Pointer of a property in the tree of an object. -/
def tcell (s : St) (o : Nat) (k : Bytes) : Option Nat := (s.objs[o]?).bind fun ob => treeGet ob.tree k

/-- Pointer of an element of an array. -/
def Ob.elem (ob : Ob) (i : Nat) : Option Nat := if i < ob.cnt then ((ob.arr.getD [])[i]?).getD none else none

def acell (s : St) (o : Nat) (i : Nat) : Option Nat := (s.objs[o]?).bind fun ob => ob.elem i

/-- Own property as ECMAScript sees it. -/
def Ob.own (ob : Ob) (k : Bytes) : Option Nat :=
  if ob.isarr then
    match indexKey k with
    | some i => ob.elem i
    | none => treeGet ob.tree k
  else treeGet ob.tree k

def ownCell (s : St) (o : Nat) (k : Bytes) : Option Nat := (s.objs[o]?).bind fun ob => ob.own k

theorem at_wr (s : St) (c : Nat) (v : FV) (d : Nat) (h : c < s.cells.length) : (s.wr c v).at d = if d = c then v else s.at d := by
  simp only [St.at, St.wr, List.getElem?_set]
  by_cases e : d = c
  · subst e; simp [h]
  · have : ¬ c = d := fun e' => e e'.symm
    simp [e, this]

theorem at_alloc_lt (s : St) (v : FV) {c} (h : c < s.cells.length) : (s.alloc v).at c = s.at c := by
  simp [St.at, St.alloc, List.getElem?_append_left h]

theorem at_alloc_new (s : St) (v : FV) : (s.alloc v).at s.cells.length = v := by
  simp [St.at, St.alloc]

theorem at_mem {s : St} {c} (h : c < s.cells.length) : s.at c ∈ s.cells := by
  simp [St.at, List.getElem?_eq_getElem h]

end Verif.Obj
