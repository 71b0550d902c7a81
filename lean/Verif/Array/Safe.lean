import Verif.Array.World

/-!
Memory safety of the array methods: with `arrCnt ≤ arrMaxSize` no method leaves the vector, whatever
its arguments, and the relation is kept.
-/

namespace Verif.Array

variable {V : Type}

/-- `arrCnt ≤ arrMaxSize`. -/
def Arr.Safe (a : Arr) : Prop := a.cnt ≤ a.mem.length

theorem safe_sizeOf {a : Arr} (h : a.Safe) : sizeOf a ≤ a.mem.length ∧ sizeOf a ≤ a.cnt := by
  unfold sizeOf
  unfold Arr.Safe at h
  split <;> omega

theorem safe_new : Arr.new.Safe := Nat.le_refl _

theorem rd_ok (m : List (Option Nat)) {i : Nat} (h : i < m.length) : ∃ c, rd m i = some c :=
  ⟨m[i], List.getElem?_eq_getElem h⟩

theorem wr_ok (m : List (Option Nat)) {i : Nat} (c : Option Nat) (h : i < m.length) :
    ∃ m', wr m i c = some m' ∧ m'.length = m.length :=
  ⟨m.set i c, if_pos h, List.length_set⟩

theorem memmove_ok (m : List (Option Nat)) {d s n : Nat} (h1 : s + n ≤ m.length)
    (h2 : d + n ≤ m.length) : ∃ m', memmove m d s n = some m' ∧ m'.length = m.length := by
  refine ⟨_, if_pos ⟨h1, h2⟩, ?_⟩
  simp only [List.length_append, List.length_take, List.length_drop]
  omega

theorem sizer_safe {M : Nat} {a a' : Arr} {len : Nat} (h : sizer M a len = some a') (hs : a.Safe) :
    a'.Safe ∧ len < a'.mem.length ∧ a.mem.length ≤ a'.mem.length := by
  unfold sizer at h
  split at h
  · cases h
  · cases h
    have hr : len < roundUp len := by unfold roundUp; simp only []; omega
    unfold Arr.Safe at *
    simp only []
    split <;> split <;> (try simp only [List.length_append, List.length_replicate]) <;> omega

theorem setLength_ok (a : Arr) {n : Nat} (h : n ≤ a.mem.length) :
    ∃ a', setLength a n = some a' ∧ a'.Safe ∧ a'.mem = a.mem :=
  ⟨_, if_pos h, h, rfl⟩

theorem objArraySet_safe (M : Nat) (a : Arr) (p n : Nat) (hs : a.Safe) :
    ∃ a', objArraySet M a p n = some a' ∧ a'.Safe := by
  unfold objArraySet
  cases h1 : sizer M a (n + 1) with
  | none => exact ⟨a, rfl, hs⟩
  | some a1 =>
    obtain ⟨s1, s2, _⟩ := sizer_safe h1 hs
    obtain ⟨c, hc⟩ := rd_ok a1.mem (i := n) (by omega)
    obtain ⟨m, hm, hl⟩ := wr_ok a1.mem (i := n) (some p) (by omega)
    simp only [hc, Option.bind_eq_bind, Option.bind_some]
    split
    · exact ⟨a1, rfl, s1⟩
    · simp only [hm, Option.bind_some]
      split
      · obtain ⟨a', e, s', _⟩ := setLength_ok ⟨m, a1.cnt⟩ (n := n + 1) (by simp only; omega)
        exact ⟨a', e, s'⟩
      · refine ⟨_, rfl, ?_⟩
        unfold Arr.Safe at *
        simp only; omega

theorem pushLoop_safe (M n : Nat) (ps : List Nat) : ∀ (a : Arr) (i : Nat), a.Safe →
    ∃ a', pushLoop M n a i ps = some a' ∧ a'.Safe := by
  induction ps with
  | nil => intro a i hs; exact ⟨a, rfl, hs⟩
  | cons p ps ih =>
    intro a i hs
    have : ∃ a', insertArray M a (n + i) p = some a' ∧ a'.Safe := by
      unfold insertArray
      split
      · exact objArraySet_safe M a p _ hs
      · exact ⟨a, rfl, hs⟩
    obtain ⟨a1, e1, s1⟩ := this
    obtain ⟨a2, e2, s2⟩ := ih a1 (i + 1) s1
    exact ⟨a2, by rw [pushLoop, e1]; exact e2, s2⟩

theorem push_safe (M : Nat) (h : Heap V) (a : Arr) (args : List Nat) (hs : a.Safe) :
    ∃ o, push M h a args = some o ∧ o.arr.Safe := by
  obtain ⟨a', e, s'⟩ := pushLoop_safe M (sizeOf a) args a 0 hs
  exact ⟨_, by rw [push, e]; rfl, s'⟩

theorem pop_safe (h : Heap V) (a : Arr) (hs : a.Safe) :
    ∃ o, pop h a = some o ∧ o.arr.Safe := by
  have hz := safe_sizeOf hs
  rw [pop]
  split
  · exact ⟨_, rfl, hs⟩
  · rename_i hne
    obtain ⟨v, hv⟩ := rd_ok a.mem (i := sizeOf a - 1) (by omega)
    simp only [hv, Option.bind_eq_bind, Option.bind_some]
    cases v with
    | none =>
      obtain ⟨a2, e2, s2, _⟩ := setLength_ok a (n := sizeOf a - 1) (by omega)
      simp only [Option.isSome_none, Bool.false_eq_true, if_false, Option.bind_some, e2]
      exact ⟨_, rfl, s2⟩
    | some p =>
      obtain ⟨m, hm, hl⟩ := wr_ok a.mem (i := sizeOf a - 1) none (by omega)
      obtain ⟨a2, e2, s2, _⟩ := setLength_ok ⟨m, a.cnt - 1⟩ (n := sizeOf a - 1) (by simp only; omega)
      simp only [Option.isSome_some, if_true, hm, Option.map_some, Option.bind_some, e2]
      exact ⟨_, rfl, s2⟩

theorem shift_safe (h : Heap V) (a : Arr) (hs : a.Safe) :
    ∃ o, shift h a = some o ∧ o.arr.Safe := by
  have hz := safe_sizeOf hs
  rw [shift]
  split
  · exact ⟨_, rfl, hs⟩
  · rename_i hne
    obtain ⟨v, hv⟩ := rd_ok a.mem (i := 0) (by omega)
    obtain ⟨m, hm, hl⟩ := memmove_ok a.mem (d := 0) (s := 1) (n := sizeOf a - 1) (by omega) (by omega)
    obtain ⟨m', hm', hl'⟩ := wr_ok m (i := sizeOf a - 1) none (by omega)
    simp only [hv, hm, hm', Option.bind_eq_bind, Option.bind_some]
    cases v with
    | none => refine ⟨_, rfl, ?_⟩; unfold Arr.Safe at *; simp only; omega
    | some p =>
      obtain ⟨a2, e2, s2, _⟩ := setLength_ok ⟨m', a.cnt⟩ (n := sizeOf a - 1) (by simp only; omega)
      simp only [e2, Option.bind_some]
      exact ⟨_, rfl, s2⟩

theorem storeLoop_safe (ps : List Nat) : ∀ (m : List (Option Nat)) (i : Nat),
    i + ps.length ≤ m.length → ∃ m', storeLoop m i ps = some m' ∧ m'.length = m.length := by
  induction ps with
  | nil => intro m i _; exact ⟨m, rfl, rfl⟩
  | cons p ps ih =>
    intro m i h
    simp only [List.length_cons] at h
    obtain ⟨m1, e1, l1⟩ := wr_ok m (i := i) none (by omega)
    obtain ⟨m2, e2, l2⟩ := wr_ok m1 (i := i) (some p) (by omega)
    obtain ⟨m3, e3, l3⟩ := ih m2 (i + 1) (by omega)
    refine ⟨m3, ?_, by omega⟩
    simp only [storeLoop, e1, e2, Option.bind_eq_bind, Option.bind_some, e3]

theorem unshift_safe (M : Nat) (h : Heap V) (a : Arr) (args : List Nat) (hs : a.Safe) :
    ∃ o, unshift M h a args = some o ∧ o.arr.Safe := by
  have hz := safe_sizeOf hs
  rw [unshift]
  split
  · exact ⟨_, rfl, hs⟩
  · cases h1 : sizer M a (sizeOf a + args.length) with
    | none => exact ⟨_, rfl, hs⟩
    | some a1 =>
      obtain ⟨s1, s2, s3⟩ := sizer_safe h1 hs
      obtain ⟨m, hm, hl⟩ := memmove_ok a1.mem (d := args.length) (s := 0) (n := sizeOf a) (by omega) (by omega)
      obtain ⟨m', hm', hl'⟩ := storeLoop_safe args m 0 (by omega)
      obtain ⟨a2, e2, s2, _⟩ := setLength_ok ⟨m', a1.cnt + args.length⟩ (n := sizeOf a + args.length)
        (by simp only; omega)
      simp only [hm, hm', e2, Option.bind_eq_bind, Option.bind_some]
      exact ⟨_, rfl, s2⟩

theorem assign_safe (M : Nat) (h : Heap V) (a : Arr) (n : Nat) (v : V) (hs : a.Safe) :
    ∃ o, assign M h a n v = some o ∧ o.arr.Safe := by
  rw [assign]
  cases h1 : sizer M a n with
  | none => exact ⟨_, rfl, hs⟩
  | some a1 =>
    obtain ⟨s1, s2, s3⟩ := sizer_safe h1 hs
    obtain ⟨c, hc⟩ := rd_ok a1.mem (i := n) (by omega)
    simp only [hc, Option.bind_eq_bind, Option.bind_some]
    cases c with
    | some p => exact ⟨_, rfl, s1⟩
    | none =>
      obtain ⟨m, hm, hl⟩ := wr_ok a1.mem (i := n) (some h.next) (by omega)
      simp only [hm, Option.bind_some]
      split
      · obtain ⟨a2, e2, s2, _⟩ := setLength_ok ⟨m, a1.cnt⟩ (n := n + 1) (by simp only; omega)
        rw [e2]
        exact ⟨_, rfl, s2⟩
      · refine ⟨_, rfl, ?_⟩
        unfold Arr.Safe at *
        simp only; omega

theorem reverseLoop_safe : ∀ (k : Nat) (m : List (Option Nat)) (i n : Nat),
    i + k ≤ m.length → n < m.length ∨ k = 0 →
    ∃ m', reverseLoop k m i n = some m' ∧ m'.length = m.length := by
  intro k
  induction k with
  | zero => intro m i n _ _; exact ⟨m, rfl, rfl⟩
  | succ k ih =>
    intro m i n h1 h2
    obtain ⟨t, ht⟩ := rd_ok m (i := i) (by omega)
    obtain ⟨o, ho⟩ := rd_ok m (i := n) (by omega)
    obtain ⟨m1, e1, l1⟩ := wr_ok m (i := i) o (by omega)
    obtain ⟨m2, e2, l2⟩ := wr_ok m1 (i := n) t (by omega)
    obtain ⟨m3, e3, l3⟩ := ih m2 (i + 1) (n - 1) (by omega) (by omega)
    refine ⟨m3, ?_, by omega⟩
    simp only [reverseLoop, ht, ho, e1, e2, Option.bind_eq_bind, Option.bind_some, e3]

theorem reverse_safe (h : Heap V) (a : Arr) (hs : a.Safe) :
    ∃ o, reverse h a = some o ∧ o.arr.Safe := by
  unfold Arr.Safe at hs
  obtain ⟨m, e, l⟩ := reverseLoop_safe (a.cnt / 2) a.mem 0 (a.cnt - 1) (by omega) (by omega)
  refine ⟨_, by rw [reverse, e]; rfl, ?_⟩
  unfold Arr.Safe; simp only; omega

theorem dupLoop_safe (src : List (Option Nat)) : ∀ (k : Nat) (h : Heap V) (i : Nat)
    (dst : List (Option Nat)) (j : Nat), i + k ≤ src.length → j + k ≤ dst.length →
    ∃ h' m, dupLoop src k h i dst j = some (h', m) ∧ m.length = dst.length := by
  intro k
  induction k with
  | zero => intro h i dst j _ _; exact ⟨h, dst, rfl, rfl⟩
  | succ k ih =>
    intro h i dst j h1 h2
    obtain ⟨c, hc⟩ := rd_ok src (i := i) (by omega)
    simp only [dupLoop, hc, Option.bind_eq_bind, Option.bind_some]
    cases c with
    | none => exact ih h (i + 1) dst (j + 1) (by omega) (by omega)
    | some p =>
      obtain ⟨m1, e1, l1⟩ := wr_ok dst (i := j) (some h.next) (by omega)
      obtain ⟨h', m2, e2, l2⟩ := ih (h.alloc (h.val p)) (i + 1) m1 (j + 1) (by omega) (by omega)
      simp only [e1, Option.bind_some]
      exact ⟨h', m2, e2, by omega⟩

theorem fillLoop_safe (v : V) : ∀ (k : Nat) (h : Heap V) (i : Nat) (m : List (Option Nat)),
    i + k ≤ m.length → ∃ h' m', fillLoop v k h i m = some (h', m') ∧ m'.length = m.length := by
  intro k
  induction k with
  | zero => intro h i m _; exact ⟨h, m, rfl, rfl⟩
  | succ k ih =>
    intro h i m h1
    obtain ⟨c, hc⟩ := rd_ok m (i := i) (by omega)
    simp only [fillLoop, hc, Option.bind_eq_bind, Option.bind_some]
    cases c with
    | some p => exact ih (h.copy p v) (i + 1) m (by omega)
    | none =>
      obtain ⟨m1, e1, l1⟩ := wr_ok m (i := i) (some h.next) (by omega)
      obtain ⟨h', m2, e2, l2⟩ := ih (h.alloc v) (i + 1) m1 (by omega)
      simp only [e1, Option.bind_some]
      exact ⟨h', m2, e2, by omega⟩

theorem sliceStart_le {n i : Nat} {s : Int} (h : sliceStart n s = some i) : i ≤ n := by
  unfold sliceStart at h
  split at h
  · cases h
  · simp only [] at h
    by_cases h0 : s < 0
    · rw [if_pos h0] at h
      by_cases h1 : (n : Int) + s < 0
      · rw [if_pos h1] at h; cases h
      · rw [if_neg h1] at h; cases h; omega
    · rw [if_neg h0, if_neg h0] at h; cases h; omega

theorem sliceEnd_lt {n j : Nat} {e : Option Int} (hn : n ≠ 0) (h : sliceEnd n e = some j) :
    j < n := by
  unfold sliceEnd at h
  cases e with
  | none => cases h; omega
  | some e =>
    simp only [] at h
    generalize h1 : (if e ≥ (n : Int) then (n : Int) - 1 else e) = e1 at h
    have b1 : e1 < n := by rw [← h1]; split <;> omega
    generalize h2 : (if e1 < 0 then (n : Int) + e1 else e1) = e2 at h
    have b2 : e2 < n := by rw [← h2]; split <;> omega
    by_cases h3 : e2 < 0
    · rw [if_pos h3] at h; cases h
    · rw [if_neg h3] at h; cases h; omega

theorem slice_safe (M : Nat) (h : Heap V) (a : Arr) (st : Int) (e : Option Int) (hs : a.Safe) :
    ∃ o, slice M h a st e = some o ∧ o.arr.Safe ∧ (o.error = false → o.ret.Safe) := by
  have hz := safe_sizeOf hs
  rw [slice]
  cases h1 : sliceStart (sizeOf a) st with
  | none => exact ⟨_, rfl, hs, fun _ => safe_new⟩
  | some i =>
    simp only []
    split
    · exact ⟨_, rfl, hs, fun _ => safe_new⟩
    · rename_i hn
      cases h2 : sliceEnd (sizeOf a) e with
      | none => exact ⟨_, rfl, hs, fun _ => safe_new⟩
      | some j =>
        simp only []
        split
        · exact ⟨_, rfl, hs, fun _ => safe_new⟩
        · cases h3 : sizer M .new (j + 1 - i) with
          | none => exact ⟨_, rfl, hs, fun hh => by cases hh⟩
          | some b =>
            have hj := sliceEnd_lt hn h2
            obtain ⟨s1, s2, _⟩ := sizer_safe h3 safe_new
            obtain ⟨h', m, e1, l1⟩ := dupLoop_safe a.mem (j + 1 - i) h i b.mem 0 (by omega) (by omega)
            obtain ⟨b', e2, s2, _⟩ := setLength_ok ⟨m, b.cnt⟩ (n := j + 1 - i) (by simp only; omega)
            simp only [e1, Option.bind_eq_bind, Option.bind_some, e2]
            exact ⟨_, rfl, hs, fun _ => s2⟩

theorem fill_safe (h : Heap V) (a : Arr) (v : V) (st e : Option Int) (hs : a.Safe) :
    ∃ o, fill h a v st e = some o ∧ o.arr.Safe := by
  have hz := safe_sizeOf hs
  rw [fill]
  cases h1 : fillStart (sizeOf a) st with
  | none => exact ⟨_, rfl, hs⟩
  | some i =>
    simp only []
    split
    · exact ⟨_, rfl, hs⟩
    · rename_i hn
      cases h2 : sliceEnd (sizeOf a) e with
      | none => exact ⟨_, rfl, hs⟩
      | some j =>
        have hj := sliceEnd_lt hn h2
        have hi : i ≤ sizeOf a := by
          cases st with
          | none => cases h1; omega
          | some s => exact sliceStart_le h1
        obtain ⟨h', m, e1, l1⟩ := fillLoop_safe v (j + 1 - i) h i a.mem (by omega)
        simp only [e1, Option.bind_eq_bind, Option.bind_some]
        refine ⟨_, rfl, ?_⟩
        unfold Arr.Safe at *
        simp only; omega

def CArg.Safe : CArg → Prop
  | .arr a => a.Safe
  | .val _ => True

theorem concatLoop_safe (M : Nat) (args : List CArg) : ∀ (h : Heap V) (b : Arr) (c : Nat),
    (∀ x ∈ args, x.Safe) → b.Safe → c ≤ b.mem.length →
    ∃ h' b' c' bad, concatLoop M args h b c c = some (h', b', c', bad) ∧ b'.Safe ∧
      (bad = false → c' ≤ b'.mem.length) := by
  induction args with
  | nil => intro h b c _ hb hc; exact ⟨h, b, c, false, rfl, hb, fun _ => hc⟩
  | cons x args ih =>
    intro h b c hx hb hc
    have hx' : ∀ y ∈ args, y.Safe := fun y hy => hx y (List.mem_cons_of_mem _ hy)
    cases x with
    | arr a =>
      have ha : a.Safe := hx _ (List.mem_cons_self ..)
      rw [concatLoop]
      simp only []
      cases h1 : sizer M b (c + a.cnt) with
      | none => exact ⟨_, _, _, _, rfl, hb, fun hh => by cases hh⟩
      | some b1 =>
        obtain ⟨s1, s2, s3⟩ := sizer_safe h1 hb
        obtain ⟨h', m, e1, l1⟩ := dupLoop_safe a.mem a.cnt h 0 b1.mem c
          (by unfold Arr.Safe at ha; omega) (by omega)
        simp only [e1, Option.bind_eq_bind, Option.bind_some]
        exact ih h' ⟨m, b1.cnt⟩ (c + a.cnt) hx' (by unfold Arr.Safe at *; simp only; omega)
          (by simp only; omega)
    | val p =>
      rw [concatLoop]
      cases h1 : sizer M b (c + 1) with
      | none => exact ⟨_, _, _, _, rfl, hb, fun hh => by cases hh⟩
      | some b1 =>
        obtain ⟨s1, s2, s3⟩ := sizer_safe h1 hb
        obtain ⟨m, e1, l1⟩ := wr_ok b1.mem (i := c) (some h.next) (by omega)
        simp only [e1, Option.bind_eq_bind, Option.bind_some]
        exact ih _ ⟨m, b1.cnt⟩ (c + 1) hx' (by unfold Arr.Safe at *; simp only; omega)
          (by simp only; omega)

theorem concat_safe (M : Nat) (h : Heap V) (a : Arr) (args : List CArg) (hs : a.Safe)
    (hx : ∀ x ∈ args, x.Safe) :
    ∃ o, concat M h a args = some o ∧ o.arr.Safe ∧ (o.error = false → o.ret.Safe) := by
  have hz := safe_sizeOf hs
  rw [concat]
  simp only []
  cases h1 : sizer M .new ((if a.mem.length = 0 then 100 else a.mem.length) + 1) with
  | none => exact ⟨_, rfl, hs, fun hh => by cases hh⟩
  | some b =>
    obtain ⟨s1, s2, _⟩ := sizer_safe h1 safe_new
    have hb : a.mem.length < b.mem.length := by split at s2 <;> omega
    obtain ⟨h', m, e1, l1⟩ := dupLoop_safe a.mem (sizeOf a) h 0 b.mem 0 (by omega) (by omega)
    obtain ⟨h2, b2, c2, bad, e2, s4, s5⟩ := concatLoop_safe M args h' ⟨m, b.cnt⟩ (sizeOf a) hx
      (by unfold Arr.Safe at *; simp only; omega) (by simp only; omega)
    simp only [e1, Option.bind_eq_bind, Option.bind_some, e2]
    cases bad with
    | true => exact ⟨_, rfl, hs, fun hh => by cases hh⟩
    | false =>
      obtain ⟨b3, e3, s3, _⟩ := setLength_ok b2 (n := c2) (s5 rfl)
      simp only [e3, Option.bind_some]
      exact ⟨_, rfl, hs, fun _ => s3⟩

theorem moveLoop_safe : ∀ (k : Nat) (m : List (Option Nat)) (i : Nat) (r : List (Option Nat))
    (j : Nat), i + k ≤ m.length → j + k ≤ r.length →
    ∃ m' r', moveLoop k m i r j = some (m', r') ∧ m'.length = m.length ∧ r'.length = r.length := by
  intro k
  induction k with
  | zero => intro m i r j _ _; exact ⟨m, r, rfl, rfl, rfl⟩
  | succ k ih =>
    intro m i r j h1 h2
    obtain ⟨c, hc⟩ := rd_ok m (i := i) (by omega)
    simp only [moveLoop, hc, Option.bind_eq_bind, Option.bind_some]
    split
    · exact ih m (i + 1) r (j + 1) (by omega) (by omega)
    · obtain ⟨r1, e1, l1⟩ := wr_ok r (i := j) c (by omega)
      obtain ⟨m1, e2, l2⟩ := wr_ok m (i := i) none (by omega)
      obtain ⟨m2, r2, e3, l3, l4⟩ := ih m1 (i + 1) r1 (j + 1) (by omega) (by omega)
      simp only [e1, e2, Option.bind_some]
      exact ⟨m2, r2, e3, by omega, by omega⟩

theorem downLoop_safe (how : Nat) : ∀ (k : Nat) (m : List (Option Nat)) (i : Nat),
    i + k ≤ m.length → ∃ m', downLoop how k m i = some m' ∧ m'.length = m.length := by
  intro k
  induction k with
  | zero => intro m i _; exact ⟨m, rfl, rfl⟩
  | succ k ih =>
    intro m i h1
    obtain ⟨c, hc⟩ := rd_ok m (i := i) (by omega)
    obtain ⟨m1, e1, l1⟩ := wr_ok m (i := i - how) c (by omega)
    obtain ⟨m2, e2, l2⟩ := wr_ok m1 (i := i) none (by omega)
    obtain ⟨m3, e3, l3⟩ := ih m2 (i + 1) (by omega)
    refine ⟨m3, ?_, by omega⟩
    simp only [downLoop, hc, e1, e2, Option.bind_eq_bind, Option.bind_some, e3]

theorem upLoop_safe (ilen start : Nat) : ∀ (k : Nat) (m : List (Option Nat)),
    start + k + ilen ≤ m.length → ∃ m', upLoop ilen start k m = some m' ∧ m'.length = m.length := by
  intro k
  induction k with
  | zero => intro m _; exact ⟨m, rfl, rfl⟩
  | succ k ih =>
    intro m h1
    obtain ⟨c, hc⟩ := rd_ok m (i := start + k) (by omega)
    obtain ⟨m1, e1, l1⟩ := wr_ok m (i := start + k + ilen) c (by omega)
    obtain ⟨m2, e2, l2⟩ := wr_ok m1 (i := start + k) none (by omega)
    obtain ⟨m3, e3, l3⟩ := ih m2 (by omega)
    refine ⟨m3, ?_, by omega⟩
    simp only [upLoop, hc, e1, e2, Option.bind_eq_bind, Option.bind_some, e3]

theorem insLoop_safe (ps : List Nat) : ∀ (h : Heap V) (m : List (Option Nat)) (i : Nat),
    i + ps.length ≤ m.length → ∃ h' m', insLoop ps h m i = some (h', m') ∧ m'.length = m.length := by
  induction ps with
  | nil => intro h m i _; exact ⟨h, m, rfl, rfl⟩
  | cons p ps ih =>
    intro h m i h1
    simp only [List.length_cons] at h1
    obtain ⟨m1, e1, l1⟩ := wr_ok m (i := i) (some h.next) (by omega)
    obtain ⟨h', m2, e2, l2⟩ := ih (h.alloc (h.val p)) m1 (i + 1) (by omega)
    refine ⟨h', m2, ?_, by omega⟩
    simp only [insLoop, e1, Option.bind_eq_bind, Option.bind_some, e2]

theorem spliceBody_safe (M : Nat) (h : Heap V) (a : Arr) (n i how : Nat) (items : List Nat)
    (hs : a.Safe) (hn : n = sizeOf a) (hik : i + how ≤ n) :
    ∃ o, spliceBody M h a n i how items = some o ∧ o.arr.Safe ∧
      (o.error = false → ∀ b, o.ret = some b → b.Safe) := by
  have hz := safe_sizeOf hs
  have hs' := hs
  unfold Arr.Safe at hs'
  rw [spliceBody]
  cases h1 : sizer M .new how with
  | none => exact ⟨_, rfl, hs, fun hh => by cases hh⟩
  | some r =>
    obtain ⟨s1, s2, _⟩ := sizer_safe h1 safe_new
    obtain ⟨m, rm, e1, l1, l2⟩ := moveLoop_safe how a.mem i r.mem 0 (by omega) (by omega)
    obtain ⟨r', e2, sr, _⟩ := setLength_ok ⟨rm, r.cnt⟩ (n := how) (by simp only; omega)
    have hd : ∃ m', spliceDown how n i m = some m' ∧ m'.length = m.length := by
      unfold spliceDown
      split
      · exact ⟨m, rfl, rfl⟩
      · exact downLoop_safe how _ m _ (by omega)
    obtain ⟨m2, e3, l3⟩ := hd
    simp only [e1, e2, e3, Option.bind_eq_bind, Option.bind_some]
    have hm2 : (⟨m2, a.cnt⟩ : Arr).Safe := by unfold Arr.Safe; simp only; omega
    cases h2 : sizer M ⟨m2, a.cnt⟩ (n - how + items.length + 3) with
    | none => exact ⟨_, rfl, hm2, fun hh => by cases hh⟩
    | some a2 =>
      obtain ⟨s3, s4, s5⟩ := sizer_safe h2 hm2
      have hi : ∃ h' m', spliceIns items h i (n - how) a2.mem = some (h', m') ∧
          m'.length = a2.mem.length := by
        unfold spliceIns
        split
        · exact ⟨h, _, rfl, rfl⟩
        · obtain ⟨m3, e4, l4⟩ := upLoop_safe items.length i (n - how - i) a2.mem (by omega)
          obtain ⟨h', m4, e5, l5⟩ := insLoop_safe items h m3 i (by omega)
          exact ⟨h', m4, by rw [e4]; exact e5, by omega⟩
      obtain ⟨h', m3, e4, l4⟩ := hi
      obtain ⟨a3, e5, s6, _⟩ := setLength_ok ⟨m3, a2.cnt⟩ (n := n - how + items.length)
        (by simp only; omega)
      simp only [e4, e5, Option.bind_some]
      exact ⟨_, rfl, s6, fun _ b hb => by cases hb; exact sr⟩

theorem splice_safe (M : Nat) (h : Heap V) (a : Arr) (st : Int) (how : Option Int)
    (items : List Nat) (hs : a.Safe) :
    ∃ o, splice M h a st how items = some o ∧ o.arr.Safe ∧
      (o.error = false → ∀ b, o.ret = some b → b.Safe) := by
  rw [splice]
  cases h1 : spliceStart (sizeOf a) st with
  | none => exact ⟨_, rfl, hs, fun _ b hb => by cases hb; exact safe_new⟩
  | some i =>
    have hi : i ≤ sizeOf a := by
      unfold spliceStart at h1
      split at h1
      · cases h1
      · simp only [] at h1
        generalize h2 : (if st < 0 then ((sizeOf a : Nat) : Int) + st else st) = e2 at h1
        have b2 : e2 ≤ (sizeOf a : Nat) := by rw [← h2]; split <;> omega
        by_cases h3 : e2 < 0
        · rw [if_pos h3] at h1; cases h1; omega
        · rw [if_neg h3] at h1; cases h1; omega
    apply spliceBody_safe M h a _ i _ items hs rfl
    unfold spliceCount
    split
    · omega
    · split
      · omega
      · split <;> omega

/-! ### Scripts -/

def World.Safe (w : World V) : Prop := ∀ (i : Nat) a, w.arrs[i]? = some a → a.Safe

theorem safe_set {w : World V} (hw : w.Safe) (h : Heap V) (i : Nat) (a : Arr) (ha : a.Safe) :
    World.Safe ⟨h, w.arrs.set i a⟩ := by
  intro j b hb
  simp only [List.getElem?_set] at hb
  split at hb
  · split at hb
    · cases hb; exact ha
    · cases hb
  · exact hw j b hb

theorem safe_app {h' : Heap V} {arrs : List Arr} (hw : World.Safe ⟨h', arrs⟩) (h : Heap V) (b : Arr)
    (hb : b.Safe) : World.Safe ⟨h, arrs ++ [b]⟩ := by
  intro j c hc
  simp only [List.getElem?_append] at hc
  split at hc
  · exact hw j c hc
  · rw [List.getElem?_singleton] at hc
    split at hc
    · cases hc; exact hb
    · cases hc

theorem toArgs_safe (arrs : List Arr) (hw : ∀ (i : Nat) a, arrs[i]? = some a → a.Safe) :
    ∀ (items : List (Item V)) (h : Heap V), items.all (Item.ok arrs.length) = true →
    ∃ h' args, toArgs arrs items h = some (h', args) ∧ ∀ x ∈ args, CArg.Safe x := by
  intro items
  induction items with
  | nil => intro h _; exact ⟨h, [], rfl, by simp⟩
  | cons it items ih =>
    intro h hall
    rw [List.all_cons, Bool.and_eq_true] at hall
    cases it with
    | arr j =>
      have hj : j < arrs.length := of_decide_eq_true hall.1
      obtain ⟨h', args, e, hx⟩ := ih h hall.2
      refine ⟨h', .arr arrs[j] :: args, ?_, ?_⟩
      · rw [toArgs, List.getElem?_eq_getElem hj, e]; rfl
      · intro x hx'
        rcases List.mem_cons.1 hx' with rfl | hx'
        · exact hw j _ (List.getElem?_eq_getElem hj)
        · exact hx x hx'
    | val v =>
      obtain ⟨h', args, e, hx⟩ := ih (h.alloc v) hall.2
      refine ⟨h', .val h.next :: args, ?_, ?_⟩
      · rw [toArgs, e]; rfl
      · intro x hx'
        rcases List.mem_cons.1 hx' with rfl | hx'
        · trivial
        · exact hx x hx'

theorem add_safe {w : World V} (hw : w.Safe) (o : Out V Arr) (ho : o.error = false → o.ret.Safe) :
    (w.add o).1.Safe := by
  unfold World.add
  split
  · exact hw
  · rename_i he
    exact safe_app hw _ _ (ho (by simpa using he))

theorem updAdd_safe {w : World V} (hw : w.Safe) (i : Nat) (o : Out V (Option Arr)) (ha : o.arr.Safe)
    (ho : o.error = false → ∀ b, o.ret = some b → b.Safe) : (w.updAdd i o).1.Safe := by
  unfold World.updAdd
  split
  · rename_i b he hr
    exact safe_app (safe_set hw o.heap i o.arr ha) _ _ (ho he b hr)
  · exact safe_set hw _ _ _ ha

theorem step_safe (M : Nat) (w : World V) (op : Op V) (hw : w.Safe) :
    ∃ w' r, step M w op = some (w', r) ∧ w'.Safe := by
  unfold step
  split
  · rename_i hok
    have get : ∀ {i : Nat}, decide (i < w.arrs.length) = true →
        ∃ a, w.arrs[i]? = some a ∧ a.Safe := by
      intro i hi
      have hi := of_decide_eq_true hi
      exact ⟨_, List.getElem?_eq_getElem hi, hw i _ (List.getElem?_eq_getElem hi)⟩
    cases op with
    | create => exact ⟨_, _, rfl, safe_app hw _ _ safe_new⟩
    | push i vs =>
      obtain ⟨a, e, s⟩ := get hok
      obtain ⟨o, e1, s1⟩ := push_safe M (callArgs w.heap vs).1 a (callArgs w.heap vs).2 s
      exact ⟨_, _, by simp only [stepOk, e, Option.bind_some, e1, Option.map_some]; rfl, safe_set hw _ _ _ s1⟩
    | pop i =>
      obtain ⟨a, e, s⟩ := get hok
      obtain ⟨o, e1, s1⟩ := pop_safe w.heap a s
      exact ⟨_, _, by simp only [stepOk, e, Option.bind_some, e1, Option.map_some]; rfl, safe_set hw _ _ _ s1⟩
    | shift i =>
      obtain ⟨a, e, s⟩ := get hok
      obtain ⟨o, e1, s1⟩ := shift_safe w.heap a s
      exact ⟨_, _, by simp only [stepOk, e, Option.bind_some, e1, Option.map_some]; rfl, safe_set hw _ _ _ s1⟩
    | unshift i vs =>
      obtain ⟨a, e, s⟩ := get hok
      obtain ⟨o, e1, s1⟩ := unshift_safe M (callArgs w.heap vs).1 a (callArgs w.heap vs).2 s
      exact ⟨_, _, by simp only [stepOk, e, Option.bind_some, e1, Option.map_some]; rfl, safe_set hw _ _ _ s1⟩
    | assign i n v =>
      obtain ⟨a, e, s⟩ := get hok
      obtain ⟨o, e1, s1⟩ := assign_safe M w.heap a n v s
      exact ⟨_, _, by simp only [stepOk, e, Option.bind_some, e1, Option.map_some]; rfl, safe_set hw _ _ _ s1⟩
    | reverse i =>
      obtain ⟨a, e, s⟩ := get hok
      obtain ⟨o, e1, s1⟩ := reverse_safe w.heap a s
      exact ⟨_, _, by simp only [stepOk, e, Option.bind_some, e1, Option.map_some]; rfl, safe_set hw _ _ _ s1⟩
    | slice i st en =>
      obtain ⟨a, e, s⟩ := get hok
      obtain ⟨o, e1, s1, s2⟩ := slice_safe M w.heap a st en s
      exact ⟨_, _, by simp only [stepOk, e, Option.bind_some, e1, Option.map_some]; rfl, add_safe hw o s2⟩
    | fill i v st en =>
      obtain ⟨a, e, s⟩ := get hok
      obtain ⟨o, e1, s1⟩ := fill_safe w.heap a v st en s
      exact ⟨_, _, by simp only [stepOk, e, Option.bind_some, e1, Option.map_some]; rfl, safe_set hw _ _ _ s1⟩
    | concat i items =>
      rw [Op.ok, Bool.and_eq_true] at hok
      obtain ⟨a, e, s⟩ := get hok.1
      obtain ⟨h', args, e0, hx⟩ := toArgs_safe w.arrs hw items w.heap hok.2
      obtain ⟨o, e1, s1, s2⟩ := concat_safe M h' a args s hx
      exact ⟨_, _, by simp only [stepOk, e, e0, Option.bind_some, e1, Option.map_some]; rfl, add_safe hw o s2⟩
    | splice i st how vs =>
      obtain ⟨a, e, s⟩ := get hok
      obtain ⟨o, e1, s1, s2⟩ := splice_safe M (callArgs w.heap vs).1 a st how (callArgs w.heap vs).2 s
      exact ⟨_, _, by simp only [stepOk, e, Option.bind_some, e1, Option.map_some]; rfl, updAdd_safe hw i o s1 s2⟩
  · exact ⟨w, _, rfl, hw⟩

theorem run_safe (M : Nat) (ops : List (Op V)) : ∀ (w : World V), w.Safe →
    ∃ w' rs, run M w ops = some (w', rs) ∧ w'.Safe := by
  induction ops with
  | nil => intro w hw; exact ⟨w, [], rfl, hw⟩
  | cons op ops ih =>
    intro w hw
    obtain ⟨w1, r, e1, s1⟩ := step_safe M w op hw
    obtain ⟨w2, rs, e2, s2⟩ := ih w1 s1
    exact ⟨w2, r :: rs, by rw [run, e1]; simp only [Option.bind_some, e2, Option.map_some], s2⟩

end Verif.Array
