import Verif.DString.Model

namespace Verif.DString

/-! Specification: a dynamic string is a byte sequence. -/

/-- One call on a byte sequence. -/
def specStep (l : List UInt8) : Op → Out × List UInt8
  | .append b => (.unit, l ++ b)
  | .appendStr s => (.unit, l ++ cstr s)
  | .set s => (.unit, cstr s)
  | .setLength n => (.unit, l.take n)
  | .printf t => (.unit, l ++ t)
  | .free => (.unit, [])
  | .freeDup => (.str (cstr l), [])
  | .value => (.str (cstr l), l)
  | .length => (.num l.length, l)

def specRun (l : List UInt8) : List Op → List Out
  | [] => []
  | o :: os => (specStep l o).1 :: specRun (specStep l o).2 os

/-- C19 in full: whatever the calls, a freshly initialised dynamic string behaves as the byte
sequence and nothing undefined happens. -/
def Full : Prop := ∀ ops : List Op, run (init 200) ops = some (specRun [] ops)

/-- **C19** is false of the code: reserving 200 or more bytes on an empty string leaves its value
without a terminator. -/
theorem C19_setlength_refuted : run (init 200) [.setLength 200, .value] = none := by decide +kernel

/-- **C19** is false of the code: formatted text is lost whenever 8192 bytes or more are spare. -/
theorem C19_printf_lost (d : DS) (t : List UInt8) (d' : DS) (h : bufSiz ≤ d.spaceAvl - d.len)
    (h1 : printf d t = some d') : d'.len = d.len := by
  unfold printf at h1
  simp only [] at h1
  rw [if_pos h] at h1
  split at h1
  · simp at h1
  · obtain ⟨c, _, rfl⟩ := Option.map_eq_some_iff.mp h1
    unfold DS.setCells
    split <;> rfl

theorem C19_refuted : ¬ Full := by
  intro h
  have := h [.setLength 200, .value]
  rw [C19_setlength_refuted] at this
  simp at this

/-- The representation invariant. `N` bounds the lengths requested so far. -/
structure Rep (S N : Nat) (d : DS) (l : List UInt8) : Prop where
  len : d.len = l.length
  static : d.staticSize = S
  strlen : d.str.length = S
  pre : d.cells.take l.length = l.map some
  nul : d.cells[l.length]? = some (some 0)
  cap : ∀ c, d.strA = some c → c.length = d.spaceAvl + 1
  inl : d.strA = none → d.spaceAvl ≤ S
  room : l.length + 1 ≤ d.spaceAvl ∨ l = []
  bound : d.spaceAvl ≤ max S (2 * N)

/-- Which calls, in a state holding `l`, stay inside what is proved: no reservation of `S` bytes or
more on an empty string, formatted output only if the string never has 8192 spare bytes, and sizes up
to `N`. -/
def Ok (S N : Nat) (l : List UInt8) : Op → Prop
  | .setLength n => n ≤ N ∧ (n < S ∨ l ≠ [])
  | .printf t => max S (2 * N) < bufSiz ∧ (l ++ t).length + 1 ≤ N
  | o => (specStep l o).2.length + 1 ≤ N

def AllOk (S N : Nat) : List UInt8 → List Op → Prop
  | _, [] => True
  | l, o :: os => Ok S N l o ∧ AllOk S N (specStep l o).2 os

theorem readC_ok : ∀ (c : Cells) (l : List UInt8), c.take l.length = l.map some →
    c[l.length]? = some (some 0) → readC c = some (cstr l)
  | [], l, h1, h2 => by simp at h2
  | a :: t, [], h1, h2 => by
    simp at h2; subst h2; simp [readC, cstr]
  | a :: t, b :: l, h1, h2 => by
    simp at h1
    obtain ⟨rfl, h1⟩ := h1
    simp at h2
    have := readC_ok t l h1 h2
    by_cases hb : b = 0
    · simp [readC, cstr, hb]
    · simp [readC, cstr, hb, this]

theorem cells_setCells (d : DS) (c : Cells) : (d.setCells c).cells = c := by
  unfold DS.setCells DS.cells; split <;> simp_all

theorem setCells_same (d : DS) (c : Cells) :
    (d.setCells c).len = d.len ∧ (d.setCells c).spaceAvl = d.spaceAvl ∧
    (d.setCells c).staticSize = d.staticSize ∧
    ((d.setCells c).strA = none ↔ d.strA = none) ∧
    (∀ x, (d.setCells c).strA = some x → x = c) ∧
    ((d.setCells c).str = if d.strA = none then c else d.str) := by
  unfold DS.setCells; split <;> simp_all

/-- Storing `b` and a NUL after the current contents. -/
theorem rep_store {S N : Nat} {d : DS} {l b : List UInt8} {c : Cells}
    (hlen : d.len = l.length) (hst : d.staticSize = S) (hsl : d.str.length = S)
    (hpre : d.cells.take l.length = l.map some)
    (hcap : ∀ c, d.strA = some c → c.length = d.spaceAvl + 1) (hinl : d.strA = none → d.spaceAvl ≤ S)
    (hroom : l.length + b.length + 1 ≤ d.spaceAvl) (hbound : d.spaceAvl ≤ max S (2 * N))
    (hs : store d.cells d.len (b ++ [0]) = some c) :
    Rep S N { d.setCells c with len := d.len + b.length } (l ++ b) := by
  obtain ⟨h1, h2, h3, h4, h5, h6⟩ := setCells_same d c
  have hl : (d.cells.take l.length).length = l.length := by rw [hpre]; simp
  have hcell : d.cells.length = c.length := by
    unfold store at hs; split at hs
    · injection hs with hs; subst hs; simp at *; omega
    · simp at hs
  have hc : c = l.map some ++ (b ++ [0]).map some ++ d.cells.drop (d.len + (b ++ [0]).length) := by
    unfold store at hs; split at hs
    · injection hs with hs; rw [← hs, hlen, hpre]
    · simp at hs
  have hc' : c = (l ++ b).map some ++ (some 0 :: d.cells.drop (d.len + (b ++ [0]).length)) := by
    rw [hc]; simp
  have hcells : ({ d.setCells c with len := d.len + b.length } : DS).cells = c := cells_setCells d c
  refine ⟨by simp [hlen], h3.trans hst, ?_, ?_, ?_, ?_, ?_, ?_, ?_⟩
  · show (d.setCells c).str.length = S
    rw [h6]
    split
    · rename_i hn
      rw [← hcell, DS.cells, hn]; simpa using hsl
    · exact hsl
  · rw [hcells, hc']
    exact List.take_left' (by simp)
  · rw [hcells, hc', List.getElem?_append_right (by simp)]
    simp
  · intro x hx
    have := h5 x hx
    subst this
    show _ = (d.setCells _).spaceAvl + 1
    rw [h2]
    cases hA : d.strA with
    | none => simp [h4.mpr hA] at hx
    | some y =>
      have := hcap y hA
      rw [← hcell, DS.cells, hA]; simpa using this
  · intro hn
    show (d.setCells c).spaceAvl ≤ S
    rw [h2]; exact hinl (h4.mp hn)
  · left
    show _ ≤ (d.setCells c).spaceAvl
    rw [h2]; simp; omega
  · show (d.setCells c).spaceAvl ≤ _
    rw [h2]; exact hbound

theorem store_some {c : Cells} {i : Nat} {b : List UInt8} (h : i + b.length ≤ c.length) :
    ∃ c', store c i b = some c' := by
  unfold store; rw [if_pos h]; exact ⟨_, rfl⟩

/-- Growing the storage keeps the contents (and the NUL unless the string was empty and inline). -/
theorem grow {S N : Nat} {d : DS} {l : List UInt8} (h : Rep S N d l) (n : Nat) (hn : n < maxAlloc)
    (hge : l.length ≤ n) (hNn : n ≤ max S (2 * N)) :
    ∃ d', setLength d n = some (d'.spaceAvl, d') ∧ d'.len = l.length ∧ d'.staticSize = S ∧
      d'.str.length = S ∧ d'.cells.take l.length = l.map some ∧
      (∀ c, d'.strA = some c → c.length = d'.spaceAvl + 1) ∧ (d'.strA = none → d'.spaceAvl ≤ S) ∧
      d'.spaceAvl = max d.spaceAvl n ∧
      ((n < S ∨ l ≠ []) → d'.cells[l.length]? = some (some 0)) := by
  have h1 : ¬ n ≥ maxAlloc := by omega
  unfold setLength
  simp only [h1, if_false]
  by_cases hg : n ≥ d.spaceAvl
  · simp only [hg, if_true]
    have hmax : max d.spaceAvl n = n := by omega
    cases hA : d.strA with
    | some c =>
      have hcl := h.cap c hA
      have hcc : d.cells = c := by simp [DS.cells, hA]
      have hpre := h.pre; have hnul := h.nul
      rw [hcc] at hpre hnul
      have hlt : l.length < c.length := by
        have := List.getElem?_eq_some_iff.mp hnul; exact this.1
      have hlen := h.len
      rw [if_neg (by simp; omega)]
      refine ⟨_, rfl, hlen, h.static, h.strlen, ?_, ?_, by simp, by simp [hmax], ?_⟩
      · simp only [DS.cells, Option.getD_some]
        rw [List.take_append_of_le_length (by simp; omega), List.take_take]
        rw [Nat.min_eq_left (by omega)]; exact hpre
      · intro x hx; simp at hx; subst hx; simp; omega
      · intro _
        simp only [DS.cells, Option.getD_some]
        rw [List.getElem?_append_left (by simp; omega), List.getElem?_take_of_lt (by omega)]
        exact hnul
    | none =>
      have hcc : d.cells = d.str := by simp [DS.cells, hA]
      have hpre := h.pre; have hnul := h.nul
      rw [hcc] at hpre hnul
      have hlt : l.length < d.str.length := by
        have := List.getElem?_eq_some_iff.mp hnul; exact this.1
      have hlen := h.len
      have hS := h.strlen
      simp only []
      by_cases hs : n ≥ d.staticSize
      · simp only [hs, if_true]
        rw [if_neg (by simp; omega)]
        rw [h.static] at hs
        refine ⟨{ d with spaceAvl := n, strA := some (if d.len > 0 then
          d.str.take (d.len + 1) ++ (List.replicate (n + 1) none).drop (d.len + 1)
          else List.replicate (n + 1) none) }, rfl, ?_⟩
        refine ⟨hlen, h.static, h.strlen, ?_, ?_, ?_, hmax.symm, ?_⟩
        · simp only [DS.cells, Option.getD_some]
          split
          · rw [List.take_append_of_le_length (by simp; omega), List.take_take]
            rw [Nat.min_eq_left (by omega)]; exact hpre
          · have : l = [] := List.length_eq_zero_iff.mp (by omega)
            subst this; simp
        · intro x hx
          simp at hx; subst hx
          split <;> simp <;> omega
        · intro hx; simp at hx
        · intro hor
          have hne : l ≠ [] := by
            rcases hor with h1 | h1
            · omega
            · exact h1
          have : 0 < l.length := List.length_pos_iff.mpr hne
          simp only [DS.cells, Option.getD_some]
          rw [if_pos (by omega), List.getElem?_append_left (by simp; omega),
            List.getElem?_take_of_lt (by omega)]
          exact hnul
      · simp only [hs, if_false]
        rw [if_neg (by simp; omega)]
        rw [h.static] at hs
        refine ⟨{ d with spaceAvl := n }, by rw [hA], ?_⟩
        refine ⟨hlen, h.static, h.strlen, ?_, ?_, ?_, hmax.symm, ?_⟩
        · simpa [DS.cells, hA] using hpre
        · intro x hx; simp [hA] at hx
        · intro _; show n ≤ S; omega
        · intro _; simpa [DS.cells, hA] using hnul
  · simp only [hg, if_false]
    rw [if_neg (by rw [h.len]; omega)]
    exact ⟨d, rfl, h.len, h.static, h.strlen, h.pre, h.cap, h.inl, by omega, fun _ => h.nul⟩

/-- Truncation. -/
theorem trunc {S N : Nat} {d : DS} {l : List UInt8} (h : Rep S N d l) (n : Nat)
    (hn : n < l.length) (hm : n < maxAlloc) :
    ∃ d' a, setLength d n = some (a, d') ∧ Rep S N d' (l.take n) := by
  have h1 : ¬ n ≥ maxAlloc := by omega
  have hroom : l.length + 1 ≤ d.spaceAvl := by
    rcases h.room with h | h
    · exact h
    · subst h; simp at hn
  have h2 : ¬ n ≥ d.spaceAvl := by omega
  have hlt : l.length < d.cells.length := (List.getElem?_eq_some_iff.mp h.nul).1
  obtain ⟨c, hc⟩ := store_some (c := d.cells) (i := n) (b := [0]) (by simp; omega)
  unfold setLength
  simp only [h1, h2, if_false]
  rw [if_pos (by rw [h.len]; exact hn), hc]
  refine ⟨_, _, rfl, ?_⟩
  have hpre : d.cells.take (l.take n).length = (l.take n).map some := by
    have := congrArg (List.take n) h.pre
    rw [List.take_take] at this
    simp only [List.length_take, List.map_take]
    rw [Nat.min_eq_left (by omega)]
    rw [Nat.min_eq_left (by omega)] at this; exact this
  have hs := rep_store (S := S) (N := N) (d := { d with len := n }) (l := l.take n) (b := []) (c := c)
    (by simp; omega) h.static h.strlen hpre h.cap h.inl (by simp; omega) h.bound (by simpa [DS.cells] using hc)
  simp at hs
  have : ({ d.setCells c with len := n } : DS) =
      { DS.setCells { d with len := n } c with len := n } := by
    unfold DS.setCells; cases d.strA <;> rfl
  rw [this]; exact hs

theorem rep_append {S N : Nat} {d : DS} {l : List UInt8} (h : Rep S N d l) (b : List UInt8)
    (hN : (l ++ b).length + 1 ≤ N) (hM : max S (2 * N) < maxAlloc) :
    ∃ d', appendLen d b = some d' ∧ Rep S N d' (l ++ b) := by
  unfold appendLen
  simp at hN
  rw [h.len]
  by_cases hg : b.length + l.length + 1 ≥ d.spaceAvl
  · simp only [hg, if_true]
    generalize hk : (if b.length + l.length + 1 < d.spaceAvl * 2 then d.spaceAvl * 2
      else b.length + l.length + 1) = k
    have hk1 : b.length + l.length + 1 ≤ k := by rw [← hk]; split <;> omega
    have hk2 : k ≤ 2 * N := by rw [← hk]; split <;> omega
    obtain ⟨d', e1, e2, e3, e4, e5, e6, e7, e8, _⟩ := grow h k (by omega) (by omega) (by omega)
    simp only [e1, Option.bind_eq_bind, Option.bind_some]
    rw [if_neg (by omega)]
    have hcap : d'.len + (b ++ [0]).length ≤ d'.cells.length := by
      simp [e2]
      cases hA : d'.strA with
      | none => have := e7 hA; simp [DS.cells, hA, e4]; omega
      | some c => have := e6 c hA; simp [DS.cells, hA, this]; omega
    obtain ⟨c, hc⟩ := store_some hcap
    rw [hc]
    exact ⟨_, rfl, rep_store e2 e3 e4 e5 e6 e7 (by omega) (by have := h.bound; omega) hc⟩
  · simp only [hg, if_false]
    have hcap : d.len + (b ++ [0]).length ≤ d.cells.length := by
      have := h.len
      simp [this]
      cases hA : d.strA with
      | none => have := h.inl hA; have := h.strlen; simp [DS.cells, hA]; omega
      | some c => have := h.cap c hA; simp [DS.cells, hA, this]; omega
    obtain ⟨c, hc⟩ := store_some hcap
    rw [hc]
    exact ⟨_, rfl, rep_store h.len h.static h.strlen h.pre h.cap h.inl (by omega) h.bound hc⟩

theorem mapM_id_some (l : List UInt8) : (l.map some).mapM id = some l := by
  induction l with
  | nil => rfl
  | cons a t ih => simp [List.mapM_cons, ih]

theorem rep_step {S N : Nat} {d : DS} {l : List UInt8} (h : Rep S N d l) (o : Op)
    (hok : Ok S N l o) (hM : max S (2 * N) < maxAlloc) (hS : 0 < S) :
    ∃ d', step d o = some ((specStep l o).1, d') ∧ Rep S N d' (specStep l o).2 := by
  cases o with
  | append b =>
    obtain ⟨d', e1, e2⟩ := rep_append h b hok hM
    exact ⟨d', by simp [step, e1, specStep], e2⟩
  | appendStr s =>
    obtain ⟨d', e1, e2⟩ := rep_append h (cstr s) hok hM
    exact ⟨d', by simp [step, append, e1, specStep], e2⟩
  | set s =>
    have h0 : ∃ d0 a, setLength d 0 = some (a, d0) ∧ Rep S N d0 [] := by
      by_cases hl : 0 < l.length
      · obtain ⟨d0, a, e1, e2⟩ := trunc h 0 hl (by decide)
        exact ⟨d0, a, e1, by simpa using e2⟩
      · have hl : l = [] := List.length_eq_zero_iff.mp (by omega)
        subst hl
        obtain ⟨d', e1, e2, e3, e4, e5, e6, e7, e8, e9⟩ := grow h 0 (by decide) (by simp) (by omega)
        have := h.bound
        exact ⟨d', _, e1, ⟨e2, e3, e4, e5, e9 (.inl hS), e6, e7, .inr rfl, by omega⟩⟩
    obtain ⟨d0, a, e0, hr⟩ := h0
    obtain ⟨d', e1, e2⟩ := rep_append hr (cstr s) (by simpa [Ok, specStep] using hok) hM
    exact ⟨d', by simp [step, set, e0, append, e1, specStep], by simpa [specStep] using e2⟩
  | setLength n =>
    obtain ⟨hnN, hor⟩ := hok
    by_cases hn : n < l.length
    · obtain ⟨d', a, e1, e2⟩ := trunc h n hn (by omega)
      exact ⟨d', by simp [step, e1, specStep], e2⟩
    · obtain ⟨d', e1, e2, e3, e4, e5, e6, e7, e8, e9⟩ := grow h n (by omega) (by omega) (by omega)
      refine ⟨d', by simp [step, e1, specStep], ?_⟩
      have ht : l.take n = l := List.take_of_length_le (by omega)
      simp only [specStep, ht]
      have := h.bound
      refine ⟨e2, e3, e4, e5, e9 hor, e6, e7, ?_, by omega⟩
      rcases h.room with h1 | h1
      · left; omega
      · right; exact h1
  | printf t =>
    obtain ⟨hb, hN⟩ := hok
    have := h.bound
    obtain ⟨d', e1, e2⟩ := rep_append h t hN hM
    refine ⟨d', ?_, e2⟩
    have : ¬ d.spaceAvl - d.len ≥ bufSiz := by omega
    have : ¬ t.length ≥ bufSiz := by simp at hN; omega
    simp [step, printf, *, specStep]
  | free =>
    have hcells : ∀ c : Cells, (nul0 c).take 0 = ([] : List UInt8).map some ∧ (nul0 c)[0]? = some (some 0) := by
      intro c; simp [nul0]
    refine ⟨free d, rfl, ?_⟩
    simp only [specStep]
    unfold free
    split
    · rename_i h0
      have : l = [] := by rcases h.room with h1 | h1; omega; exact h1
      subst this; exact h
    · exact ⟨rfl, h.static, by have := h.strlen; simp [nul0]; omega, (hcells d.str).1, (hcells d.str).2,
        by simp, by intro _; simp [h.static], .inr rfl, by have := h.static; simp; omega⟩
  | freeDup =>
    cases hA : d.strA with
    | none =>
      have hpre := h.pre
      have hcc : d.cells = d.str := by simp [DS.cells, hA]
      rw [hcc] at hpre
      have h0 : ∃ d0 a, setLength d 0 = some (a, d0) ∧ Rep S N d0 [] := by
        by_cases hl : 0 < l.length
        · obtain ⟨d0, a, e1, e2⟩ := trunc h 0 hl (by decide)
          exact ⟨d0, a, e1, by simpa using e2⟩
        · have hl : l = [] := List.length_eq_zero_iff.mp (by omega)
          subst hl
          obtain ⟨d', e1, e2, e3, e4, e5, e6, e7, e8, e9⟩ := grow h 0 (by decide) (by simp) (by omega)
          have := h.bound
          exact ⟨d', _, e1, ⟨e2, e3, e4, e5, e9 (.inl hS), e6, e7, .inr rfl, by omega⟩⟩
      obtain ⟨d0, a, e0, hr⟩ := h0
      refine ⟨d0, ?_, hr⟩
      have hm := mapM_id_some l
      rw [← hpre, ← h.len] at hm
      simp only [step, freeDup, hA, hm, e0, specStep, Option.bind_eq_bind, Option.bind_some, Option.map_some]
    | some c =>
      have hcc : d.cells = c := by simp [DS.cells, hA]
      have hr := readC_ok _ _ h.pre h.nul
      rw [hcc] at hr
      refine ⟨{ d with strA := none, str := nul0 d.str, spaceAvl := d.staticSize, len := 0 }, ?_, ?_⟩
      · simp [step, freeDup, hA, hr, specStep]
      · exact ⟨rfl, h.static, by have := h.strlen; simp [nul0]; omega, by simp [specStep],
          by simp [specStep, nul0, DS.cells], by simp, by intro _; simp [h.static], .inr rfl,
          by have := h.static; simp; omega⟩
  | value =>
    exact ⟨d, by simp [step, readC_ok _ _ h.pre h.nul, specStep], h⟩
  | length => exact ⟨d, by simp [step, h.len, specStep], h⟩

theorem rep_run {S N : Nat} (hM : max S (2 * N) < maxAlloc) (hS : 0 < S) :
    ∀ (ops : List Op) (d : DS) (l : List UInt8), Rep S N d l → AllOk S N l ops →
      run d ops = some (specRun l ops) := by
  intro ops
  induction ops with
  | nil => intros; rfl
  | cons o os ih =>
    intro d l h hok
    obtain ⟨d', h1, h2⟩ := rep_step h o hok.1 hM hS
    simp [run, h1, ih d' _ h2 hok.2, specRun]

/-- **C19** (what holds).  For every inline size `S` and every history of calls in which the string
and the requested sizes stay below some `N < 50 000 000`, in which no reservation of `S` bytes or
more is made on an empty string, and in which formatted output is only used while `2N < 8192`,
the dynamic string behaves exactly as a byte sequence, and nothing undefined happens.
Missing from the full statement: exactly the excluded calls (see the refutations). -/
theorem C19_dstring_is_sequence_partial (S N : Nat) (hS : 0 < S) (hM : max S (2 * N) < maxAlloc)
    (ops : List Op) (h : AllOk S N [] ops) :
    run (init S) ops = some (specRun [] ops) ∧ run (initVar S) ops = some (specRun [] ops) := by
  constructor
  · refine rep_run hM hS ops (init S) [] ⟨rfl, rfl, ?_, rfl, rfl, by simp [init], ?_, .inr rfl, ?_⟩ h
    · simp [init]; omega
    · simp [init]
    · simp [init]; omega
  · refine rep_run hM hS ops (initVar S) [] ⟨rfl, rfl, ?_, rfl, rfl, by simp [initVar, init], ?_, .inr rfl, ?_⟩ h
    · simp [initVar, init]; omega
    · simp [initVar]
    · simp [initVar]

-- The hypotheses are met by a history that allocates, truncates, prints and hands over the buffer.
instance (S N : Nat) (l : List UInt8) (o : Op) : Decidable (Ok S N l o) := by
  cases o <;> unfold Ok <;> infer_instance
instance instAllOk (S N : Nat) : (l : List UInt8) → (ops : List Op) → Decidable (AllOk S N l ops)
  | _, [] => .isTrue trivial
  | l, o :: os =>
    have := instAllOk S N (specStep l o).2 os
    inferInstanceAs (Decidable (Ok S N l o ∧ AllOk S N (specStep l o).2 os))
example : AllOk 200 4000 [] [.append (List.replicate 300 65), .printf (asc "abc"), .setLength 2,
    .setLength 1000, .appendStr (asc "xy"), .value, .freeDup, .length] := by
  decide +kernel

end Verif.DString
