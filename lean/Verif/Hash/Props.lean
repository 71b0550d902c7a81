import Verif.Hash.Lemmas
import Mathlib.Data.List.Perm.Basic
import Mathlib.Data.List.Nodup

/-! C14, C15: hash tables as finite maps. -/

namespace Verif.Hash

variable {K V : Type}

/-- What word, string and struct keys have in common (and `JSI_KEYS_STRINGKEY` has not): creation,
rebuild and deletion use the same bucket, it is within the bucket array, and the comparison is
equality. -/
structure Good (o : KeyOps K) : Prop where
  reb : ∀ ds m k, o.rebIdx ds m k = o.findIdx ds m k
  del : ∀ ds m k, o.delIdx ds m (o.hval k) = o.findIdx ds m k
  le : ∀ ds m k, o.findIdx ds m k ≤ m
  same : ∀ a b, o.same a b = true ↔ a = b

theorem good_word : Good wordOps where
  reb _ _ _ := rfl
  del _ _ _ := rfl
  le _ _ _ := Nat.and_le_right
  same a b := by simp [wordOps]

theorem good_string : Good stringOps where
  reb _ _ _ := rfl
  del _ _ _ := rfl
  le _ _ _ := Nat.and_le_right
  same a b := by simp only [stringOps, Bool.and_eq_true, beq_iff_eq]; exact ⟨fun h => h.2, fun h => ⟨by rw [h], h⟩⟩

theorem good_struct : Good structOps where
  reb _ _ _ := rfl
  del _ _ _ := rfl
  le _ _ _ := Nat.and_le_right
  same a b := by simp only [structOps, Bool.and_eq_true, beq_iff_eq]; exact ⟨fun h => h.2, fun h => ⟨by rw [h], h⟩⟩

/-- The table invariant, for a given placement function. -/
structure Inv (o : KeyOps K) (t : Tbl K V) : Prop where
  len : t.buckets.length = t.numBuckets
  msk : t.mask + 1 = t.numBuckets
  place : ∀ i e, e ∈ t.buckets.getD i [] → o.findIdx t.downShift t.mask e.key = i
  keys : (t.buckets.flatten.map (·.key)).Nodup
  ids : (t.buckets.flatten.map (·.id)).Nodup
  idlt : ∀ e ∈ t.buckets.flatten, e.id < t.nextId
  cnt : t.numEntries = t.buckets.flatten.length

/-- The entries of the table are the graph of `m`. -/
def Holds (t : Tbl K V) (m : K → Option V) : Prop :=
  ∀ k v, m k = some v ↔ ∃ e ∈ t.buckets.flatten, e.key = k ∧ e.val = v

theorem inv_new (o : KeyOps K) : Inv o (new : Tbl K V) where
  len := rfl
  msk := rfl
  place i e h := by
    simp only [new, List.getD_eq_getElem?_getD, List.getElem?_replicate] at h
    split at h <;> simp at h
  keys := by simp [new]
  ids := by simp [new]
  idlt := by simp [new]
  cnt := by simp [new]

theorem uniq {t : Tbl K V} {o : KeyOps K} (hi : Inv o t) {a b : Entry K V}
    (ha : a ∈ t.buckets.flatten) (hb : b ∈ t.buckets.flatten) (h : a.key = b.key) : a = b :=
  List.inj_on_of_nodup_map hi.keys ha hb h

theorem uniqId {t : Tbl K V} {o : KeyOps K} (hi : Inv o t) {a b : Entry K V}
    (ha : a ∈ t.buckets.flatten) (hb : b ∈ t.buckets.flatten) (h : a.id = b.id) : a = b :=
  List.inj_on_of_nodup_map hi.ids ha hb h

theorem find_iff {o : KeyOps K} (g : Good o) {t : Tbl K V} (hi : Inv o t) (k : K) (e : Entry K V) :
    find o t k = some e ↔ e ∈ t.buckets.flatten ∧ e.key = k := by
  have hmem : ∀ x, x ∈ t.buckets.getD (o.findIdx t.downShift t.mask k) [] →
      x ∈ t.buckets.flatten := by
    intro x hx
    refine (mem_flatten_getD _ _).2 ⟨_, ?_, hx⟩
    have := g.le t.downShift t.mask k
    rw [hi.len, ← hi.msk]; omega
  constructor
  · intro h
    have h1 := List.mem_of_find?_eq_some h
    have h2 := List.find?_some h
    exact ⟨hmem _ h1, (g.same _ _).1 h2⟩
  · rintro ⟨he, hk⟩
    obtain ⟨i, _, hei⟩ := (mem_flatten_getD _ _).1 he
    have hp := hi.place i e hei
    rw [hk] at hp
    subst hp
    unfold find
    cases hf : (t.buckets.getD (o.findIdx t.downShift t.mask k) []).find?
        (fun e => o.same e.key k) with
    | none =>
      have := (List.find?_eq_none.1 hf) e hei
      exact absurd ((g.same _ _).2 hk) this
    | some x =>
      have h1 := List.mem_of_find?_eq_some hf
      have h2 := List.find?_some hf
      replace h2 := (g.same _ _).1 h2
      rw [uniq hi (hmem _ h1) he (h2.trans hk.symm)]

theorem find_none {o : KeyOps K} (g : Good o) {t : Tbl K V} (hi : Inv o t) (k : K)
    (h : find o t k = none) : ∀ e ∈ t.buckets.flatten, e.key ≠ k := by
  intro e he hk
  rw [(find_iff g hi k e).2 ⟨he, hk⟩] at h
  cases h

/-- Rebuilding the chains from a list of entries. -/
theorem foldPush (idx : K → Nat) (n : Nat) (hidx : ∀ k, idx k < n) :
    ∀ (es : List (Entry K V)) (bs : List (List (Entry K V))), bs.length = n →
      (∀ i e, e ∈ bs.getD i [] → idx e.key = i) →
      let r := es.foldl (fun bs e => push bs (idx e.key) e) bs
      r.length = n ∧ (∀ i e, e ∈ r.getD i [] → idx e.key = i) ∧ r.flatten.Perm (es ++ bs.flatten) := by
  intro es
  induction es with
  | nil => intro bs hl hp; exact ⟨hl, hp, List.Perm.refl _⟩
  | cons x es ih =>
    intro bs hl hp
    have hx : idx x.key < bs.length := by rw [hl]; exact hidx _
    have h := ih (push bs (idx x.key) x) (by simp [push, hl]) (by
      intro i e he
      rw [push, getD_modify _ _ _ _ hx] at he
      split at he
      · rename_i h
        rcases List.mem_cons.1 he with rfl | he
        · exact h.symm
        · exact hp i e he
      · exact hp i e he)
    refine ⟨h.1, h.2.1, ?_⟩
    simp only [List.foldl_cons, List.cons_append]
    refine h.2.2.trans ?_
    refine (List.Perm.append_left es (flatten_modify_cons bs _ x hx)).trans ?_
    exact List.perm_middle

theorem Inv.of_perm {o : KeyOps K} {t t' : Tbl K V} (hl : t'.buckets.length = t'.numBuckets)
    (hm : t'.mask + 1 = t'.numBuckets)
    (hp : ∀ i e, e ∈ t'.buckets.getD i [] → o.findIdx t'.downShift t'.mask e.key = i)
    {es : List (Entry K V)} (h : t'.buckets.flatten.Perm es) (hk : (es.map (·.key)).Nodup)
    (hids : (es.map (·.id)).Nodup) (hlt : ∀ e ∈ es, e.id < t'.nextId)
    (hc : t'.numEntries = es.length) : Inv o t' where
  len := hl
  msk := hm
  place := hp
  keys := (h.map _).nodup_iff.2 hk
  ids := (h.map _).nodup_iff.2 hids
  idlt e he := hlt e (h.mem_iff.1 he)
  cnt := by rw [hc, h.length_eq]

theorem rebuild_ok {o : KeyOps K} (g : Good o) {t : Tbl K V} (hi : Inv o t) :
    Inv o (rebuild o t) ∧ (rebuild o t).buckets.flatten.Perm t.buckets.flatten := by
  have hn : 0 < t.numBuckets := by rw [← hi.msk]; omega
  have h := foldPush (V := V) (fun k => o.rebIdx (t.downShift - 2) (t.numBuckets * 4 - 1) k)
    (t.numBuckets * 4)
    (fun k => by
      have := g.le (t.downShift - 2) (t.numBuckets * 4 - 1) k
      simp only [g.reb]; omega)
    t.buckets.flatten (List.replicate (t.numBuckets * 4) []) (by simp) (by
      intro i e he
      simp only [List.getD_eq_getElem?_getD, List.getElem?_replicate] at he
      split at he <;> simp at he)
  obtain ⟨h1, h2, h3⟩ := h
  have hperm : (rebuild o t).buckets.flatten.Perm t.buckets.flatten := by
    simpa [rebuild] using h3
  refine ⟨Inv.of_perm (t := t) ?_ ?_ ?_ hperm hi.keys hi.ids hi.idlt hi.cnt, hperm⟩
  · simp only [rebuild]; exact h1
  · simp only [rebuild]; omega
  · intro i e he
    rw [← g.reb]
    exact h2 i e he

open Classical in
theorem create_ok {o : KeyOps K} (g : Good o) (z : V) {t : Tbl K V} (hi : Inv o t) (k : K) :
    Inv o (create o z t k).1 ∧
    (∃ e ∈ (create o z t k).1.buckets.flatten, e.key = k ∧ e.id = (create o z t k).2.1 ∧
      ((create o z t k).2.2 = true → e.val = z)) ∧
    (if (∃ e ∈ t.buckets.flatten, e.key = k) then (create o z t k).1 = t ∧ (create o z t k).2.2 = false
     else (create o z t k).1.buckets.flatten.Perm (⟨t.nextId, k, z⟩ :: t.buckets.flatten) ∧
      (create o z t k).2.2 = true) := by
  unfold create
  cases hf : find o t k with
  | some e =>
    have h := (find_iff g hi k e).1 hf
    have hex : ∃ e ∈ t.buckets.flatten, e.key = k := ⟨e, h⟩
    simp only [hex, if_true, and_self, and_true]
    exact ⟨hi, e, h.1, h.2, rfl, by simp⟩
  | none =>
    have hno := find_none g hi k hf
    have hex : ¬ ∃ e ∈ t.buckets.flatten, e.key = k := fun ⟨e, he, h⟩ => hno e he h
    simp only [hex, if_false]
    have hidx : o.findIdx t.downShift t.mask k < t.buckets.length := by
      have := g.le t.downShift t.mask k
      rw [hi.len, ← hi.msk]; omega
    obtain ⟨t1, ht1⟩ : ∃ t1 : Tbl K V, ({ t with
      buckets := push t.buckets (o.findIdx t.downShift t.mask k) ⟨t.nextId, k, z⟩
      numEntries := t.numEntries + 1
      nextId := t.nextId + 1 } : Tbl K V) = t1 := ⟨_, rfl⟩
    have hb : t1.buckets = push t.buckets (o.findIdx t.downShift t.mask k) ⟨t.nextId, k, z⟩ := by
      rw [← ht1]
    have hperm : t1.buckets.flatten.Perm (⟨t.nextId, k, z⟩ :: t.buckets.flatten) := by
      rw [hb]; exact flatten_modify_cons _ _ _ hidx
    have hinv : Inv o t1 := by
      refine Inv.of_perm (t := t) ?_ ?_ ?_ hperm ?_ ?_ ?_ ?_
      · rw [← ht1]; simp [push, hi.len]
      · rw [← ht1]; exact hi.msk
      · intro i e he
        rw [hb, push, getD_modify _ _ _ _ hidx] at he
        rw [← ht1]
        simp only []
        split at he
        · rename_i h
          rcases List.mem_cons.1 he with rfl | he
          · exact h.symm
          · exact hi.place i e he
        · exact hi.place i e he
      · simp only [List.map_cons, List.nodup_cons]
        refine ⟨?_, hi.keys⟩
        intro hk
        obtain ⟨e, he, h⟩ := List.mem_map.1 hk
        exact hno e he h
      · simp only [List.map_cons, List.nodup_cons]
        refine ⟨?_, hi.ids⟩
        intro hk
        obtain ⟨e, he, h⟩ := List.mem_map.1 hk
        have := hi.idlt e he
        omega
      · intro e he
        rw [← ht1]
        rcases List.mem_cons.1 he with rfl | he
        · simp
        · have := hi.idlt e he; simp only []; omega
      · rw [← ht1]; simp [hi.cnt]
    by_cases hr : t.rebuildSize ≤ t.numEntries + 1
    · have h := rebuild_ok g hinv
      simp only [hr, if_true, and_true]
      rw [ht1]
      have hp := h.2.trans hperm
      exact ⟨h.1, ⟨⟨t.nextId, k, z⟩, hp.mem_iff.2 (by simp), rfl, rfl, fun _ => rfl⟩, hp⟩
    · simp only [hr, if_false, and_true]
      rw [ht1, ← hb]
      exact ⟨hinv, ⟨⟨t.nextId, k, z⟩, hperm.mem_iff.2 (by simp), rfl, rfl, fun _ => rfl⟩, hperm⟩

theorem flatten_map_map {α β} (f : α → β) (bs : List (List α)) :
    (bs.map (·.map f)).flatten = bs.flatten.map f := by
  rw [List.map_flatten]

theorem valueSet_flatten (t : Tbl K V) (id : Nat) (v : V) :
    (valueSet t id v).buckets.flatten =
      t.buckets.flatten.map (fun e => if e.id = id then { e with val := v } else e) :=
  flatten_map_map _ _

theorem valueSet_inv {o : KeyOps K} {t : Tbl K V} (hi : Inv o t) (id : Nat) (v : V) :
    Inv o (valueSet t id v) where
  len := by simp only [valueSet, List.length_map]; exact hi.len
  msk := hi.msk
  place i e he := by
    simp only [valueSet, List.getD_eq_getElem?_getD, List.getElem?_map] at he
    cases hb : t.buckets[i]? with
    | none => simp [hb] at he
    | some c =>
      simp only [hb, Option.map_some, Option.getD_some, List.mem_map] at he
      obtain ⟨x, hx, rfl⟩ := he
      have := hi.place i x (by simpa [List.getD_eq_getElem?_getD, hb] using hx)
      simp only [valueSet]
      split <;> exact this
  keys := by
    rw [valueSet_flatten, List.map_map]
    have : ((fun e : Entry K V => e.key) ∘ fun e => if e.id = id then { e with val := v } else e) =
      (fun e => e.key) := by funext e; simp only [Function.comp]; split <;> rfl
    rw [this]; exact hi.keys
  ids := by
    rw [valueSet_flatten, List.map_map]
    have : ((fun e : Entry K V => e.id) ∘ fun e => if e.id = id then { e with val := v } else e) =
      (fun e => e.id) := by funext e; simp only [Function.comp]; split <;> rfl
    rw [this]; exact hi.ids
  idlt e he := by
    rw [valueSet_flatten] at he
    obtain ⟨x, hx, rfl⟩ := List.mem_map.1 he
    have := hi.idlt x hx
    simp only [valueSet]
    split <;> exact this
  cnt := by rw [valueSet_flatten, List.length_map]; exact hi.cnt

variable [DecidableEq K]

theorem new_holds {o : KeyOps K} (g : Good o) (z : V) {t : Tbl K V} (hi : Inv o t)
    {m : K → Option V} (hm : Holds t m) (k : K) :
    Holds (create o z t k).1 (specStep z m (.new k)) := by
  obtain ⟨_, _, h3⟩ := create_ok g z hi k
  intro x v
  simp only [specStep]
  by_cases hex : ∃ e ∈ t.buckets.flatten, e.key = k
  · rw [if_pos hex] at h3
    rw [h3.1]
    obtain ⟨e, he, hk⟩ := hex
    have hmk : m k = some e.val := (hm k e.val).2 ⟨e, he, hk, rfl⟩
    by_cases hx : x = k
    · subst hx; simp only [if_true, hmk, Option.getD_some]; rw [← hmk]; exact hm x v
    · rw [if_neg hx]; exact hm x v
  · rw [if_neg hex] at h3
    have hmk : m k = none := by
      cases hmk : m k with
      | none => rfl
      | some w =>
        obtain ⟨e, he, hk, _⟩ := (hm k w).1 hmk
        exact absurd ⟨e, he, hk⟩ hex
    have hmem : ∀ e, e ∈ (create o z t k).1.buckets.flatten ↔
        e = ⟨t.nextId, k, z⟩ ∨ e ∈ t.buckets.flatten := fun e => by
      rw [h3.1.mem_iff, List.mem_cons]
    by_cases hx : x = k
    · subst hx
      rw [if_pos rfl, hmk]
      constructor
      · intro h
        have : z = v := by simpa using h
        exact ⟨_, (hmem _).2 (Or.inl rfl), rfl, this⟩
      · rintro ⟨e, he, hk, hv⟩
        rcases (hmem e).1 he with rfl | he
        · simpa using hv
        · exact absurd ⟨e, he, hk⟩ hex
    · rw [if_neg hx, hm x v]
      constructor
      · rintro ⟨e, he, h⟩; exact ⟨e, (hmem e).2 (Or.inr he), h⟩
      · rintro ⟨e, he, hk, hv⟩
        rcases (hmem e).1 he with rfl | he
        · exact absurd hk.symm hx
        · exact ⟨e, he, hk, hv⟩

theorem set_ok {o : KeyOps K} (g : Good o) (z : V) {t : Tbl K V} (hi : Inv o t)
    {m : K → Option V} (hm : Holds t m) (k : K) (v : V) :
    Inv o (set o z t k v) ∧ Holds (set o z t k v) (specStep z m (.set k v)) := by
  obtain ⟨h1, ⟨e0, he0, hk0, hid0, _⟩, _⟩ := create_ok g z hi k
  have h2 := new_holds g z hi hm k
  refine ⟨valueSet_inv h1 _ _, ?_⟩
  intro x w
  simp only [set, valueSet_flatten, specStep]
  have hkey : ∀ e ∈ (create o z t k).1.buckets.flatten,
      (e.id = (create o z t k).2.1 ↔ e.key = k) := by
    intro e he
    constructor
    · intro h; rw [uniqId h1 he he0 (h.trans hid0.symm)]; exact hk0
    · intro h; rw [uniq h1 he he0 (h.trans hk0.symm)]; exact hid0
  by_cases hx : x = k
  · subst hx
    rw [if_pos rfl]
    constructor
    · intro h
      have : v = w := by simpa using h
      exact ⟨_, List.mem_map.2 ⟨e0, he0, rfl⟩, by rw [if_pos hid0]; exact hk0,
        by rw [if_pos hid0]; exact this⟩
    · rintro ⟨e, he, hk, hv⟩
      obtain ⟨y, hy, rfl⟩ := List.mem_map.1 he
      by_cases hc : y.id = (create o z t x).2.1
      · rw [if_pos hc] at hv; exact congrArg some hv
      · rw [if_neg hc] at hk; exact absurd ((hkey y hy).2 hk) hc
  · rw [if_neg hx]
    have h3 := h2 x w
    simp only [specStep, if_neg hx] at h3
    rw [h3]
    constructor
    · rintro ⟨e, he, hk, hv⟩
      have hc : ¬ e.id = (create o z t k).2.1 := by rw [hkey e he, hk]; exact hx
      exact ⟨_, List.mem_map.2 ⟨e, he, rfl⟩, by rw [if_neg hc]; exact hk, by rw [if_neg hc]; exact hv⟩
    · rintro ⟨e, he, hk, hv⟩
      obtain ⟨y, hy, rfl⟩ := List.mem_map.1 he
      by_cases hc : y.id = (create o z t k).2.1
      · rw [if_pos hc] at hk; exact absurd (hk.symm.trans ((hkey y hy).1 hc)) hx
      · rw [if_neg hc] at hk hv; exact ⟨y, hy, hk, hv⟩

theorem unset_ok {o : KeyOps K} (g : Good o) {t : Tbl K V} (hi : Inv o t)
    {m : K → Option V} (hm : Holds t m) (z : V) (k : K) :
    ∃ t', unset o t k = some (t', (m k).isSome) ∧ Inv o t' ∧ Holds t' (specStep z m (.unset k)) := by
  unfold unset
  cases hf : find o t k with
  | none =>
    have hno := find_none g hi k hf
    have hmk : m k = none := by
      cases hmk : m k with
      | none => rfl
      | some w =>
        obtain ⟨e, he, hk, _⟩ := (hm k w).1 hmk
        exact absurd hk (hno e he)
    refine ⟨t, by rw [hmk]; rfl, hi, ?_⟩
    intro x v
    simp only [specStep]
    by_cases hx : x = k
    · subst hx; rw [if_pos rfl, ← hmk]; exact hm x v
    · rw [if_neg hx]; exact hm x v
  | some e =>
    obtain ⟨he, hk⟩ := (find_iff g hi k e).1 hf
    have hmk : m k = some e.val := (hm k e.val).2 ⟨e, he, hk, rfl⟩
    obtain ⟨i, hil, hei⟩ := (mem_flatten_getD _ _).1 he
    have hpl := hi.place i e hei
    simp only [entryDelete, g.del]
    rw [hpl]
    have hany : (t.buckets.getD i []).any (fun x => x.id == e.id) = true :=
      List.any_eq_true.2 ⟨e, hei, by simp⟩
    rw [if_pos hany]
    have hperm := flatten_modify_erase t.buckets i (fun x => x.id == e.id) e hei (by simp) (by
      intro x hx hxe
      exact uniqId hi ((mem_flatten_getD _ _).2 ⟨i, hil, hx⟩) he (by simpa using hxe))
    have hkeys := (hperm.map (fun e => e.key)).nodup_iff.2 hi.keys
    have hids := (hperm.map (fun e => e.id)).nodup_iff.2 hi.ids
    simp only [List.map_cons, List.nodup_cons] at hkeys hids
    refine ⟨_, by rw [hmk]; rfl, ?_, ?_⟩
    · refine Inv.of_perm (t := t) ?_ hi.msk ?_ (List.Perm.refl _) hkeys.2 hids.2 ?_ ?_
      · simp [hi.len]
      · intro j x hx
        simp only [] at hx ⊢
        rw [getD_modify _ _ _ _ hil] at hx
        split at hx
        · exact hi.place j x (List.mem_of_mem_eraseP hx)
        · exact hi.place j x hx
      · intro x hx; exact hi.idlt x (hperm.mem_iff.1 (List.mem_cons_of_mem _ hx))
      · have := hperm.length_eq
        simp only [List.length_cons] at this
        simp only [hi.cnt]; omega
    · intro x v
      simp only [specStep]
      by_cases hx : x = k
      · subst hx
        rw [if_pos rfl]
        constructor
        · intro h; cases h
        · rintro ⟨y, hy, hyk, _⟩
          exact absurd (List.mem_map.2 ⟨y, hy, hyk.trans hk.symm⟩) hkeys.1
      · rw [if_neg hx, hm x v]
        constructor
        · rintro ⟨y, hy, hyk, hv⟩
          refine ⟨y, ?_, hyk, hv⟩
          rcases List.mem_cons.1 (hperm.mem_iff.2 hy) with rfl | h
          · exact absurd (hyk.symm.trans hk) hx
          · exact h
        · rintro ⟨y, hy, h⟩
          exact ⟨y, hperm.mem_iff.1 (List.mem_cons_of_mem _ hy), h⟩

theorem exec_ok {o : KeyOps K} (g : Good o) (z : V) {t : Tbl K V} (hi : Inv o t)
    {m : K → Option V} (hm : Holds t m) (op : Op K V) :
    ∃ t', exec o z t op = some t' ∧ Inv o t' ∧ Holds t' (specStep z m op) := by
  cases op with
  | new k => exact ⟨_, rfl, (create_ok g z hi k).1, new_holds g z hi hm k⟩
  | set k v => exact ⟨_, rfl, set_ok g z hi hm k v⟩
  | unset k =>
    obtain ⟨t', h1, h2, h3⟩ := unset_ok g hi hm z k
    exact ⟨t', by simp [exec, h1], h2, h3⟩

theorem run_ok {o : KeyOps K} (g : Good o) (z : V) (ops : List (Op K V)) :
    ∀ (t : Tbl K V) (m : K → Option V), Inv o t → Holds t m →
      ∃ t', run o z t ops = some t' ∧ Inv o t' ∧ Holds t' (ops.foldl (specStep z) m) := by
  induction ops with
  | nil => intro t m hi hm; exact ⟨t, rfl, hi, hm⟩
  | cons op ops ih =>
    intro t m hi hm
    obtain ⟨t1, h1, h2, h3⟩ := exec_ok g z hi hm op
    obtain ⟨t2, h4, h5⟩ := ih t1 _ h2 h3
    exact ⟨t2, by simp [run, h1, h4], h5⟩

theorem presents {o : KeyOps K} (g : Good o) {t : Tbl K V} (hi : Inv o t)
    {m : K → Option V} (hm : Holds t m) : Presents o t m := by
  have hs : searchAll t = t.buckets.flatten := by
    unfold searchAll
    rw [searchFrom_eq t hi.len _ 0 []]
    · simp
    · simp only [List.drop_zero, List.nil_append, hi.cnt]; omega
  refine ⟨?_, ?_, ?_, ?_⟩
  · intro k
    unfold get
    cases hf : find o t k with
    | none =>
      cases hmk : m k with
      | none => rfl
      | some w =>
        obtain ⟨e, he, hk, _⟩ := (hm k w).1 hmk
        exact absurd hk (find_none g hi k hf e he)
    | some e =>
      obtain ⟨he, hk⟩ := (find_iff g hi k e).1 hf
      exact ((hm k e.val).2 ⟨e, he, hk, rfl⟩).symm
  · intro k v; rw [hs]; exact hm k v
  · rw [hs]; exact hi.keys
  · rw [hs]; exact hi.cnt

theorem map_generic {o : KeyOps K} (g : Good o) (z : V) (ops : List (Op K V)) :
    ∃ t, run o z new ops = some t ∧ Presents o t (specRun z ops) := by
  obtain ⟨t, h1, h2, h3⟩ := run_ok g z ops new (fun _ => none) (inv_new o) (by
    intro k v; simp [new])
  exact ⟨t, h1, presents g h2 h3⟩

/-- **C14**, word keys: no history crashes and after every history the table presents the map of the
values set and not deleted. -/
theorem C14_map_word (z : V) (ops : List (Op (BitVec 64) V)) :
    ∃ t, run wordOps z new ops = some t ∧ Presents wordOps t (specRun z ops) :=
  map_generic good_word z ops

/-- **C14**, string keys. -/
theorem C14_map_string (z : V) (ops : List (Op (List UInt8) V)) :
    ∃ t, run stringOps z new ops = some t ∧ Presents stringOps t (specRun z ops) :=
  map_generic good_string z ops

/-- **C14**, struct keys. -/
theorem C14_map_struct (z : V) (ops : List (Op (List UInt8) V)) :
    ∃ t, run structOps z new ops = some t ∧ Presents structOps t (specRun z ops) :=
  map_generic good_struct z ops

/-- **C14**: `Jsi_HashUnset` reports whether the key was there (all three kinds of table share the
proof; stated for strings). -/
theorem C14_unset_result (z : V) (ops : List (Op (List UInt8) V)) (t : Tbl (List UInt8) V)
    (h : run stringOps z new ops = some t) (k : List UInt8) :
    ∃ t', unset stringOps t k = some (t', (specRun z ops k).isSome) := by
  obtain ⟨t1, h1, h2, h3⟩ := run_ok good_string z ops new (fun _ => none) (inv_new _) (by
    intro k v; simp [new])
  rw [h1] at h; cases h
  obtain ⟨t', h4, _⟩ := unset_ok good_string h2 h3 z k
  exact ⟨t', h4⟩


/-! ### Sizes -/

/-- The shape of the counters after `k` rebuilds. -/
def Shape (t : Tbl K V) (k : Nat) : Prop :=
  t.numBuckets = 16 * 4 ^ k ∧ t.rebuildSize = 48 * 4 ^ k ∧ t.downShift = 28 - 2 * k ∧
  t.numEntries ≤ t.nextId ∧ t.numEntries < t.rebuildSize ∧ (k = 0 ∨ 48 * 4 ^ (k - 1) ≤ t.nextId)

omit [DecidableEq K] in
theorem create_shape (o : KeyOps K) (z : V) {t : Tbl K V} {k : Nat} (h : Shape t k) (key : K) :
    ∃ k', Shape (create o z t key).1 k' ∧ (create o z t key).1.nextId ≤ t.nextId + 1 := by
  unfold create
  cases find o t key with
  | some e => exact ⟨k, h, by simp⟩
  | none =>
    obtain ⟨h1, h2, h3, h4, h5, h6⟩ := h
    simp only []
    by_cases hr : t.rebuildSize ≤ t.numEntries + 1
    · simp only [hr, if_true]
      refine ⟨k + 1, ⟨?_, ?_, ?_, ?_, ?_, ?_⟩, ?_⟩
      · simp only [rebuild, h1, Nat.pow_succ]; omega
      · simp only [rebuild, h2, Nat.pow_succ]; omega
      · simp only [rebuild, h3]; omega
      · simp only [rebuild]; omega
      · simp only [rebuild]; omega
      · right; simp only [rebuild, Nat.add_sub_cancel]; omega
      · simp [rebuild]
    · simp only [hr, if_false]
      refine ⟨k, ⟨h1, h2, h3, ?_, ?_, ?_⟩, ?_⟩ <;> (try simp only []) <;> omega

omit [DecidableEq K] in
theorem run_shape (o : KeyOps K) (z : V) (ops : List (Op K V)) :
    ∀ (t : Tbl K V) (k : Nat) (t' : Tbl K V), Shape t k → run o z t ops = some t' →
      ∃ k', Shape t' k' ∧ t'.nextId ≤ t.nextId + ops.length := by
  induction ops with
  | nil => intro t k t' h hr; cases hr; exact ⟨k, h, by simp⟩
  | cons op ops ih =>
    intro t k t' h hr
    simp only [run, Option.bind_eq_some_iff] at hr
    obtain ⟨t1, h1, h2⟩ := hr
    have hstep : ∃ k1, Shape t1 k1 ∧ t1.nextId ≤ t.nextId + 1 := by
      cases op with
      | new key => cases h1; exact create_shape o z h key
      | set key v => cases h1; exact create_shape o z h key
      | unset key =>
        simp only [exec, unset] at h1
        cases hf : find o t key with
        | none => rw [hf] at h1; cases h1; exact ⟨k, h, by simp⟩
        | some e =>
          rw [hf] at h1
          simp only [entryDelete] at h1
          split at h1
          · cases h1
            obtain ⟨h1, h2, h3, h4, h5, h6⟩ := h
            refine ⟨k, ⟨h1, h2, h3, ?_, ?_, h6⟩, ?_⟩ <;> (try simp only []) <;> omega
          · simp at h1
    obtain ⟨k1, hk1, hn1⟩ := hstep
    obtain ⟨k2, hk2, hn2⟩ := ih t1 k1 t' hk1 h2
    exact ⟨k2, hk2, by simp only [List.length_cons]; omega⟩

omit [DecidableEq K] in
/-- **C14**: in a history of fewer than 805306368 operations the table is rebuilt at most 12 times, so
`numBuckets`, `numEntries` and `rebuildSize` are below `2^31` (they are C `int`s) and `downShift` has
not become negative. -/
theorem C14_no_overflow (o : KeyOps K) (z : V) (ops : List (Op K V)) (t : Tbl K V)
    (hlen : ops.length < 805306368) (h : run o z new ops = some t) :
    ∃ k ≤ 12, t.numBuckets = 16 * 4 ^ k ∧ t.downShift + 2 * k = 28 ∧
      t.numBuckets < 2 ^ 31 ∧ t.rebuildSize < 2 ^ 31 ∧ t.numEntries < t.rebuildSize := by
  obtain ⟨k, ⟨h1, h2, h3, h4, h5, h6⟩, hn⟩ := run_shape o z ops new 0 t
    ⟨rfl, rfl, rfl, Nat.le_refl _, by simp [new], Or.inl rfl⟩ h
  have hn' : t.nextId ≤ ops.length := by simpa [new] using hn
  have hk : k ≤ 12 := by
    rcases h6 with h6 | h6
    · omega
    · by_contra hc
      have : (4 : Nat) ^ 12 ≤ 4 ^ (k - 1) := Nat.pow_le_pow_right (by omega) (by omega)
      have h412 : (4 : Nat) ^ 12 = 16777216 := by decide
      omega
  have : (4 : Nat) ^ k ≤ 4 ^ 12 := Nat.pow_le_pow_right (by omega) hk
  have h412 : (4 : Nat) ^ 12 = 16777216 := by decide
  refine ⟨k, hk, h1, by omega, ?_, ?_, h5⟩
  · simp only [Nat.reducePow]; omega
  · simp only [Nat.reducePow]; omega

omit [DecidableEq K] in
/-- **C14**: every bucket index computed by find, create and rebuild is within the bucket array. -/
theorem C14_in_bounds {o : KeyOps K} (g : Good o) (ds n : Nat) (hn : 0 < n) (k : K) :
    o.findIdx ds (n - 1) k < n ∧ o.rebIdx ds (n - 1) k < n ∧ o.delIdx ds (n - 1) (o.hval k) < n := by
  have := g.le ds (n - 1) k
  rw [g.reb, g.del]
  omega

end Verif.Hash
