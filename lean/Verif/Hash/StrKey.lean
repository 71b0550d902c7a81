import Verif.Hash.Props

/-! C15 (shared string keys), C43 (clearing), and examples for C14. -/

namespace Verif.Hash

variable {K V : Type} [DecidableEq K]

/-- Non-vacuity: a history with a collision, an overwrite, and a deletion. -/
example : (run wordOps 0 new
      [.set 1#64 10, .set 2#64 20, .set 1#64 11, .new 3#64, .unset 2#64]).map
    (fun t => (get wordOps t 1#64, get wordOps t 2#64, get wordOps t 3#64, size t)) =
    some (some 11, none, some 0, 2) := by
  decide +kernel

/-! ### C15: tables with shared string keys -/

/-- The key an operation is about. -/
def Op.key : Op K V → K
  | .new k => k
  | .set k _ => k
  | .unset k => k

/-- Operations that only add. -/
def Op.adds : Op K V → Bool
  | .unset _ => false
  | _ => true

/-- **C15 refuted**: storing one key and removing it crashes: the entry is looked for in the wrong
chain (bucket 1 instead of bucket 4). -/
theorem C15_unset_refuted : ¬ ∀ ops : List (Op (BitVec 64) Nat),
    ∃ t, run strkeyOps 0 new ops = some t := by
  intro h
  obtain ⟨t, ht⟩ := h [.set 1#64 10, .unset 1#64]
  have : run strkeyOps 0 (new : Tbl (BitVec 64) Nat) [.set 1#64 10, .unset 1#64] = none := by
    decide +kernel
  rw [this] at ht; cases ht

theorem strkey_find (t : Tbl (BitVec 64) V) (k : BitVec 64) :
    find strkeyOps t k = find wordOps t k := by
  simp only [find, strkeyOps, wordOps]

theorem strkey_create (z : V) (t : Tbl (BitVec 64) V) (k : BitVec 64)
    (h : t.numEntries + 1 < t.rebuildSize) :
    create strkeyOps z t k = create wordOps z t k ∧
      (create wordOps z t k).1.rebuildSize = t.rebuildSize := by
  have hf : find strkeyOps t k = find wordOps t k := strkey_find t k
  unfold create
  rw [hf]
  cases find wordOps t k with
  | some e => exact ⟨rfl, rfl⟩
  | none =>
    have : ¬ t.rebuildSize ≤ t.numEntries + 1 := by omega
    simp only [this, if_false, strkeyOps, wordOps, and_self]

theorem strkey_run (z : V) (ks : List (BitVec 64)) (hks : ks.length < 48)
    (ops : List (Op (BitVec 64) V)) : ∀ (t : Tbl (BitVec 64) V) (m : BitVec 64 → Option V),
      Inv wordOps t → Holds t m → t.rebuildSize = 48 →
      (∀ e ∈ t.buckets.flatten, e.key ∈ ks) →
      (∀ op ∈ ops, op.adds = true ∧ op.key ∈ ks) →
      ∃ t', run strkeyOps z t ops = some t' ∧ run wordOps z t ops = some t' ∧
        t'.rebuildSize = 48 ∧ (∀ e ∈ t'.buckets.flatten, e.key ∈ ks) := by
  induction ops with
  | nil => intro t m _ _ hr hk _; exact ⟨t, rfl, rfl, hr, hk⟩
  | cons op ops ih =>
    intro t m hi hm hr hk hops
    have hop := hops op (by simp)
    have hfew : ∀ (t : Tbl (BitVec 64) V), Inv wordOps t → (∀ e ∈ t.buckets.flatten, e.key ∈ ks) →
        t.numEntries ≤ ks.length := by
      intro t hi hk
      rw [hi.cnt, ← List.length_map (f := fun e : Entry (BitVec 64) V => e.key)]
      refine (List.subperm_of_subset hi.keys ?_).length_le
      intro x hx
      obtain ⟨e, he, rfl⟩ := List.mem_map.1 hx
      exact hk e he
    -- the new entry list is still within ks
    have hkc : ∀ k ∈ ks, ∀ e ∈ (create wordOps z t k).1.buckets.flatten, e.key ∈ ks := by
      intro k hkk e he
      obtain ⟨_, _, h3⟩ := create_ok good_word z hi k
      by_cases hex : ∃ e ∈ t.buckets.flatten, e.key = k
      · rw [if_pos hex] at h3
        rw [h3.1] at he; exact hk e he
      · rw [if_neg hex] at h3
        rcases List.mem_cons.1 (h3.1.mem_iff.1 he) with rfl | he
        · exact hkk
        · exact hk e he
    have hcr : ∀ k ∈ ks, create strkeyOps z t k = create wordOps z t k ∧
        (create wordOps z t k).1.rebuildSize = 48 := by
      intro k hkk
      cases hf : find wordOps t k with
      | some e =>
        have hf' : find strkeyOps t k = some e := (strkey_find t k).trans hf
        constructor
        · simp only [create, hf, hf']
        · simp only [create, hf, hr]
      | none =>
        have hno := find_none good_word hi k hf
        -- one key of ks is not in the table
        have hlt : t.numEntries + 1 ≤ ks.length := by
          have hnd : (k :: t.buckets.flatten.map (fun e : Entry (BitVec 64) V => e.key)).Nodup := by
            refine List.nodup_cons.2 ⟨?_, hi.keys⟩
            intro hx
            obtain ⟨e, he, h⟩ := List.mem_map.1 hx
            exact hno e he h
          have := (List.subperm_of_subset (l₂ := ks) hnd (by
            intro x hx
            rcases List.mem_cons.1 hx with rfl | hx
            · exact hkk
            · obtain ⟨e, he, rfl⟩ := List.mem_map.1 hx
              exact hk e he)).length_le
          simp only [List.length_cons, List.length_map] at this
          rw [hi.cnt]; exact this
        have := strkey_create z t k (by omega)
        exact ⟨this.1, this.2.trans hr⟩
    obtain ⟨t1, h1, h2, h3⟩ := exec_ok good_word z hi hm op
    have hsame : exec strkeyOps z t op = some t1 ∧ t1.rebuildSize = 48 ∧
        (∀ e ∈ t1.buckets.flatten, e.key ∈ ks) := by
      cases op with
      | new k =>
        have hc := hcr k hop.2
        simp only [exec] at h1 ⊢
        cases h1
        exact ⟨by rw [hc.1], hc.2, hkc k hop.2⟩
      | set k v =>
        have hc := hcr k hop.2
        simp only [exec, set] at h1 ⊢
        cases h1
        refine ⟨by rw [hc.1], hc.2, ?_⟩
        intro e he
        rw [valueSet_flatten] at he
        obtain ⟨x, hx, rfl⟩ := List.mem_map.1 he
        have := hkc k hop.2 x hx
        split <;> exact this
      | unset k => simp [Op.adds] at hop
    obtain ⟨t2, h4, h5, h6⟩ := ih t1 _ h2 h3 hsame.2.1 hsame.2.2 (fun op h => hops op (by simp [h]))
    exact ⟨t2, by simp [run, hsame.1, h4], by simp [run, h1, h5], h6⟩

/-- **C15**, the part that holds: as long as nothing is removed and at most 47 different keys are
used (`ks`), the table presents the map.  Missing: removal, and 48 keys or more (refuted above). -/
theorem C15_map_partial (z : V) (ks : List (BitVec 64)) (hks : ks.length < 48)
    (ops : List (Op (BitVec 64) V)) (hops : ∀ op ∈ ops, op.adds = true ∧ op.key ∈ ks) :
    ∃ t, run strkeyOps z new ops = some t ∧ Presents strkeyOps t (specRun z ops) := by
  obtain ⟨t, h1, h2, _⟩ := strkey_run z ks hks ops new (fun _ => none) (inv_new _)
    (by intro k v; simp [new]) rfl (by simp [new]) hops
  obtain ⟨t', h3, h4⟩ := C14_map_word z ops
  rw [h2] at h3; cases h3
  exact ⟨t, h1, ⟨fun k => by rw [← h4.lookup k, get, get, strkey_find], h4.search, h4.once, h4.size⟩⟩

/-- **C15**: exactly when removing a present key crashes, in the same histories. -/
theorem C15_unset_crash_partial (z : V) (ks : List (BitVec 64)) (hks : ks.length < 48)
    (ops : List (Op (BitVec 64) V)) (hops : ∀ op ∈ ops, op.adds = true ∧ op.key ∈ ks)
    (k : BitVec 64) (hk : (specRun z ops k).isSome = true) :
    (run strkeyOps z new (ops ++ [.unset k]) = none ↔
      randomIndex 28 15 k.toNat ≠ k.toNat &&& 15) := by
  obtain ⟨t, h1, h2, hr, _⟩ := strkey_run z ks hks ops new (fun _ => none) (inv_new _)
    (by intro k v; simp [new]) rfl (by simp [new]) hops
  obtain ⟨t', h3, hi, hm⟩ := run_ok good_word z ops new (fun _ => none) (inv_new _) (by
    intro k v; simp [new])
  rw [h2] at h3; cases h3
  obtain ⟨j, ⟨s1, s2, s3, _, _, _⟩, _⟩ := run_shape wordOps z ops new 0 t
    ⟨rfl, rfl, rfl, Nat.le_refl _, by simp [new], Or.inl rfl⟩ h2
  have hj : j = 0 := by
    rw [hr] at s2
    by_contra hj
    have : (4 : Nat) ^ 1 ≤ 4 ^ j := Nat.pow_le_pow_right (by omega) (by omega)
    omega
  subst hj
  have hmask : t.mask = 15 := by have := hi.msk; rw [s1] at this; omega
  have happ : ∀ (l : List (Op (BitVec 64) V)) (u : Tbl (BitVec 64) V), run strkeyOps z u (l ++ [.unset k]) =
      (run strkeyOps z u l).bind (fun t => exec strkeyOps z t (.unset k)) := by
    intro l
    induction l with
    | nil => intro u; simp only [List.nil_append, run, Option.bind_some]; cases exec strkeyOps z u (.unset k) <;> rfl
    | cons a l ih =>
      intro u
      simp only [List.cons_append, run]
      cases exec strkeyOps z u a with
      | none => rfl
      | some u' => exact ih u'
  rw [happ, h1]
  obtain ⟨v, hv⟩ := Option.isSome_iff_exists.1 hk
  obtain ⟨e, he, hek, hev⟩ := (hm k v).1 hv
  have hf : find strkeyOps t k = some e := (strkey_find t k).trans <| (find_iff good_word hi k e).2 ⟨he, hek⟩
  obtain ⟨i, hil, hei⟩ := (mem_flatten_getD _ _).1 he
  have hpl : randomIndex t.downShift t.mask e.key.toNat = i := hi.place i e hei
  rw [hmask, s3, hek] at hpl
  simp only [Option.bind_some, exec, unset, hf]
  simp only [entryDelete, strkeyOps, hmask, hek]
  constructor
  · intro h hc
    rw [if_pos] at h
    · simp at h
    · rw [← hc, hpl]
      exact List.any_eq_true.2 ⟨e, hei, by simp⟩
  · intro hne
    rw [if_neg]
    · rfl
    · intro hany
      obtain ⟨x, hx, hxe⟩ := List.any_eq_true.1 hany
      have hxl : k.toNat &&& 15 < t.buckets.length := by
        rw [hi.len, s1]; have : k.toNat &&& 15 ≤ 15 := Nat.and_le_right; omega
      have hxm := (mem_flatten_getD _ _).2 ⟨_, hxl, hx⟩
      have := uniqId hi hxm he (by simpa using hxe)
      subst this
      have hpl2 : randomIndex t.downShift t.mask x.key.toNat = k.toNat &&& 15 := hi.place _ x hx
      rw [hmask, s3, hek] at hpl2
      exact hne hpl2

/-- Non-vacuity: three shared-string keys, stored and found; the hypotheses of the partial theorems
hold with `ks = [16, 32, 48]`. -/
example : (run strkeyOps 0 new [.set 16#64 10, .set 32#64 20, .new 48#64]).map
    (fun t => (get strkeyOps t 16#64, get strkeyOps t 48#64, size t)) = some (some 10, some 0, 3) ∧
    (∀ op ∈ ([.set 16#64 10, .set 32#64 20, .new 48#64] : List (Op (BitVec 64) Nat)),
      op.adds = true ∧ op.key ∈ [16#64, 32#64, 48#64]) := by
  refine ⟨by decide +kernel, ?_⟩
  intro op h
  simp only [List.mem_cons, List.not_mem_nil, or_false] at h
  rcases h with rfl | rfl | rfl <;> exact ⟨rfl, by decide⟩

/-- **C15 refuted**, general form: once 48 different keys have been stored (and nothing removed), the
table has been rebuilt with another placement and every stored key for which the two placements
differ can no longer be found. -/
theorem C15_rebuild_loses (z : V) (ks : List (BitVec 64)) (hks : ks.length = 48) (hnd : ks.Nodup)
    (v : BitVec 64 → V) :
    ∃ t, run strkeyOps z new (ks.map fun k => Op.set k (v k)) = some t ∧
      ∀ k, randomIndex 26 63 k.toNat ≠ k.toNat &&& 63 → get strkeyOps t k = none := by
  obtain ⟨init, last, rfl⟩ : ∃ init last, ks = init ++ [last] := by
    rcases List.eq_nil_or_concat ks with h | ⟨i, l, h⟩
    · subst h; simp at hks
    · exact ⟨i, l, by simpa using h⟩
  have hlen : init.length = 47 := by simpa using hks
  have hnd' := List.nodup_append.1 hnd
  obtain ⟨t, h1, h2, hr, hin⟩ := strkey_run z init (by omega) (init.map fun k => Op.set k (v k)) new
    (fun _ => none) (inv_new _) (by intro k v; simp [new]) rfl (by simp [new]) (by
      intro op hop
      obtain ⟨k, hk, rfl⟩ := List.mem_map.1 hop
      exact ⟨rfl, hk⟩)
  obtain ⟨t', h3, hi, hm⟩ := run_ok good_word z (init.map fun k => Op.set k (v k)) new
    (fun _ => none) (inv_new _) (by intro k v; simp [new])
  rw [h2] at h3; cases h3
  -- every key of init is in the table
  have hsome : ∀ (l : List (BitVec 64)) (m : BitVec 64 → Option V) k, (k ∈ l ∨ (m k).isSome = true) →
      (((l.map fun k => Op.set k (v k)).foldl (specStep z) m) k).isSome = true := by
    intro l
    induction l with
    | nil => intro m k h; simpa using h
    | cons a l ih =>
      intro m k h
      simp only [List.map_cons, List.foldl_cons]
      refine ih _ k ?_
      by_cases hka : k = a
      · right; simp [specStep, hka]
      · rcases h with h | h
        · left; simpa [hka] using h
        · right; simpa [specStep, hka] using h
  have hall : ∀ k ∈ init, ∃ e ∈ t.buckets.flatten, e.key = k := by
    intro k hk
    obtain ⟨w, hw⟩ := Option.isSome_iff_exists.1 (hsome init (fun _ => none) k (Or.inl hk))
    obtain ⟨e, he, hek, _⟩ := (hm k w).1 hw
    exact ⟨e, he, hek⟩
  have hcnt : 47 ≤ t.numEntries := by
    rw [hi.cnt, ← hlen, ← List.length_map (f := fun e : Entry (BitVec 64) V => e.key)]
    refine (List.subperm_of_subset hnd'.1 ?_).length_le
    intro k hk
    obtain ⟨e, he, hek⟩ := hall k hk
    exact List.mem_map.2 ⟨e, he, hek⟩
  have hnone : find strkeyOps t last = none := by
    cases hf : find strkeyOps t last with
    | none => rfl
    | some e =>
      obtain ⟨he, hek⟩ := (find_iff good_word hi last e).1 ((strkey_find t last).symm.trans hf)
      have := hin e he
      rw [hek] at this
      exact absurd rfl (hnd'.2.2 last this last (by simp))
  obtain ⟨j, ⟨s1, s2, s3, _, _, _⟩, _⟩ := run_shape wordOps z _ new 0 t
    ⟨rfl, rfl, rfl, Nat.le_refl _, by simp [new], Or.inl rfl⟩ h2
  have hj : j = 0 := by
    rw [hr] at s2
    by_contra hj
    have : (4 : Nat) ^ 1 ≤ 4 ^ j := Nat.pow_le_pow_right (by omega) (by omega)
    omega
  subst hj
  have happ : ∀ (l : List (Op (BitVec 64) V)) (u : Tbl (BitVec 64) V) op,
      run strkeyOps z u (l ++ [op]) =
      (run strkeyOps z u l).bind (fun t => exec strkeyOps z t op) := by
    intro l
    induction l with
    | nil => intro u op; simp only [List.nil_append, run, Option.bind_some]; cases exec strkeyOps z u op <;> rfl
    | cons a l ih =>
      intro u op
      simp only [List.cons_append, run]
      cases exec strkeyOps z u a with
      | none => rfl
      | some u' => exact ih u' op
  rw [List.map_append, List.map_singleton, happ, h1]
  refine ⟨_, rfl, ?_⟩
  intro k hk
  -- the rebuilt chains
  obtain ⟨t1, ht1⟩ : ∃ t1 : Tbl (BitVec 64) V, ({ t with
      buckets := push t.buckets (strkeyOps.findIdx t.downShift t.mask last) ⟨t.nextId, last, z⟩
      numEntries := t.numEntries + 1
      nextId := t.nextId + 1 } : Tbl (BitVec 64) V) = t1 := ⟨_, rfl⟩
  have hcr : (create strkeyOps z t last).1 = rebuild strkeyOps t1 := by
    have : t.rebuildSize ≤ t.numEntries + 1 := by omega
    simp only [create, hnone, this, if_true]
    rw [ht1]
  have hb1 : t1.numBuckets = 16 := by rw [← ht1]; simpa using s1
  have hd1 : t1.downShift = 28 := by rw [← ht1]; simpa using s3
  have hfp := foldPush (V := V) (fun k : BitVec 64 => k.toNat &&& 63) 64
    (fun k => by have : k.toNat &&& 63 ≤ 63 := Nat.and_le_right; omega)
    t1.buckets.flatten (List.replicate 64 []) (by simp) (by
      intro i e he
      simp only [List.getD_eq_getElem?_getD, List.getElem?_replicate] at he
      split at he <;> simp at he)
  have hplace : ∀ i e, e ∈ (rebuild strkeyOps t1).buckets.getD i [] → e.key.toNat &&& 63 = i := by
    have : (rebuild strkeyOps t1).buckets = t1.buckets.flatten.foldl
        (fun bs e => push bs (e.key.toNat &&& 63) e) (List.replicate 64 []) := by
      simp only [rebuild, hb1, strkeyOps]
    rw [this]
    exact hfp.2.1
  have hfind : find strkeyOps (set strkeyOps z t last (v last)) k = none := by
    unfold find
    refine List.find?_eq_none.2 ?_
    intro e he hsame
    have hek : e.key = k := by simpa [strkeyOps] using hsame
    have hidx : strkeyOps.findIdx (set strkeyOps z t last (v last)).downShift
        (set strkeyOps z t last (v last)).mask k = randomIndex 26 63 k.toNat := by
      have e1 : (set strkeyOps z t last (v last)).downShift = 26 := by
        show (create strkeyOps z t last).1.downShift = 26
        rw [hcr]; simp [rebuild, hd1]
      have e2 : (set strkeyOps z t last (v last)).mask = 63 := by
        show (create strkeyOps z t last).1.mask = 63
        rw [hcr]; simp [rebuild, hb1]
      rw [e1, e2]; rfl
    rw [hidx] at he
    simp only [set, valueSet, List.getD_eq_getElem?_getD, List.getElem?_map, hcr] at he
    cases hbk : (rebuild strkeyOps t1).buckets[randomIndex 26 63 k.toNat]? with
    | none => rw [hbk] at he; simp at he
    | some c =>
      rw [hbk] at he
      simp only [Option.map_some, Option.getD_some, List.mem_map] at he
      obtain ⟨x, hx, hxe⟩ := he
      have hxk : x.key = k := by
        rw [← hek, ← hxe]; split <;> rfl
      have := hplace (randomIndex 26 63 k.toNat) x
        (by simpa [List.getD_eq_getElem?_getD, hbk] using hx)
      rw [hxk] at this
      exact hk this.symm
  show get strkeyOps (set strkeyOps z t last (v last)) k = none
  unfold get
  rw [hfind]; rfl

/-- **C15 refuted**: so there is a history without removals after which a stored key is not found. -/
theorem C15_lookup_refuted : ¬ ∀ (ops : List (Op (BitVec 64) Nat)) t, (∀ op ∈ ops, op.adds = true) →
    run strkeyOps 0 new ops = some t → ∀ k, get strkeyOps t k = specRun 0 ops k := by
  intro h
  obtain ⟨t, h1, h2⟩ := C15_rebuild_loses 0 ((List.range 48).map fun i => BitVec.ofNat 64 (16 * i))
    (by decide) (by decide +kernel) (fun k => k.toNat)
  have h3 := h _ t (by
    intro op hop
    obtain ⟨i, _, rfl⟩ := List.mem_map.1 hop
    rfl) h1 32#64
  rw [h2 32#64 (by decide +kernel)] at h3
  have h4 : (specRun 0 (((List.range 48).map fun i => BitVec.ofNat 64 (16 * i)).map
      fun k => (Op.set k k.toNat : Op (BitVec 64) Nat)) 32#64) = some 32 := by decide +kernel
  rw [h4] at h3
  cases h3

/-! ### C43: clearing -/

/-- **C43 refuted**: after `Jsi_HashClear` the table still reports the old number of entries. -/
theorem C43_clear_size_refuted : ¬ ∀ (z : Nat) (ops : List (Op (BitVec 64) Nat)) t,
    run wordOps z new ops = some t → size (clear t) = 0 := by
  intro h
  have hc : ∃ t, run wordOps 0 new [Op.set 1#64 10] = some t :=
    Option.isSome_iff_exists.1 (by decide +kernel)
  obtain ⟨t, ht⟩ := hc
  have h1 := h 0 [Op.set 1#64 10] t ht
  have h2 : (run wordOps 0 new [Op.set 1#64 10]).map (fun t => size (clear t)) = some 1 := by
    decide +kernel
  rw [ht] at h2
  simp only [Option.map_some, Option.some.injEq] at h2
  omega

omit [DecidableEq K] in
/-- **C43**, the part that holds: nothing is found and nothing is visited any more; the reported size
is the old one.  (When the table has been rebuilt the bucket array is freed by `Jsi_HashClear` as
well, and using the table at all is a use after free: this theorem is about tables that have not,
`numBuckets = 16`.) -/
theorem C43_clear_partial {o : KeyOps K} (t : Tbl K V) (_h : t.numBuckets = 16)
    (hl : t.buckets.length = t.numBuckets) :
    (∀ k, get o (clear t) k = none) ∧ searchAll (clear t) = [] ∧ size (clear t) = size t := by
  have hfl : (clear t).buckets.flatten = [] := by
    simp [clear]
  refine ⟨?_, ?_, rfl⟩
  · intro k
    have : ∀ i, (clear t).buckets.getD i [] = [] := by
      intro i
      simp only [clear, List.getD_eq_getElem?_getD, List.getElem?_map]
      cases t.buckets[i]? <;> rfl
    simp only [get, find, this, List.find?_nil, Option.map_none]
  · unfold searchAll
    rw [searchFrom_eq _ (by simp [clear, hl]) _ 0 [] (by simp [hfl])]
    simp [hfl]

end Verif.Hash
