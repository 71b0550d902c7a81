import Verif.Tree.Props

/-! C16 for the key types of jsish, C18, and what deletion does to entries (C44, C45). -/

namespace Verif.Tree

open Hash (Op specStep specRun)

/-! ### Strings compared with `strcmp` -/

/-- Strings as C sees them: without NUL bytes. -/
abbrev CStr := { s : List UInt8 // (0 : UInt8) ∉ s }

/-- `StringPtrCompare` (src/jsiTree.c:239-245). -/
def cstrCmp (a b : CStr) : Int := strcmp a.1 b.1

theorem strcmp_eq (a b : List UInt8) (ha : (0 : UInt8) ∉ a) (hb : (0 : UInt8) ∉ b) :
    strcmp a b = 0 ↔ a = b := by
  induction a generalizing b with
  | nil =>
    cases b with
    | nil => simp [strcmp]
    | cons y ys =>
      have hy : y ≠ 0 := fun h => hb (by simp [h])
      have : y.toNat ≠ 0 := fun h => hy (UInt8.toNat_inj.1 (by simpa using h))
      simp only [strcmp, reduceCtorEq, iff_false]; omega
  | cons x xs ih =>
    cases b with
    | nil =>
      have hx : x ≠ 0 := fun h => ha (by simp [h])
      have : x.toNat ≠ 0 := fun h => hx (UInt8.toNat_inj.1 (by simpa using h))
      simp only [strcmp, reduceCtorEq, iff_false]; omega
    | cons y ys =>
      simp only [strcmp]
      split
      · rename_i h
        subst h
        rw [ih ys (fun h => ha (by simp [h])) (fun h => hb (by simp [h]))]
        simp
      · rename_i h
        have : x.toNat ≠ y.toNat := fun h' => h (UInt8.toNat_inj.1 h')
        constructor
        · intro h'; omega
        · intro h'; cases h'; exact absurd rfl h

theorem strcmp_anti (a b : List UInt8) : strcmp a b = - strcmp b a := by
  induction a generalizing b with
  | nil => cases b <;> simp [strcmp]
  | cons x xs ih =>
    cases b with
    | nil => simp [strcmp]
    | cons y ys =>
      simp only [strcmp]
      by_cases h : x = y
      · subst h; simp only [if_true]; exact ih ys
      · have : ¬ y = x := fun h' => h h'.symm
        simp only [h, this, if_false]; omega

theorem strcmp_trans (a b c : List UInt8) (ha : (0 : UInt8) ∉ a) (hb : (0 : UInt8) ∉ b)
    (h1 : strcmp a b < 0) (h2 : strcmp b c < 0) : strcmp a c < 0 := by
  induction a generalizing b c with
  | nil =>
    cases c with
    | nil =>
      cases b with
      | nil => simp [strcmp] at h1
      | cons y ys => simp only [strcmp] at h1 h2; omega
    | cons z zs =>
      cases b with
      | nil => exact h2
      | cons y ys =>
        have hy : y ≠ 0 := fun h => hb (by simp [h])
        have hy' : y.toNat ≠ 0 := fun h => hy (UInt8.toNat_inj.1 (by simpa using h))
        simp only [strcmp] at h1 h2 ⊢
        split at h2
        · rename_i h; subst h; omega
        · omega
  | cons x xs ih =>
    cases b with
    | nil => simp only [strcmp] at h1; omega
    | cons y ys =>
      cases c with
      | nil => simp only [strcmp] at h2; omega
      | cons z zs =>
        simp only [strcmp] at h1 h2 ⊢
        by_cases hxy : x = y
        · subst hxy
          simp only [if_true] at h1
          by_cases hxz : x = z
          · subst hxz
            simp only [if_true] at h2 ⊢
            exact ih ys zs (fun h => ha (by simp [h])) (fun h => hb (by simp [h])) h1 h2
          · simp only [hxz, if_false] at h2 ⊢; exact h2
        · simp only [hxy, if_false] at h1
          by_cases hyz : y = z
          · subst hyz; simp only [hxy, if_false]; exact h1
          · simp only [hyz, if_false] at h2
            have : ¬ x = z := by
              intro h; subst h; omega
            simp only [this, if_false]; omega

theorem cstr_order : IsOrder cstrCmp where
  eq a b := by rw [cstrCmp, strcmp_eq _ _ a.2 b.2]; exact Subtype.ext_iff.symm
  anti a b := by unfold cstrCmp; rw [strcmp_anti]; omega
  trans a b c h1 h2 := strcmp_trans a.1 b.1 c.1 a.2 b.2 h1 h2

/-- **C16** for the trees that hold object properties (`JSI_KEYS_STRINGKEY`, compared with `strcmp`):
every history. -/
theorem C16_objects {V : Type} (z : V) (ops : List (Op CStr V)) :
    ∃ t, run cstrCmp .word z new ops = some t ∧ Presents cstrCmp t (specRun z ops) :=
  C16_map cstr_order .word (by decide) z ops

/-! ### Word keys -/

/-- What `OneWordCompare` really distinguishes: the low 32 bits. -/
theorem C18_equal_iff_partial (a b : BitVec 64) :
    oneWordCompare a b = 0 ↔ a.toNat % 2 ^ 32 = b.toNat % 2 ^ 32 := by
  unfold oneWordCompare
  rw [← BitVec.toInt_zero (w := 32), BitVec.toInt_inj]
  have : (BitVec.truncate 32 (a - b) = 0#32) ↔ (a - b).toNat % 2 ^ 32 = 0 := by
    rw [← BitVec.toNat_inj]
    simp
  rw [this, BitVec.toNat_sub]
  have ha := a.isLt
  have hb := b.isLt
  simp only [Nat.reducePow] at *
  omega

/-- **C18 refuted**: the entries of two different keys are one: storing the second overwrites the
first. -/
theorem C18_refuted : ¬ ∀ (k1 k2 : BitVec 64) (v1 v2 : Nat) t, k1 ≠ k2 →
    run oneWordCompare .word 0 new [.set k1 v1, .set k2 v2] = some t →
    get oneWordCompare t k1 = some v1 := by
  intro h
  have h1 : (run oneWordCompare .word 0 new [.set 1#64 10, .set 4294967297#64 20]).isSome = true := by
    decide +kernel
  obtain ⟨t, ht⟩ := Option.isSome_iff_exists.1 h1
  have h2 := h 1#64 4294967297#64 10 20 t (by decide) ht
  have h3 : (run oneWordCompare .word 0 new [.set 1#64 10, .set 4294967297#64 20]).bind
      (fun t => get oneWordCompare t 1#64) = some 20 := by decide +kernel
  rw [ht] at h3
  simp only [Option.bind_some] at h3
  rw [h3] at h2
  cases h2

/-- Words below `2^31`. -/
abbrev SmallWord := { w : BitVec 64 // w.toNat < 2 ^ 31 }

def smallCmp (a b : SmallWord) : Int := oneWordCompare a.1 b.1

theorem smallCmp_eq (a b : SmallWord) : smallCmp a b = (a.1.toNat : Int) - b.1.toNat := by
  have ha := a.2
  have hb := b.2
  unfold smallCmp oneWordCompare
  have : (BitVec.truncate 32 (a.1 - b.1)).toNat =
      (2 ^ 64 - b.1.toNat + a.1.toNat) % 2 ^ 64 % 2 ^ 32 := by
    simp [BitVec.toNat_sub]
  rw [BitVec.toInt, this]
  simp only [Nat.reducePow] at *
  split <;> omega

theorem small_order : IsOrder smallCmp where
  eq a b := by
    rw [smallCmp_eq]
    constructor
    · intro h; exact Subtype.ext (BitVec.toNat_inj.1 (by omega))
    · rintro rfl; omega
  anti a b := by rw [smallCmp_eq, smallCmp_eq]; omega
  trans a b c h1 h2 := by rw [smallCmp_eq] at *; omega

/-- **C16**/**C18**, the part that holds for word keys: as long as all keys are below `2^31`. -/
theorem C18_small_partial {V : Type} (z : V) (ops : List (Op SmallWord V)) :
    ∃ t, run smallCmp .word z new ops = some t ∧ Presents smallCmp t (specRun z ops) :=
  C16_map small_order .word (by decide) z ops

/-! ### Struct keys -/

/-- **C16 refuted** for struct keys: deleting one of three keys loses another one (and the size says
two are left). -/
theorem C16_struct_refuted : ¬ ∀ (ops : List (Op (List UInt8) Nat)) t,
    run memcmp .struct 0 new ops = some t → ∀ k, get memcmp t k = specRun 0 ops k := by
  intro h
  have h1 : (run memcmp .struct 0 new [.set [0,0,0,1] 10, .set [0,0,0,2] 20, .set [0,0,0,3] 30,
      .unset [0,0,0,2]]).isSome = true := by decide +kernel
  obtain ⟨t, ht⟩ := Option.isSome_iff_exists.1 h1
  have h2 := h _ t ht [0,0,0,3]
  have h3 : (run memcmp .struct 0 new [.set [0,0,0,1] 10, .set [0,0,0,2] 20, .set [0,0,0,3] 30,
      .unset [0,0,0,2]]).bind (fun t => get memcmp t [0,0,0,3]) = none := by decide +kernel
  rw [ht] at h3
  simp only [Option.bind_some] at h3
  rw [h3] at h2
  have h4 : specRun 0 [.set [0,0,0,1] 10, .set [0,0,0,2] 20, .set [0,0,0,3] 30, .unset [0,0,0,2]]
      ([0,0,0,3] : List UInt8) = some 30 := by decide +kernel
  rw [h4] at h2
  cases h2

/-! ### Entries: address and attributes -/

variable {K V : Type}

/-- The entry of key `k` has address `id` and attributes `fl`. -/
def EntryIs (cmp : K → K → Int) (t : Tree K V) (k : K) (id fl : Nat) : Prop :=
  ∃ e, find cmp k t.root = some e ∧ e.id = id ∧ e.fl = fl

/-- **C44**, **C45**, string-keyed trees: an operation about another key, and an assignment to the key
itself, leave the entry of a key where it is, with its attributes. -/
theorem entry_stays [DecidableEq K] {cmp : K → K → Int} (ho : IsOrder cmp) (z : V) {t t' : Tree K V}
    (hi : Inv cmp t) (op : Op K V) (k : K) (hop : op ≠ .unset k) {id fl : Nat}
    (he : EntryIs cmp t k id fl) (h : exec cmp .string z t op = some t') : EntryIs cmp t' k id fl := by
  obtain ⟨e, hf, rfl, rfl⟩ := he
  obtain ⟨he, hek⟩ := (find_iff ho hi.sorted k e).1 hf
  -- it is enough that an entry with the same key, address and attributes is in the new walk
  have fin : ∀ t1 : Tree K V, Inv cmp t1 → (∃ e' ∈ t1.root.walk, e'.key = k ∧ e'.id = e.id ∧ e'.fl = e.fl) →
      EntryIs cmp t1 k e.id e.fl := by
    rintro t1 h1 ⟨e', h2, h3, h4, h5⟩
    exact ⟨e', (find_iff ho h1.sorted k e').2 ⟨h2, h3⟩, h4, h5⟩
  obtain ⟨m, hm⟩ : ∃ m : K → Option V, Holds t m := by
    refine ⟨fun k => get cmp t k, ?_⟩
    intro x v
    simp only [get]
    constructor
    · intro h
      obtain ⟨a, ha, hv⟩ := Option.map_eq_some_iff.1 h
      have := (find_iff ho hi.sorted x a).1 ha
      exact ⟨a, this.1, this.2, hv⟩
    · rintro ⟨a, ha, hk, hv⟩
      rw [(find_iff ho hi.sorted x a).2 ⟨ha, hk⟩]; simp [hv]
  have hcreate : ∀ x t1 id, create cmp z t x = some (t1, id) → e ∈ t1.root.walk := by
    intro x t1 id hc
    cases hfx : find cmp x t.root with
    | some a =>
      simp only [create, hfx, Option.some.injEq, Prod.mk.injEq] at hc
      rw [← hc.1]; exact he
    | none =>
      obtain ⟨_, _, _, h4, h5⟩ := create_walk cmp z t x hfx hc
      rw [h4] at he
      rw [h5]
      simp only [List.mem_append, List.mem_cons] at he ⊢
      tauto
  cases op with
  | new x =>
    obtain ⟨⟨t1, id⟩, hc, rfl⟩ := Option.map_eq_some_iff.1 h
    exact fin t1 (create_ok ho z hi hm x hc).1 ⟨e, hcreate x t1 id hc, hek, rfl, rfl⟩
  | set x v =>
    have h1 := (set_ok ho z hi hm x v h).1
    simp only [exec, set] at h
    obtain ⟨⟨t1, id⟩, hc, rfl⟩ := Option.map_eq_some_iff.1 h
    refine fin _ h1 ?_
    simp only [walk_update]
    refine ⟨_, List.mem_map.2 ⟨e, hcreate x t1 id hc, rfl⟩, ?_⟩
    split <;> exact ⟨hek, rfl, rfl⟩
  | unset x =>
    have hx : x ≠ k := fun h => hop (by rw [h])
    obtain ⟨⟨t1, b⟩, hc, rfl⟩ := Option.map_eq_some_iff.1 h
    refine fin t1 (unset_ok ho (by decide) hi hm z x hc).1 ⟨e, ?_, hek, rfl, rfl⟩
    have hw := locate_walk cmp x t.root
    have hkey := locate_key cmp x t.root []
    unfold unset at hc
    generalize locate cmp x t.root [] = lc at *
    obtain ⟨foc, ctx⟩ := lc
    simp only at *
    cases foc with
    | nil => cases hc; exact he
    | node c l a r =>
      simp only at hc
      obtain ⟨root, hd, hq⟩ := Option.map_eq_some_iff.1 hc
      cases hq
      simp only []
      rw [deleteAt_string_walk hd]
      have hax : a.key = x := (ho.eq _ _).1 (hkey c l a r rfl)
      rw [← hw] at he
      simp only [T.walk, List.append_assoc, List.mem_append, List.mem_cons] at he ⊢
      rcases he with he | he | (rfl | he) | he
      · exact Or.inl he
      · exact Or.inr (Or.inl he)
      · exact absurd (hax.symm.trans hek) hx
      · exact Or.inr (Or.inr (Or.inl he))
      · exact Or.inr (Or.inr (Or.inr he))

/-- **C44**, the part that holds: in a string-keyed tree (total order), after any history, whatever is
done next other than deleting the key, the entry of a key keeps its address. -/
theorem C44_string_partial [DecidableEq K] {cmp : K → K → Int} (ho : IsOrder cmp) (z : V)
    (ops : List (Op K V)) (t t' : Tree K V) (h : run cmp .string z new ops = some t)
    (op : Op K V) (k : K) (hop : op ≠ .unset k) (h' : exec cmp .string z t op = some t')
    (e : Entry K V) (he : find cmp k t.root = some e) :
    ∃ e', find cmp k t'.root = some e' ∧ e'.id = e.id := by
  obtain ⟨h3, _⟩ := run_inv ho (by decide : Kind.string ≠ .struct) z ops new t (fun _ => none)
    (inv_new cmp) (by intro k v; simp [new, T.walk]) h
  obtain ⟨e', h1, h2, _⟩ := entry_stays ho z h3 op k hop ⟨e, he, rfl, rfl⟩ h'
  exact ⟨e', h1, h2⟩

/-- The comparison of small numbers, for the examples. -/
def natCmp (a b : Nat) : Int := (a : Int) - b

theorem nat_order : IsOrder natCmp where
  eq a b := by unfold natCmp; omega
  anti a b := by unfold natCmp; omega
  trans a b c := by unfold natCmp; omega

/-- The four-step history used by the counterexamples. -/
def hist : List (Op Nat Nat) := [.set 1 10, .set 2 20, .set 3 30]

/-- **C44 refuted** for word and shared-string keys: deleting key 2 frees the entry of key 3 and moves
key 3 into the entry of key 2. -/
theorem C44_word_refuted : ¬ ∀ (ops : List (Op Nat Nat)) (t t' : Tree Nat Nat) (op : Op Nat Nat) (k : Nat),
    run natCmp .word 0 new ops = some t → op ≠ .unset k → exec natCmp .word 0 t op = some t' →
    (find natCmp k t'.root).map (·.id) = (find natCmp k t.root).map (·.id) := by
  intro h
  have h1 : (run natCmp .word 0 new hist).isSome = true := by decide +kernel
  obtain ⟨t, ht⟩ := Option.isSome_iff_exists.1 h1
  have h2 : ((run natCmp .word 0 new hist).bind fun t =>
    (exec natCmp .word 0 t (.unset 2)).bind fun t' =>
    some ((find natCmp 3 t'.root).map (·.id), (find natCmp 3 t.root).map (·.id)))
      = some (some 1, some 2) := by decide +kernel
  rw [ht] at h2
  simp only [Option.bind_some] at h2
  obtain ⟨t', ht', h3⟩ := Option.bind_eq_some_iff.1 h2
  simp only [Option.some.injEq, Prod.mk.injEq] at h3
  have := h hist t t' (.unset 2) 3 ht (by simp) ht'
  rw [h3.1, h3.2] at this
  cases this

/-- **C45 refuted** for object properties (shared-string keys) and word keys: key 3 is given attributes
(5: readonly and dontdel); deleting key 2 strips them. -/
theorem C45_word_refuted : ¬ ∀ (ops : List (Op Nat Nat)) (t t' : Tree Nat Nat) (k k' fl : Nat),
    run natCmp .word 0 new ops = some t → k ≠ k' →
    exec natCmp .word 0 (setFlags natCmp t k fl) (.unset k') = some t' →
    (find natCmp k t'.root).map (·.fl) = (find natCmp k (setFlags natCmp t k fl).root).map (·.fl) := by
  intro h
  have h1 : (run natCmp .word 0 new hist).isSome = true := by decide +kernel
  obtain ⟨t, ht⟩ := Option.isSome_iff_exists.1 h1
  have h2 : ((run natCmp .word 0 new hist).bind fun t =>
    (exec natCmp .word 0 (setFlags natCmp t 3 5) (.unset 2)).bind fun t' =>
    some ((find natCmp 3 t'.root).map (·.fl), (find natCmp 3 (setFlags natCmp t 3 5).root).map (·.fl)))
      = some (some 0, some 5) := by decide +kernel
  rw [ht] at h2
  simp only [Option.bind_some] at h2
  obtain ⟨t', ht', h3⟩ := Option.bind_eq_some_iff.1 h2
  simp only [Option.some.injEq, Prod.mk.injEq] at h3
  have := h hist t t' 3 2 5 ht (by simp) ht'
  rw [h3.1, h3.2] at this
  cases this

theorem setFlags_inv {cmp : K → K → Int} {t : Tree K V} (hi : Inv cmp t) (k : K) (fl : Nat) :
    Inv cmp (setFlags cmp t k fl) := by
  unfold setFlags
  cases find cmp k t.root with
  | none => exact hi
  | some e =>
    refine ⟨?_, ?_, ?_, ?_⟩
    · simp only [walk_update]
      rw [List.pairwise_map]
      refine hi.sorted.imp ?_
      intro a b hab
      split <;> split <;> exact hab
    · simp only [walk_update, List.map_map]
      have : ((fun e : Entry K V => e.id) ∘ fun x => if x.id = e.id then { x with fl := fl } else x) =
        (fun e => e.id) := by funext e; simp only [Function.comp]; split <;> rfl
      rw [this]; exact hi.ids
    · simp only [walk_update]
      intro e he
      obtain ⟨x, hx, rfl⟩ := List.mem_map.1 he
      have := hi.idlt x hx
      split <;> exact this
    · simp only [walk_update, List.length_map]; exact hi.cnt

/-- **C45**, the part that holds: string-keyed trees; after any history and any setting of attributes,
whatever is done next other than deleting the key, every key keeps its attributes. -/
theorem C45_string_partial [DecidableEq K] {cmp : K → K → Int} (ho : IsOrder cmp) (z : V)
    (ops : List (Op K V)) (t t' : Tree K V) (h : run cmp .string z new ops = some t)
    (flags : List (K × Nat)) (op : Op K V) (k : K) (hop : op ≠ .unset k)
    (h' : exec cmp .string z (flags.foldl (fun t kf => setFlags cmp t kf.1 kf.2) t) op = some t')
    (e : Entry K V)
    (he : find cmp k (flags.foldl (fun t kf => setFlags cmp t kf.1 kf.2) t).root = some e) :
    ∃ e', find cmp k t'.root = some e' ∧ e'.fl = e.fl := by
  have h3 := (run_inv ho (by decide : Kind.string ≠ .struct) z ops new t (fun _ => none)
    (inv_new cmp) (by intro k v; simp [new, T.walk]) h).1
  have h4 : Inv cmp (flags.foldl (fun t kf => setFlags cmp t kf.1 kf.2) t) := by
    clear h h' he
    induction flags generalizing t with
    | nil => exact h3
    | cons kf flags ih => exact ih _ (setFlags_inv h3 _ _)
  obtain ⟨e', h1, _, h2⟩ := entry_stays ho z h4 op k hop ⟨e, he, rfl, rfl⟩ h'
  exact ⟨e', h1, h2⟩

/-- Non-vacuity: a history of ten operations with rotations, its walk and size. -/
example : (run natCmp .word 0 new
    [.set 5 50, .set 3 30, .set 8 80, .set 1 10, .set 4 40, .set 5 51, .unset 3, .new 9, .set 7 70, .unset 8]).map
    (fun t => (t.root.walk.map fun e => (e.key, e.val), size t)) =
    some ([(1, 10), (4, 40), (5, 51), (7, 70), (9, 0)], 5) := by decide +kernel

end Verif.Tree
