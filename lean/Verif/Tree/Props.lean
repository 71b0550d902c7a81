import Verif.Tree.Lemmas
import Mathlib.Data.List.Nodup

/-! C16, C17: the tree as a sorted map, and its balance. -/

namespace Verif.Tree

open Hash (Op specStep specRun)

variable {K V : Type}

/-- The tree invariant (the order part). -/
structure Inv (cmp : K → K → Int) (t : Tree K V) : Prop where
  sorted : t.root.walk.Pairwise (fun a b => cmp a.key b.key < 0)
  ids : (t.root.walk.map (·.id)).Nodup
  idlt : ∀ e ∈ t.root.walk, e.id < t.nextId
  cnt : t.numEntries = t.root.walk.length

/-- The entries are the graph of `m`. -/
def Holds (t : Tree K V) (m : K → Option V) : Prop :=
  ∀ k v, m k = some v ↔ ∃ e ∈ t.root.walk, e.key = k ∧ e.val = v

theorem cmp_self {cmp : K → K → Int} (ho : IsOrder cmp) (a : K) : cmp a a = 0 := (ho.eq a a).2 rfl

theorem locate_walk (cmp : K → K → Int) (k : K) (t : T K V) :
    pre (locate cmp k t []).2 ++ (locate cmp k t []).1.walk ++ post (locate cmp k t []).2 = t.walk := by
  rw [← walk_plug, locate_plug]; rfl

/-- Where `find` finds nothing the key is not in the walk; otherwise it finds the entry. -/
theorem find_iff {cmp : K → K → Int} (ho : IsOrder cmp) {t : T K V}
    (hs : t.walk.Pairwise (fun a b => cmp a.key b.key < 0)) (k : K) (e : Entry K V) :
    find cmp k t = some e ↔ e ∈ t.walk ∧ e.key = k := by
  have hw := locate_walk cmp k t
  have hside := locate_sides ho k t [] hs (by simp [pre]) (by simp [post])
  rw [find_locate cmp k t []]
  have hkey := locate_key cmp k t []
  generalize locate cmp k t [] = lc at *
  obtain ⟨foc, ctx⟩ := lc
  simp only at *
  cases foc with
  | nil =>
    simp only [reduceCtorEq, false_iff, not_and]
    intro he hk
    rw [← hw] at he
    simp only [T.walk, List.append_nil, List.mem_append] at he
    rcases he with he | he
    · have := hside.1 e he; rw [hk, cmp_self ho] at this; omega
    · have := hside.2 e he; rw [hk, cmp_self ho] at this; omega
  | node c l e' r =>
    have hk' : e'.key = k := (ho.eq _ _).1 (hkey c l e' r rfl)
    simp only [Option.some.injEq]
    constructor
    · rintro rfl
      refine ⟨?_, hk'⟩
      rw [← hw]; simp [T.walk]
    · rintro ⟨he, hk⟩
      rw [← hw] at he hs
      simp only [T.walk, List.append_assoc, List.mem_append, List.mem_cons] at he
      simp only [T.walk, List.append_assoc] at hs
      rw [List.pairwise_append] at hs
      obtain ⟨_, hs, _⟩ := hs
      rw [List.pairwise_append] at hs
      obtain ⟨_, hs, h3⟩ := hs
      rw [List.cons_append, List.pairwise_cons] at hs
      obtain ⟨h4, _⟩ := hs
      rcases he with he | he | (rfl | he) | he
      · have := hside.1 e he; rw [hk, cmp_self ho] at this; omega
      · have := h3 e he e' (by simp); rw [hk, hk', cmp_self ho] at this; omega
      · rfl
      · have := h4 e (by simp [he]); rw [hk, hk', cmp_self ho] at this; omega
      · have := hside.2 e he; rw [hk, cmp_self ho] at this; omega

theorem uniq {cmp : K → K → Int} (ho : IsOrder cmp) {t : T K V}
    (hs : t.walk.Pairwise (fun a b => cmp a.key b.key < 0)) {a b : Entry K V}
    (ha : a ∈ t.walk) (hb : b ∈ t.walk) (h : a.key = b.key) : a = b := by
  have h1 := (find_iff ho hs b.key a).2 ⟨ha, h⟩
  have h2 := (find_iff ho hs b.key b).2 ⟨hb, rfl⟩
  rw [h1] at h2; cases h2; rfl

/-- The walk after an insertion. -/
theorem create_walk (cmp : K → K → Int) (z : V) (t : Tree K V) (k : K) {t' : Tree K V} {id : Nat}
    (hf : find cmp k t.root = none) (h : create cmp z t k = some (t', id)) :
    id = t.nextId ∧ t'.nextId = t.nextId + 1 ∧ t'.numEntries = t.numEntries + 1 ∧
    t.root.walk = pre (locate cmp k t.root []).2 ++ post (locate cmp k t.root []).2 ∧
    t'.root.walk = pre (locate cmp k t.root []).2 ++ ⟨t.nextId, k, z, 0⟩ ::
      post (locate cmp k t.root []).2 := by
  have hw := locate_walk cmp k t.root
  have hfl := find_locate cmp k t.root []
  rw [hf] at hfl
  simp only [create, hf] at h
  obtain ⟨r, hr, he⟩ := Option.map_eq_some_iff.1 h
  cases he
  refine ⟨rfl, rfl, rfl, ?_, ?_⟩
  · cases hl : (locate cmp k t.root []).1 with
    | nil => rw [hl] at hw; simpa [T.walk] using hw.symm
    | node c l e r => rw [hl] at hfl; cases hfl
  · simp only []
    rw [insCase1_walk _ _ _ hr, walk_plug]; simp [T.walk]

theorem create_ok [DecidableEq K] {cmp : K → K → Int} (ho : IsOrder cmp) (z : V) {t : Tree K V}
    (hi : Inv cmp t) {m : K → Option V} (hm : Holds t m) (k : K) {t' : Tree K V} {id : Nat}
    (h : create cmp z t k = some (t', id)) :
    Inv cmp t' ∧ Holds t' (specStep z m (.new k)) ∧ ∃ e ∈ t'.root.walk, e.key = k ∧ e.id = id := by
  cases hf : find cmp k t.root with
  | some e =>
    have hfe := (find_iff ho hi.sorted k e).1 hf
    simp only [create, hf, Option.some.injEq, Prod.mk.injEq] at h
    obtain ⟨rfl, rfl⟩ := h
    refine ⟨hi, ?_, e, hfe.1, hfe.2, rfl⟩
    have hmk : m k = some e.val := (hm k e.val).2 ⟨e, hfe.1, hfe.2, rfl⟩
    intro x v
    simp only [specStep]
    by_cases hx : x = k
    · subst hx; rw [if_pos rfl, hmk]; simp only [Option.getD_some]; rw [← hmk]; exact hm x v
    · rw [if_neg hx]; exact hm x v
  | none =>
    obtain ⟨rfl, h2, h3, h4, h5⟩ := create_walk cmp z t k hf h
    have hside := locate_sides ho k t.root [] hi.sorted (by simp [pre]) (by simp [post])
    have hno : ∀ e ∈ t.root.walk, e.key ≠ k := by
      intro e he hk
      rw [(find_iff ho hi.sorted k e).2 ⟨he, hk⟩] at hf; cases hf
    generalize (locate cmp k t.root []).2 = ctx at *
    have hmem : ∀ e, e ∈ t'.root.walk ↔ e = ⟨t.nextId, k, z, 0⟩ ∨ e ∈ t.root.walk := by
      intro e
      rw [h4, h5]
      simp only [List.mem_append, List.mem_cons]
      tauto
    refine ⟨⟨?_, ?_, ?_, ?_⟩, ?_, ⟨t.nextId, k, z, 0⟩, (hmem _).2 (Or.inl rfl), rfl, rfl⟩
    · have hs := hi.sorted
      rw [h4, List.pairwise_append] at hs
      rw [h5, List.pairwise_append, List.pairwise_cons]
      refine ⟨hs.1, ⟨fun b hb => hside.2 b hb, hs.2.1⟩, ?_⟩
      intro a ha b hb
      rcases List.mem_cons.1 hb with rfl | hb
      · exact hside.1 a ha
      · exact hs.2.2 a ha b hb
    · have hs := hi.ids
      have hlt := hi.idlt
      rw [h5]
      rw [h4] at hs hlt
      refine (List.perm_middle.map _).nodup_iff.2 ?_
      rw [List.map_cons, List.nodup_cons]
      refine ⟨?_, hs⟩
      intro hx
      obtain ⟨e, he, hid⟩ := List.mem_map.1 hx
      have := hlt e he
      simp only [] at hid
      omega
    · intro e he
      rw [h2]
      rcases (hmem e).1 he with rfl | he
      · simp
      · have := hi.idlt e he; omega
    · have hc := hi.cnt
      rw [h3, hc, h5, h4]; simp; omega
    · intro x v
      simp only [specStep]
      have hmk : m k = none := by
        cases hmk : m k with
        | none => rfl
        | some w =>
          obtain ⟨e, he, hk, _⟩ := (hm k w).1 hmk
          exact absurd hk (hno e he)
      by_cases hx : x = k
      · subst hx
        rw [if_pos rfl, hmk]
        constructor
        · intro h
          exact ⟨_, (hmem _).2 (Or.inl rfl), rfl, by simpa using h⟩
        · rintro ⟨e, he, hk, hv⟩
          rcases (hmem e).1 he with rfl | he
          · simpa using hv
          · exact absurd hk (hno e he)
      · rw [if_neg hx, hm x v]
        constructor
        · rintro ⟨e, he, h⟩; exact ⟨e, (hmem e).2 (Or.inr he), h⟩
        · rintro ⟨e, he, hk, hv⟩
          rcases (hmem e).1 he with rfl | he
          · exact absurd hk.symm hx
          · exact ⟨e, he, hk, hv⟩

theorem set_ok [DecidableEq K] {cmp : K → K → Int} (ho : IsOrder cmp) (z : V) {t : Tree K V}
    (hi : Inv cmp t) {m : K → Option V} (hm : Holds t m) (k : K) (v : V) {t' : Tree K V}
    (h : set cmp z t k v = some t') :
    Inv cmp t' ∧ Holds t' (specStep z m (.set k v)) := by
  simp only [set] at h
  obtain ⟨⟨t1, id⟩, hc, rfl⟩ := Option.map_eq_some_iff.1 h
  obtain ⟨h1, h2, e0, he0, hk0, hid0⟩ := create_ok ho z hi hm k hc
  have hkey : ∀ e ∈ t1.root.walk, (e.id = id ↔ e.key = k) := by
    intro e he
    constructor
    · intro h
      have := List.inj_on_of_nodup_map h1.ids he he0 (h.trans hid0.symm)
      rw [this]; exact hk0
    · intro h; rw [uniq ho h1.sorted he he0 (h.trans hk0.symm)]; exact hid0
  refine ⟨⟨?_, ?_, ?_, ?_⟩, ?_⟩
  · simp only [walk_update]
    rw [List.pairwise_map]
    refine h1.sorted.imp ?_
    intro a b hab
    split <;> split <;> exact hab
  · simp only [walk_update, List.map_map]
    have : ((fun e : Entry K V => e.id) ∘ fun e => if e.id = id then { e with val := v } else e) =
      (fun e => e.id) := by funext e; simp only [Function.comp]; split <;> rfl
    rw [this]; exact h1.ids
  · simp only [walk_update]
    intro e he
    obtain ⟨x, hx, rfl⟩ := List.mem_map.1 he
    have := h1.idlt x hx
    split <;> exact this
  · simp only [walk_update, List.length_map]; exact h1.cnt
  · intro x w
    simp only [walk_update, specStep]
    by_cases hx : x = k
    · subst hx
      rw [if_pos rfl]
      constructor
      · intro h
        have : v = w := by simpa using h
        exact ⟨_, List.mem_map.2 ⟨e0, he0, rfl⟩, by rw [if_pos hid0]; exact hk0,
          by rw [if_pos hid0]; exact this⟩
      · rintro ⟨e, he, hk, hv⟩
        obtain ⟨y, hy, rfl⟩ := List.mem_map.1 he
        by_cases hc : y.id = id
        · rw [if_pos hc] at hv; exact congrArg some hv
        · rw [if_neg hc] at hk; exact absurd ((hkey y hy).2 hk) hc
    · rw [if_neg hx]
      have h3 := h2 x w
      simp only [specStep, if_neg hx] at h3
      rw [h3]
      constructor
      · rintro ⟨e, he, hk, hv⟩
        have hc : ¬ e.id = id := by rw [hkey e he, hk]; exact hx
        exact ⟨_, List.mem_map.2 ⟨e, he, rfl⟩, by rw [if_neg hc]; exact hk, by rw [if_neg hc]; exact hv⟩
      · rintro ⟨e, he, hk, hv⟩
        obtain ⟨y, hy, rfl⟩ := List.mem_map.1 he
        by_cases hc : y.id = id
        · rw [if_pos hc] at hk; exact absurd (hk.symm.trans ((hkey y hy).1 hc)) hx
        · rw [if_neg hc] at hk hv; exact ⟨y, hy, hk, hv⟩

/-- Identities remaining after a deletion by exchanging contents. -/
theorem maxDown_ids (c : Color) (l : T K V) (e : Entry K V) (r : T K V) (ctx : Ctx K V) :
    (maxDown c l e r ctx).2.2.1 ∈ (T.node c l e r).walk := by
  induction r generalizing c l e ctx with
  | nil => simp [maxDown, T.walk]
  | node c2 l2 e2 r2 ihl ihr =>
    simp only [maxDown]
    have := ihr c2 l2 e2 (⟨false, c, e, l⟩ :: ctx)
    rw [T.walk]
    exact List.mem_append_left _ this

/-- The context below a left frame only grows on the right side: its `post` part starts with what is
inside, then what was there. -/
theorem maxDown_post (c : Color) (l : T K V) (e : Entry K V) (r : T K V) (ctx : Ctx K V) :
    ∃ ins, (∀ ctx', post (maxDown c l e r ctx').2.2.2 = ins ++ post ctx') ∧
      (T.node c l e r).walk = (maxDown c l e r ctx).2.2.1 :: ((maxDown c l e r ctx).2.1.walk ++ ins) := by
  induction r generalizing c l e ctx with
  | nil => exact ⟨[], by simp [maxDown], by simp [maxDown, T.walk]⟩
  | node c2 l2 e2 r2 ihl ihr =>
    obtain ⟨ins, h1, h2⟩ := ihr c2 l2 e2 (⟨false, c, e, l⟩ :: ctx)
    refine ⟨ins ++ e :: l.walk, ?_, ?_⟩
    · intro ctx'
      simp only [maxDown, h1]
      simp [post]
    · simp only [maxDown]
      rw [T.walk, h2]; simp

theorem deleteAt_word_ids {c : Color} {l r : T K V} {e : Entry K V} {ctx : Ctx K V} {t : T K V}
    (h : deleteAt .word c l e r ctx = some t) :
    List.Sublist (t.walk.map (·.id)) ((pre ctx ++ (r.walk ++ e :: l.walk) ++ post ctx).map (·.id)) := by
  cases l with
  | nil =>
    have : delOne c r ctx = some t := by cases r <;> exact h
    rw [delOne_walk this]
    refine List.Sublist.map _ ?_
    refine List.Sublist.append_right (List.Sublist.append_left ?_ _) _
    exact (List.sublist_append_left _ _)
  | node lc ll le lr =>
    cases r with
    | nil =>
      simp only [deleteAt] at h; rw [delOne_walk h]
      refine List.Sublist.map _ ?_
      refine List.Sublist.append_right (List.Sublist.append_left ?_ _) _
      simp only [T.walk, List.nil_append]
      exact List.sublist_cons_self _ _
    | node rc rl re rr =>
      simp only [deleteAt] at h
      rw [delOne_walk h]
      generalize (maxDown lc ll le lr []).2.2.1 = pe at *
      obtain ⟨ins, h1, h2⟩ := maxDown_post lc ll le lr
        (⟨true, c, ⟨e.id, pe.key, pe.val, e.fl⟩, .node rc rl re rr⟩ :: ctx)
      rw [maxDown_pre, h1, h2]
      simp only [pre, post, if_true, List.nil_append, List.map_append, List.map_cons,
        List.append_assoc]
      refine List.Sublist.append_left (List.Sublist.append_left ?_ _) _
      simp only [List.map_nil, List.cons_append, List.nil_append]
      refine List.Sublist.cons_cons _ ?_
      simp only [List.append_assoc, List.cons_append]
      exact List.sublist_cons_self _ _

theorem unset_ok [DecidableEq K] {cmp : K → K → Int} (ho : IsOrder cmp) {kind : Kind}
    (hk : kind ≠ .struct) {t : Tree K V} (hi : Inv cmp t) {m : K → Option V} (hm : Holds t m)
    (z : V) (k : K) {t' : Tree K V} {b : Bool} (h : unset cmp kind t k = some (t', b)) :
    Inv cmp t' ∧ Holds t' (specStep z m (.unset k)) ∧ b = (m k).isSome := by
  have hw := locate_walk cmp k t.root
  have hfl := find_locate cmp k t.root []
  have hkey := locate_key cmp k t.root []
  have hplug := locate_plug cmp k t.root []
  unfold unset at h
  generalize locate cmp k t.root [] = lc at *
  obtain ⟨foc, ctx⟩ := lc
  simp only at *
  cases foc with
  | nil =>
    cases h
    simp only at hfl
    have hmk : m k = none := by
      cases hmk : m k with
      | none => rfl
      | some w =>
        obtain ⟨e, he, hek, _⟩ := (hm k w).1 hmk
        rw [(find_iff ho hi.sorted k e).2 ⟨he, hek⟩] at hfl; cases hfl
    refine ⟨hi, ?_, by rw [hmk]; rfl⟩
    intro x v
    simp only [specStep]
    by_cases hx : x = k
    · subst hx; rw [if_pos rfl, ← hmk]; exact hm x v
    · rw [if_neg hx]; exact hm x v
  | node c l e r =>
    simp only at h
    obtain ⟨root, hd, he⟩ := Option.map_eq_some_iff.1 h
    cases he
    have hek : e.key = k := (ho.eq _ _).1 (hkey c l e r rfl)
    -- the walk before and after, as keys and values
    have hkv : root.walk.map Entry.kv = (pre ctx ++ (r.walk ++ l.walk) ++ post ctx).map Entry.kv := by
      cases kind with
      | word => exact deleteAt_word_walk hd
      | string => rw [deleteAt_string_walk hd]
      | struct => exact absurd rfl hk
    have hidl : List.Sublist (root.walk.map (·.id)) (t.root.walk.map (·.id)) := by
      rw [← hw]
      cases kind with
      | word => exact deleteAt_word_ids hd
      | string =>
        rw [deleteAt_string_walk hd]
        refine List.Sublist.map _ ?_
        refine List.Sublist.append_right (List.Sublist.append_left ?_ _) _
        exact List.Sublist.append_left (List.sublist_cons_self _ _) _
      | struct => exact absurd rfl hk
    have hsub : List.Sublist (pre ctx ++ (r.walk ++ l.walk) ++ post ctx) t.root.walk := by
      rw [← hw]
      refine List.Sublist.append_right (List.Sublist.append_left ?_ _) _
      exact List.Sublist.append_left (List.sublist_cons_self _ _) _
    have hlen : (pre ctx ++ (r.walk ++ l.walk) ++ post ctx).length + 1 = t.root.walk.length := by
      rw [← hw]; simp [T.walk]; omega
    have hsorted : root.walk.Pairwise (fun a b => cmp a.key b.key < 0) := by
      have h1 : (root.walk.map Entry.kv).Pairwise (fun a b => cmp a.1 b.1 < 0) := by
        rw [hkv, List.pairwise_map]
        exact (hi.sorted.sublist hsub)
      rw [List.pairwise_map] at h1
      exact h1
    have hlen' : root.walk.length = (pre ctx ++ (r.walk ++ l.walk) ++ post ctx).length := by
      have := congrArg List.length hkv
      simpa using this
    have hmem : ∀ x v, (∃ a ∈ root.walk, a.key = x ∧ a.val = v) ↔
        ∃ a ∈ pre ctx ++ (r.walk ++ l.walk) ++ post ctx, a.key = x ∧ a.val = v := by
      intro x v
      have : (x, v) ∈ root.walk.map Entry.kv ↔
          (x, v) ∈ (pre ctx ++ (r.walk ++ l.walk) ++ post ctx).map Entry.kv := by rw [hkv]
      simpa only [List.mem_map, Entry.kv, Prod.mk.injEq] using this
    have hemem : e ∈ t.root.walk := by rw [← hw]; simp [T.walk]
    have hmk : m k = some e.val := (hm k e.val).2 ⟨e, hemem, hek, rfl⟩
    have hnot : ∀ a ∈ pre ctx ++ (r.walk ++ l.walk) ++ post ctx, a.key ≠ k := by
      intro a ha hak
      have hse := hi.sorted
      rw [← hw] at hse
      simp only [T.walk, List.append_assoc] at hse
      rw [List.pairwise_append] at hse
      obtain ⟨_, hse2, hse1⟩ := hse
      rw [List.pairwise_append] at hse2
      obtain ⟨_, hse4, hse3⟩ := hse2
      rw [List.cons_append, List.pairwise_cons] at hse4
      have hz : cmp a.key e.key = 0 := (ho.eq _ _).2 (hak.trans hek.symm)
      have hz' : cmp e.key a.key = 0 := (ho.eq _ _).2 (hek.trans hak.symm)
      simp only [List.append_assoc, List.mem_append] at ha
      rcases ha with ha | ha | ha | ha
      · have := hse1 a ha e (by simp); omega
      · have := hse3 a ha e (by simp); omega
      · have := hse4.1 a (by simp [ha]); omega
      · have := hse4.1 a (by simp [ha]); omega
    refine ⟨⟨hsorted, hidl.nodup hi.ids, ?_, ?_⟩, ?_, by rw [hmk]; rfl⟩
    · intro x hx
      have : x.id ∈ t.root.walk.map (·.id) := hidl.subset (List.mem_map.2 ⟨x, hx, rfl⟩)
      obtain ⟨y, hy, hyx⟩ := List.mem_map.1 this
      have := hi.idlt y hy
      simp only []; omega
    · simp only [hi.cnt, hlen']; omega
    · intro x v
      simp only [specStep]
      rw [hmem x v]
      by_cases hx : x = k
      · subst hx
        rw [if_pos rfl]
        constructor
        · intro h; cases h
        · rintro ⟨a, ha, hak, _⟩; exact absurd hak (hnot a ha)
      · rw [if_neg hx, hm x v]
        constructor
        · rintro ⟨a, ha, hak, hv⟩
          refine ⟨a, ?_, hak, hv⟩
          rw [← hw] at ha
          simp only [T.walk, List.append_assoc, List.mem_append, List.mem_cons] at ha ⊢
          rcases ha with ha | ha | (rfl | ha) | ha
          · exact Or.inl ha
          · exact Or.inr (Or.inl ha)
          · exact absurd (hak.symm.trans hek) hx
          · exact Or.inr (Or.inr (Or.inl ha))
          · exact Or.inr (Or.inr (Or.inr ha))
        · rintro ⟨a, ha, h⟩
          exact ⟨a, hsub.subset ha, h⟩

theorem presents {cmp : K → K → Int} (ho : IsOrder cmp) {t : Tree K V} (hi : Inv cmp t)
    {m : K → Option V} (hm : Holds t m) : Presents cmp t m := by
  refine ⟨?_, hm, hi.sorted, hi.cnt⟩
  intro k
  unfold get
  cases hf : find cmp k t.root with
  | none =>
    cases hmk : m k with
    | none => rfl
    | some w =>
      obtain ⟨e, he, hk, _⟩ := (hm k w).1 hmk
      rw [(find_iff ho hi.sorted k e).2 ⟨he, hk⟩] at hf; cases hf
  | some e =>
    obtain ⟨he, hk⟩ := (find_iff ho hi.sorted k e).1 hf
    exact ((hm k e.val).2 ⟨e, he, hk, rfl⟩).symm

/-! ### Red-black part: independent of the comparison -/

theorem update_rb {t : T K V} {c n} (id : Nat) (g : Entry K V → Entry K V) (h : RB t c n) :
    RB (t.update id g) c n := by
  induction h with
  | nil => exact .nil
  | red _ _ ih1 ih2 => exact .red ih1 ih2
  | black _ _ ih1 ih2 => exact .black ih1 ih2

theorem create_rb (cmp : K → K → Int) (z : V) {t : Tree K V} {n : Nat} (h : RB t.root .black n) (k : K) :
    ∃ t' id, create cmp z t k = some (t', id) ∧ ∃ m, RB t'.root .black m := by
  unfold create
  cases hf : find cmp k t.root with
  | some e => exact ⟨t, e.id, rfl, n, h⟩
  | none =>
    obtain ⟨c', n', h1, h2⟩ := locate_rb cmp k h (CRB.root (K := K) (V := V))
    have hfl := find_locate cmp k t.root []
    rw [hf] at hfl
    cases hl : (locate cmp k t.root []).1 with
    | node c l e r => rw [hl] at hfl; cases hfl
    | nil =>
      rw [hl] at h1
      cases h1
      obtain ⟨r, hr, m, hm⟩ := insCase1_rb (locate cmp k t.root []).2
        (.node .red .nil ⟨t.nextId, k, z, 0⟩ .nil) 0 (.red .nil .nil) h2
      exact ⟨⟨r, t.numEntries + 1, t.nextId + 1⟩, t.nextId, by simp only [hr, Option.map_some], m, hm⟩

theorem exec_rb (cmp : K → K → Int) {kind : Kind} (hk : kind ≠ .struct) (z : V) {t : Tree K V} {n : Nat}
    (h : RB t.root .black n) (op : Op K V) :
    ∃ t', exec cmp kind z t op = some t' ∧ ∃ m, RB t'.root .black m := by
  cases op with
  | new k =>
    obtain ⟨t', id, h1, h2⟩ := create_rb cmp z h k
    exact ⟨t', by simp [exec, h1], h2⟩
  | set k v =>
    obtain ⟨t', id, h1, m, h2⟩ := create_rb cmp z h k
    exact ⟨⟨t'.root.update id (fun e => { e with val := v }), t'.numEntries, t'.nextId⟩,
      by simp only [exec, set, h1, Option.map_some], m, update_rb _ _ h2⟩
  | unset k =>
    simp only [exec, unset]
    obtain ⟨c', n', h1, h2⟩ := locate_rb cmp k h (CRB.root (K := K) (V := V))
    generalize locate cmp k t.root [] = lc at *
    obtain ⟨foc, ctx⟩ := lc
    simp only at *
    cases foc with
    | nil => exact ⟨t, rfl, n, h⟩
    | node c l e r =>
      have hc := h1.color_eq
      simp only [T.color] at hc
      subst hc
      obtain ⟨root, h3, h4⟩ := deleteAt_rb hk h1 h2
      exact ⟨⟨root, t.numEntries - 1, t.nextId⟩, by simp only [h3, Option.map_some], h4⟩

theorem run_rb (cmp : K → K → Int) {kind : Kind} (hk : kind ≠ .struct) (z : V) (ops : List (Op K V)) :
    ∀ (t : Tree K V) (n : Nat), RB t.root .black n →
      ∃ t', run cmp kind z t ops = some t' ∧ ∃ m, RB t'.root .black m := by
  induction ops with
  | nil => intro t n h; exact ⟨t, rfl, n, h⟩
  | cons op ops ih =>
    intro t n h
    obtain ⟨t1, h1, m, h2⟩ := exec_rb cmp hk z h op
    obtain ⟨t2, h3, h4⟩ := ih t1 m h2
    exact ⟨t2, by simp [run, h1, h3], h4⟩

theorem rb_spec {t : T K V} {c n} (h : RB t c n) : NoRedRed t ∧ ∀ x ∈ blackCounts t, x = n := by
  induction h with
  | nil => exact ⟨trivial, by simp [blackCounts]⟩
  | red h1 h2 ih1 ih2 =>
    refine ⟨⟨fun _ => ⟨h1.color_eq, h2.color_eq⟩, ih1.1, ih2.1⟩, ?_⟩
    intro x hx
    simp only [blackCounts, List.mem_map, List.mem_append] at hx
    obtain ⟨y, hy, rfl⟩ := hx
    simp only [reduceCtorEq, if_false, Nat.add_zero]
    exact hy.elim (ih1.2 y) (ih2.2 y)
  | black h1 h2 ih1 ih2 =>
    refine ⟨⟨(fun h => by cases h), ih1.1, ih2.1⟩, ?_⟩
    intro x hx
    simp only [blackCounts, List.mem_map, List.mem_append] at hx
    obtain ⟨y, hy, rfl⟩ := hx
    simp only [if_true]
    have := hy.elim (ih1.2 y) (ih2.2 y)
    omega

theorem rb_height {t : T K V} {c n} (h : RB t c n) :
    t.height ≤ 2 * n + (if c = .red then 1 else 0) ∧ 2 ^ n ≤ t.count + 1 := by
  induction h with
  | nil => simp [T.height, T.count]
  | red h1 h2 ih1 ih2 =>
    simp only [T.height, T.count, reduceCtorEq, if_false, if_true] at *
    omega
  | @black l e r c1 c2 n h1 h2 ih1 ih2 =>
    simp only [T.height, T.count, reduceCtorEq, if_false, Nat.pow_succ] at *
    split at ih1 <;> split at ih2 <;> omega

theorem walk_length (t : T K V) : t.walk.length = t.count := by
  induction t with
  | nil => rfl
  | node c l e r ihl ihr => simp [T.walk, T.count, ihl, ihr]; omega

/-- **C17**: after every history of insertions, assignments and deletions on a tree with word,
shared-string or string keys — whatever the comparison function — nothing has crashed and the tree is
red-black. -/
theorem C17_redblack (cmp : K → K → Int) (kind : Kind) (hk : kind ≠ .struct) (z : V)
    (ops : List (Op K V)) :
    ∃ t, run cmp kind z new ops = some t ∧ IsRedBlack t.root := by
  obtain ⟨t, h1, m, h2⟩ := run_rb cmp hk z ops new 0 .nil
  have := rb_spec h2
  exact ⟨t, h1, h2.color_eq, this.1, m, this.2⟩

/-- **C17**: so its height is at most `2*log2(n+1)`. -/
theorem C17_height (cmp : K → K → Int) (kind : Kind) (hk : kind ≠ .struct) (z : V)
    (ops : List (Op K V)) (t : Tree K V) (h : run cmp kind z new ops = some t) :
    t.root.height ≤ 2 * Nat.log 2 (t.root.count + 1) := by
  obtain ⟨t', h1, m, h2⟩ := run_rb cmp hk z ops new 0 .nil
  rw [h] at h1; cases h1
  have := rb_height h2
  simp only [reduceCtorEq, if_false, Nat.add_zero] at this
  have h3 : m ≤ Nat.log 2 (t.root.count + 1) := Nat.le_log_of_pow_le (by omega) this.2
  omega

theorem run_inv [DecidableEq K] {cmp : K → K → Int} (ho : IsOrder cmp) {kind : Kind}
    (hk : kind ≠ .struct) (z : V) (ops : List (Op K V)) :
    ∀ (t t' : Tree K V) (m : K → Option V), Inv cmp t → Holds t m → run cmp kind z t ops = some t' →
      Inv cmp t' ∧ Holds t' (ops.foldl (specStep z) m) := by
  induction ops with
  | nil => intro t t' m hi hm h; cases h; exact ⟨hi, hm⟩
  | cons op ops ih =>
    intro t t' m hi hm h
    simp only [run, Option.bind_eq_some_iff] at h
    obtain ⟨t1, h1, h2⟩ := h
    refine ih t1 t' (specStep z m op) ?_ ?_ h2 <;> cases op with
      | new k =>
        obtain ⟨⟨t2, id⟩, hc, rfl⟩ := Option.map_eq_some_iff.1 h1
        have := create_ok ho z hi hm k hc
        first | exact this.1 | exact this.2.1
      | set k v =>
        have := set_ok ho z hi hm k v h1
        first | exact this.1 | exact this.2
      | unset k =>
        obtain ⟨⟨t2, b⟩, hc, rfl⟩ := Option.map_eq_some_iff.1 h1
        have := unset_ok ho hk hi hm z k hc
        first | exact this.1 | exact this.2.1

theorem inv_new (cmp : K → K → Int) : Inv cmp (new : Tree K V) where
  sorted := by simp [new, T.walk]
  ids := by simp [new, T.walk]
  idlt := by simp [new, T.walk]
  cnt := rfl

/-- **C16**, for word, shared-string and string trees with a comparison that is a total order: no
history crashes and the tree presents the map of the values set and not deleted since. -/
theorem C16_map [DecidableEq K] {cmp : K → K → Int} (ho : IsOrder cmp) (kind : Kind)
    (hk : kind ≠ .struct) (z : V) (ops : List (Op K V)) :
    ∃ t, run cmp kind z new ops = some t ∧ Presents cmp t (specRun z ops) := by
  obtain ⟨t, h1, m, h2⟩ := run_rb cmp hk z ops new 0 .nil
  obtain ⟨h3, h4⟩ := run_inv ho hk z ops new t (fun _ => none) (inv_new cmp)
    (by intro k v; simp [new, T.walk]) h1
  exact ⟨t, h1, presents ho h3 h4⟩

/-- **C16**: `Jsi_TreeUnset` reports whether the key was there. -/
theorem C16_unset_result [DecidableEq K] {cmp : K → K → Int} (ho : IsOrder cmp) (kind : Kind)
    (hk : kind ≠ .struct) (z : V) (ops : List (Op K V)) (t : Tree K V)
    (h : run cmp kind z new ops = some t) (k : K) :
    ∃ t', unset cmp kind t k = some (t', (specRun z ops k).isSome) := by
  obtain ⟨t1, h1, m, h2⟩ := run_rb cmp hk z (ops ++ [.unset k]) new 0 .nil
  obtain ⟨h3, h4⟩ := run_inv ho hk z ops new t (fun _ => none) (inv_new cmp)
    (by intro k v; simp [new, T.walk]) h
  obtain ⟨t0, h5, m0, hrb⟩ := run_rb cmp hk z ops new 0 .nil
  rw [h] at h5; cases h5
  obtain ⟨t2, h6, _⟩ := exec_rb cmp hk z hrb (.unset k)
  simp only [exec] at h6
  obtain ⟨⟨t3, b⟩, h7, _⟩ := Option.map_eq_some_iff.1 h6
  have := (unset_ok ho hk h3 h4 z k h7).2.2
  exact ⟨t3, by rw [h7, this]; rfl⟩

end Verif.Tree
