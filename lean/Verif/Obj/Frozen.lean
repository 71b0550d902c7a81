import Verif.Obj.Sep

/-! Frozen objects; variables. -/

namespace Verif.Obj

variable {E : Env} {s : St}

/-! ### Keys of frozen objects -/

/-- A frozen plain object with these keys. -/
def FrozenKeys (q : Nat) (K : Bytes → Bool) (s : St) : Prop :=
  ∃ ob, s.objs[q]? = some ob ∧ ob.freeze = true ∧ ob.isarr = false ∧ ob.arr = none ∧ ∀ k, (treeGet ob.tree k).isSome = K k

theorem FrozenKeys.same {q K} {s s' : St} (h : FrozenKeys q K s) (e : s'.objs = s.objs) : FrozenKeys q K s' := by
  rw [FrozenKeys, e]; exact h

theorem FrozenKeys.push {q K} {s s' : St} (h : FrozenKeys q K s) {b} (e : s'.objs = s.objs ++ [b]) : FrozenKeys q K s' := by
  obtain ⟨ob, ho, h'⟩ := h
  refine ⟨ob, ?_, h'⟩
  rw [e, List.getElem?_append_left (List.getElem?_eq_some_iff.1 ho).1]; exact ho

theorem FrozenKeys.set {q K} {s s' : St} (h : FrozenKeys q K s) {o ob ob'} (ho : s.objs[o]? = some ob) (e : s'.objs = s.objs.set o ob')
    (hk : ob.freeze = true → ob.isarr = false → ob.arr = none → ob'.freeze = true ∧ ob'.isarr = false ∧ ob'.arr = none ∧
      ∀ k, (treeGet ob'.tree k).isSome = (treeGet ob.tree k).isSome) : FrozenKeys q K s' := by
  obtain ⟨b, hb, h1, h2, h3, h4⟩ := h
  rw [FrozenKeys, e]
  by_cases e' : o = q
  · subst e'
    rw [ho] at hb; cases hb
    obtain ⟨g1, g2, g3, g4⟩ := hk h1 h2 h3
    refine ⟨ob', ?_, g1, g2, g3, fun k => by rw [g4, h4]⟩
    rw [List.getElem?_set, if_pos rfl, if_pos (List.getElem?_eq_some_iff.1 ho).1]
  · refine ⟨b, ?_, h1, h2, h3, h4⟩
    rw [List.getElem?_set, if_neg e']; exact hb

theorem FrozenKeys.insert {q K} {s s' : St} (h : FrozenKeys q K s) {o k c hid} (e : insert s o k c hid = some s') : FrozenKeys q K s' := by
  obtain ⟨ob, ho, e', hn⟩ := insert_form e
  subst e'
  refine h.set (ob' := { ob with tree := treeSet k c hid ob.tree }) ho rfl ?_
  intro h1 h2 h3
  refine ⟨h1, h2, h3, fun k' => ?_⟩
  show (treeGet (treeSet k c hid ob.tree) k').isSome = _
  rw [treeGet_set]
  split
  · next ek =>
    subst ek
    cases e : treeGet ob.tree k' with
    | none => exact absurd ⟨h1, Or.inr e⟩ hn
    | some _ => rfl
  · rfl

theorem keys_atom {q K k s s'} (h : FrozenKeys q K s) (hk : ∀ m, k ≠ .freeze false m) (a : Atom E k s s') : FrozenKeys q K s' := by
  cases a with
  | setv _ hv => exact h.same rfl
  | incr _ => exact h.same rfl
  | elem _ _ _ hv => exact h.same rfl
  | cnt ho => exact h.set ho rfl fun h1 h2 h3 => ⟨h1, h2, h3, fun _ => rfl⟩
  | slot ho ha hv => exact h.set ho rfl fun h1 h2 h3 => by rw [h3] at ha; cases ha
  | alloc hv => exact h.same rfl
  | ins e hv => exact (h.same (s' := s.alloc _) rfl).insert e
  | share _ =>
    exact copyTree_keeps (J := FrozenKeys q K) (P := fun _ _ => True) (fun s k c s' h _ e => h.insert e) _ (fun _ _ => trivial) h
  | del ho hf => exact h.set ho rfl fun h1 h2 h3 => by rw [hf] at h1; cases h1
  | newPlain _ => exact h.push rfl
  | newArr hv => exact h.push rfl
  | newFilter _ _ => exact h.push rfl
  | call hv => exact h.same rfl
  | ret _ => exact h.same rfl
  | values _ => exact h.push rfl
  | setvO _ ho => exact h.same rfl
  | each _ _ => exact h.same rfl
  | @applied _ o ps _ e =>
    rw [apply] at e
    split at e
    · cases e
    · next ob _ =>
      split at e
      · cases e
        have := bindParams_keeps (o := o) (J := FrozenKeys q K) (fun s k c s' h e => h.insert e) (fun s h => h.same rfl) (ob.arr.getD []) ob.cnt
        exact (this _ 0 [] h).same rfl
      · cases e
  | setProto ho => exact h.set ho rfl fun h1 h2 h3 => ⟨h1, h2, h3, fun _ => rfl⟩
  | @freeze _ o ob f m r ho =>
    cases f with
    | false => exact absurd rfl (hk m)
    | true => exact h.set ho rfl fun h1 h2 h3 => ⟨rfl, h2, h3, fun _ => rfl⟩

theorem lookOwn_plain {q : Nat} {ob : Ob} (ho : s.objs[q]? = some ob) (ha : ob.arr = none) {k} (hk : k ≠ kThis) :
    lookOwn s q k = treeGet ob.tree k := by
  rw [lookOwn, if_neg hk, ho]
  show (arrLookup ob k).or _ = _
  rw [arrLookup_plain ha]; rfl

/-- C78: no history adds properties to a frozen plain object or removes any, unless it unfreezes something. -/
theorem C78_frozen_keys_partial (hE : SpecialOk E) (n : Nat) (h1 h2 : List Op) {s s' : St} {bs bs' : List Bool} {q : Nat} {ob : Ob}
    (hr : run E (start n) h1 = some (s, bs)) (ho : s.objs[q]? = some ob) (hf : ob.freeze = true)
    (hp : ob.isarr = false ∧ ob.arr = none)
    (hu : ∀ op ∈ h2, ∀ o m r, op ≠ .freeze o false m r) (hr' : run E s h2 = some (s', bs')) {k : Bytes} (hk : k ≠ kThis) :
    (lookOwn s' q k).isSome = (lookOwn s q k).isSome := by
  have hrefs : Refs s := (run_keeps hE (I := fun _ => True) (P := fun _ => True) (fun _ _ _ _ _ _ _ => trivial) h1
    (fun _ _ => trivial) (start_refs n) trivial s bs hr).1
  have hs : FrozenKeys q (fun k => (treeGet ob.tree k).isSome) s := ⟨ob, ho, hf, hp.1, hp.2, fun _ => rfl⟩
  have := (run_keeps hE (I := FrozenKeys q (fun k => (treeGet ob.tree k).isSome)) (P := fun op => ∀ o m r, op ≠ .freeze o false m r)
    (fun op hop s1 s2 _ hi a => keys_atom hi (by
      intro m e
      cases op <;> simp [Op.kind] at e
      rw [e.1] at hop
      exact hop _ _ _ rfl) a) h2 hu hrefs hs s' bs' hr').2
  obtain ⟨b, hb, _, _, g3, g4⟩ := this
  rw [lookOwn_plain hb g3 hk, lookOwn_plain ho hp.2 hk, g4]

/-! ### Values of frozen objects -/

/-- Operations that leave frozen values alone. -/
def Kind.safe : Kind → Bool
  | .values => false
  | .apply => false
  | .freeze f m => f && !m
  | _ => true

theorem at_wr_ne (s : St) {c d : Nat} (v : FV) (h : d ≠ c) : (s.wr c v).at d = s.at d := by
  simp only [St.at, St.wr, List.getElem?_set]
  have : ¬ c = d := fun e => h e.symm
  simp [this]

theorem at_modify (s : St) (c : Nat) (f : FV → FV) (d) (hd : d < s.cells.length) :
    ({ s with cells := s.cells.modify c f } : St).at d = if c = d then f (s.at d) else s.at d := by
  simp only [St.at, List.getElem?_modify, List.getElem?_eq_getElem hd]
  by_cases e : c = d <;> simp [e]

theorem frozen_setFrozen : ∀ (cs : List Nat) (l : List FV) (d : Nat) v, l[d]? = some v →
    ∃ w, (setFrozen true cs l)[d]? = some w ∧ w.val = v.val ∧ (v.frozen = true ∨ d ∈ cs → w.frozen = true)
  | [], l, d, v, h => ⟨v, h, rfl, fun h => h.elim id (fun h => by cases h)⟩
  | c :: cs, l, d, v, h => by
    rw [setFrozen, List.foldl_cons, ← setFrozen]
    by_cases e : c = d
    · obtain ⟨w, h1, h2, h3⟩ := frozen_setFrozen cs (l.modify c (fun v => { v with frozen := true })) d { v with frozen := true }
        (by rw [List.getElem?_modify, h]; simp [e])
      exact ⟨w, h1, h2, fun _ => h3 (Or.inl rfl)⟩
    · obtain ⟨w, h1, h2, h3⟩ := frozen_setFrozen cs (l.modify c (fun v => { v with frozen := true })) d v
        (by rw [List.getElem?_modify, h]; simp [e])
      refine ⟨w, h1, h2, fun h => h3 ?_⟩
      rcases h with h | h
      · exact Or.inl h
      · rcases List.mem_cons.1 h with h | h
        · exact absurd h.symm e
        · exact Or.inr h

/-- Flags and contents of a frozen value stay. -/
theorem frozen_cell {k s s' c} (h : Sep false s) (hk : k.safe = true) (a : Atom E k s s') (hc : TCell s c) (hf : (s.at c).frozen = true) :
    (s'.at c).frozen = true ∧ s'.val c = s.val c := by
  have hlt := h.tr c hc
  have hsame : s'.at c = s.at c → (s'.at c).frozen = true ∧ s'.val c = s.val c := fun e => by
    rw [St.val, e]; exact ⟨hf, rfl⟩
  have happ : ∀ vs, s'.cells = s.cells ++ vs → (s'.at c).frozen = true ∧ s'.val c = s.val c := by
    intro vs e
    apply hsame
    simp only [St.at, e, List.getElem?_append_left hlt]
  have heq : s'.cells = s.cells → (s'.at c).frozen = true ∧ s'.val c = s.val c := fun e => happ [] (by rw [e]; simp)
  cases a with
  | @setv _ x d v hx hv =>
    apply hsame; apply at_wr_ne
    intro e; subst e
    exact h.tv _ hc _ (Or.inl rfl) (List.mem_of_getElem? hx)
  | @incr _ d hd =>
    apply hsame; apply at_wr_ne
    intro e; subst e; rw [hf] at hd; cases hd
  | elem ho ha hn hv =>
    apply hsame; apply at_wr_ne
    intro e; subst e
    exact h.ta rfl _ hc ⟨_, _, _, ho, ha, List.mem_of_getElem? hn⟩
  | cnt ho => exact heq rfl
  | slot ho ha hv => exact happ [_] rfl
  | alloc hv => exact happ [_] rfl
  | ins e hv =>
    obtain ⟨ob, _, e', _⟩ := insert_form e
    exact happ [_] (by rw [e']; rfl)
  | share _ =>
    exact heq (copyTree_keeps (J := fun s1 => s1.cells = s.cells) (P := fun _ _ => True)
      (fun s1 k c s2 h1 _ e => by obtain ⟨ob, _, e', _⟩ := insert_form e; rw [e']; exact h1) _ (fun _ _ => trivial) rfl)
  | del ho hf' => exact heq rfl
  | newPlain _ => exact heq rfl
  | newArr hv => exact happ _ rfl
  | newFilter _ _ => exact heq rfl
  | call hv => exact happ _ rfl
  | ret _ => exact heq rfl
  | values _ => cases hk
  | setvO _ _ => cases hk
  | @each _ o i d ob _ _ =>
    have := at_modify s d (fun v => { v with dontenum := true }) c hlt
    show (St.at { s with cells := _ } c).frozen = true ∧ (St.at { s with cells := _ } c).val = s.val c
    rw [this]
    split
    · exact ⟨hf, rfl⟩
    · exact ⟨hf, rfl⟩
  | applied _ => cases hk
  | setProto _ => exact heq rfl
  | @freeze _ o ob f m r ho =>
    have hm : m = false := by cases m <;> simp [Kind.safe] at hk ⊢
    subst hm
    by_cases hx : ((!ob.noMod) != false) = true
    · obtain ⟨w, h1, h2, h3⟩ := frozen_setFrozen (ownCells ob) s.cells c (s.at c) (by
        simp only [St.at, List.getElem?_eq_getElem hlt]; simp)
      have : St.at { s with objs := s.objs.set o { ob with freeze := f, noMod := !false, readChk := r }, cells := if (!ob.noMod) != false then setFrozen (!false) (ownCells ob) s.cells else s.cells } c = w := by
        simp only [St.at, hx, if_true, Bool.not_false, h1, Option.getD_some]
      rw [St.val, this]
      exact ⟨h3 (Or.inl hf), h2⟩
    · refine heq ?_
      show (if _ then _ else _) = _
      rw [if_neg hx]

/-- What safe histories keep: unmodifiable plain objects are frozen with all their values. -/
structure Guard (s : St) : Prop where
  sep : Sep false s
  arr : ∀ (o : Nat) ob, s.objs[o]? = some ob → ob.isarr = false → ob.arr = none
  frz : ∀ (o : Nat) ob, s.objs[o]? = some ob → ob.noMod = true → ob.freeze = true
  flag : ∀ (o : Nat) ob, s.objs[o]? = some ob → ob.noMod = true → ob.isarr = false → ∀ e ∈ ob.tree, (s.at e.cell).frozen = true

/-- How an object may change in a small step that freezes nothing. -/
structure Keep (b b' : Ob) : Prop where
  isarr : b'.isarr = b.isarr
  arr : b.arr = none → b'.arr = none
  noMod : b'.noMod = b.noMod
  freeze : b'.freeze = b.freeze
  tree : b.freeze = true → b.noMod = true → b'.tree = b.tree

theorem Keep.refl (b : Ob) : Keep b b := ⟨rfl, id, rfl, rfl, fun _ _ => rfl⟩

/-- Every object is an old one (changed only as allowed) or a new unfrozen one. -/
def Grow (s s' : St) : Prop := ∀ (o : Nat) b', s'.objs[o]? = some b' →
  (∃ b, s.objs[o]? = some b ∧ Keep b b') ∨ (s.objs[o]? = none ∧ b'.noMod = false ∧ (b'.isarr = false → b'.arr = none))

theorem Grow.same {s s' : St} (e : s'.objs = s.objs) : Grow s s' := by
  intro o b' h; rw [e] at h; exact Or.inl ⟨b', h, Keep.refl b'⟩

theorem Grow.set {s s' : St} {o ob ob'} (ho : s.objs[o]? = some ob) (e : s'.objs = s.objs.set o ob') (hk : Keep ob ob') : Grow s s' := by
  intro o' b' h
  rw [e, List.getElem?_set] at h
  split at h
  · next e' =>
    subst e'
    split at h
    · cases h; exact Or.inl ⟨ob, ho, hk⟩
    · cases h
  · exact Or.inl ⟨b', h, Keep.refl b'⟩

theorem Grow.push {s s' : St} {b} (e : s'.objs = s.objs ++ [b]) (h1 : b.noMod = false) (h2 : b.isarr = false → b.arr = none) : Grow s s' := by
  intro o b' h
  rw [e, List.getElem?_append] at h
  split at h
  · exact Or.inl ⟨b', h, Keep.refl b'⟩
  · next hl =>
    right
    cases e' : o - s.objs.length with
    | zero => rw [e'] at h; simp at h; subst h; exact ⟨List.getElem?_eq_none (by omega), h1, h2⟩
    | succ n => rw [e'] at h; simp at h

theorem keep_insert {s s' : St} {o k c hid} (e : insert s o k c hid = some s') :
    ∃ ob ob', s.objs[o]? = some ob ∧ s'.objs = s.objs.set o ob' ∧ Keep ob ob' := by
  obtain ⟨ob, ho, e', hn⟩ := insert_form e
  refine ⟨ob, { ob with tree := treeSet k c hid ob.tree }, ho, by rw [e'], rfl, id, rfl, rfl, ?_⟩
  intro h1 h2; exact absurd ⟨h1, Or.inl h2⟩ hn

theorem Keep.trans {a b c : Ob} (h : Keep a b) (h' : Keep b c) : Keep a c :=
  ⟨h'.isarr.trans h.isarr, fun e => h'.arr (h.arr e), h'.noMod.trans h.noMod, h'.freeze.trans h.freeze,
    fun e1 e2 => (h'.tree (h.freeze ▸ e1) (h.noMod ▸ e2)).trans (h.tree e1 e2)⟩

/-- Small changes that freeze nothing. -/
theorem grow_atom {k s s'} (hk : k.safe = true) (hf : ∀ f m, k ≠ .freeze f m) (a : Atom E k s s') : Grow s s' := by
  cases a with
  | setv _ hv => exact .same rfl
  | incr _ => exact .same rfl
  | elem _ _ _ hv => exact .same rfl
  | cnt ho => exact .set ho rfl ⟨rfl, id, rfl, rfl, fun _ _ => rfl⟩
  | slot ho ha hv => exact .set ho rfl ⟨rfl, fun e => (by rw [ha] at e; cases e), rfl, rfl, fun _ _ => rfl⟩
  | alloc hv => exact .same rfl
  | ins e hv =>
    obtain ⟨ob, ob', ho, e', hk'⟩ := keep_insert e
    exact .set (s := s) ho e' hk'
  | share _ =>
    refine copyTree_keeps (J := fun s1 => Grow s s1) (P := fun _ _ => True) ?_ _ (fun _ _ => trivial) (.same rfl)
    intro s1 k c s2 h1 _ e
    obtain ⟨ob, ob', ho, e', hk'⟩ := keep_insert e
    intro o b' hb
    rw [e', List.getElem?_set] at hb
    split at hb
    · next eo =>
      subst eo
      split at hb
      · cases hb
        rcases h1 _ ob ho with ⟨b, hb, hkb⟩ | ⟨h2, h3, h4⟩
        · exact Or.inl ⟨b, hb, hkb.trans hk'⟩
        · exact Or.inr ⟨h2, hk'.noMod.trans h3, fun e => hk'.arr (h4 (hk'.isarr ▸ e))⟩
      · cases hb
    · exact h1 o b' hb
  | del ho hf' => exact .set ho rfl ⟨rfl, id, rfl, rfl, fun e => by rw [hf'] at e; cases e⟩
  | newPlain _ => exact .push rfl rfl fun _ => rfl
  | newArr hv => exact .push rfl rfl fun e => by cases e
  | newFilter _ _ => exact .push rfl rfl fun e => by cases e
  | call hv => exact .same rfl
  | ret _ => exact .same rfl
  | values _ => cases hk
  | setvO _ _ => cases hk
  | each _ _ => exact .same rfl
  | applied _ => cases hk
  | setProto ho => exact .set ho rfl ⟨rfl, id, rfl, rfl, fun _ _ => rfl⟩
  | freeze _ => exact absurd rfl (hf _ _)

theorem safe_ok {k : Kind} (h : k.safe = true) : k.ok false = true := by
  cases k <;> simp_all [Kind.safe, Kind.ok]

theorem guard_atom {k s s'} (h : Guard s) (hk : k.safe = true) (a : Atom E k s s') : Guard s' := by
  have hsep := sep_atom h.sep (safe_ok hk) a
  have hcell := fun c => frozen_cell (c := c) h.sep hk a
  by_cases hf : ∀ f m, k ≠ .freeze f m
  · have hg := grow_atom hk hf a
    refine ⟨hsep, ?_, ?_, ?_⟩
    · intro o b' hb hi
      rcases hg o b' hb with ⟨b, hb, hkb⟩ | ⟨_, _, h4⟩
      · exact hkb.arr (h.arr o b hb (hkb.isarr ▸ hi))
      · exact h4 hi
    · intro o b' hb hm
      rcases hg o b' hb with ⟨b, hb, hkb⟩ | ⟨_, h3, _⟩
      · rw [hkb.freeze]; exact h.frz o b hb (hkb.noMod ▸ hm)
      · rw [h3] at hm; cases hm
    · intro o b' hb hm hi e he
      rcases hg o b' hb with ⟨b, hb, hkb⟩ | ⟨_, h3, _⟩
      · have hm' := hkb.noMod ▸ hm
        rw [hkb.tree (h.frz o b hb hm') hm'] at he
        exact (hcell e.cell ⟨o, b, e, hb, he, rfl⟩ (h.flag o b hb hm' (hkb.isarr ▸ hi) e he)).1
      · rw [h3] at hm; cases hm
  · cases a with
    | @freeze _ o ob f m r ho =>
      have hfm : f = true ∧ m = false := by
        simp only [Kind.safe, Bool.and_eq_true, Bool.not_eq_true'] at hk; exact hk
      obtain ⟨rfl, rfl⟩ := hfm
      have hget : ∀ (o' : Nat) b', (s.objs.set o { ob with freeze := true, noMod := !false, readChk := r })[o']? = some b' →
          (o' = o ∧ b' = { ob with freeze := true, noMod := !false, readChk := r }) ∨ (o' ≠ o ∧ s.objs[o']? = some b') := by
        intro o' b' hb
        rw [List.getElem?_set] at hb
        split at hb
        · next e =>
          split at hb
          · cases hb; exact Or.inl ⟨e.symm, rfl⟩
          · cases hb
        · next e => exact Or.inr ⟨fun e' => e e'.symm, hb⟩
      refine ⟨hsep, ?_, ?_, ?_⟩
      · intro o' b' hb hi
        rcases hget o' b' hb with ⟨_, e⟩ | ⟨_, e⟩
        · subst e; exact h.arr o ob ho hi
        · exact h.arr o' b' e hi
      · intro o' b' hb hm
        rcases hget o' b' hb with ⟨_, e⟩ | ⟨_, e⟩
        · subst e; rfl
        · exact h.frz o' b' e hm
      · intro o' b' hb hm hi e he
        rcases hget o' b' hb with ⟨e1, e2⟩ | ⟨_, e2⟩
        · subst e2
          have hi' : ob.isarr = false := hi
          have hT : TCell s e.cell := ⟨o, ob, e, ho, he, rfl⟩
          by_cases hn : ob.noMod = true
          · exact (hcell e.cell hT (h.flag o ob ho hn hi e he)).1
          · have hn : ob.noMod = false := by simpa using hn
            have hlt := h.sep.tr _ hT
            obtain ⟨w, h1, _, h3⟩ := frozen_setFrozen (ownCells ob) s.cells e.cell (s.at e.cell) (by
              simp only [St.at, List.getElem?_eq_getElem hlt]; simp)
            have hmem : e.cell ∈ ownCells ob := by
              rw [ownCells, if_neg (by rw [hi']; simp)]
              exact List.mem_map.2 ⟨e, he, rfl⟩
            show (St.at { s with objs := _, cells := if _ then _ else _ } e.cell).frozen = true
            have hc : ((!ob.noMod) != false) = true := by rw [hn]; rfl
            simp only [St.at]
            rw [if_pos hc]
            show ((setFrozen true (ownCells ob) s.cells)[e.cell]?.getD _).frozen = true
            rw [h1]
            exact h3 (Or.inr hmem)
        · exact (hcell e.cell ⟨o', b', e, e2, he, rfl⟩ (h.flag o' b' e2 hm hi e he)).1
    | _ => exact absurd (fun f m e => by cases e) hf

theorem start_guard (n) : Guard (start n) := by
  have hn : ∀ (o : Nat) ob, (start n).objs[o]? = some ob → ob.noMod = false := by
    intro o ob h
    rcases o with _ | _ | o
    · simp [start] at h; subst h; rfl
    · simp [start] at h; subst h; rfl
    · simp [start] at h
  exact ⟨start_sep false n, fun o ob ho _ => (start_objs ho).2, fun o ob ho e => (by rw [hn o ob ho] at e; cases e),
    fun o ob ho e => (by rw [hn o ob ho] at e; cases e)⟩

/-- A frozen plain object with this tree and these values. -/
def FrozenVals (q : Nat) (T : List Ent) (V : Nat → Val) (s : St) : Prop :=
  Guard s ∧ ∃ ob, s.objs[q]? = some ob ∧ ob.noMod = true ∧ ob.isarr = false ∧ ob.tree = T ∧ ∀ e ∈ T, s.val e.cell = V e.cell

theorem vals_atom {q T V k s s'} (h : FrozenVals q T V s) (hk : k.safe = true) (a : Atom E k s s') : FrozenVals q T V s' := by
  obtain ⟨hg, ob, ho, hn, hi, ht, hv⟩ := h
  have hg' := guard_atom hg hk a
  refine ⟨hg', ?_⟩
  have hfr := hg.frz q ob ho hn
  have hvals : ∀ e ∈ T, s'.val e.cell = V e.cell := by
    intro e he
    rw [← ht] at he
    rw [(frozen_cell hg.sep hk a ⟨q, ob, e, ho, he, rfl⟩ (hg.flag q ob ho hn hi e he)).2]
    exact hv e (ht ▸ he)
  by_cases hf : ∀ f m, k ≠ .freeze f m
  · have hgr := grow_atom hk hf a
    have hql := (List.getElem?_eq_some_iff.1 ho).1
    -- objects do not vanish
    have hlen : s.objs.length ≤ s'.objs.length := by
      cases a with
      | setv _ _ => exact Nat.le_refl _
      | incr _ => exact Nat.le_refl _
      | elem _ _ _ _ => exact Nat.le_refl _
      | cnt _ => simp
      | slot _ _ _ => simp
      | alloc _ => exact Nat.le_refl _
      | ins e _ => rw [insert_len e]; exact Nat.le_refl _
      | share _ => rw [copyTree_len]; exact Nat.le_refl _
      | del _ _ => simp
      | newPlain _ => simp [newObj]
      | newArr _ => simp [arrayLit, newObj]
      | newFilter _ _ => simp [newObj]
      | call _ => exact Nat.le_refl _
      | ret _ => exact Nat.le_refl _
      | values _ => simp [newObj]
      | setvO _ _ => exact Nat.le_refl _
      | each _ _ => exact Nat.le_refl _
      | applied _ => cases hk
      | setProto _ => simp
      | freeze _ => simp
    obtain ⟨b', hb'⟩ : ∃ b', s'.objs[q]? = some b' := ⟨_, List.getElem?_eq_getElem (show q < s'.objs.length by omega)⟩
    rcases hgr q b' hb' with ⟨b, hb, hkb⟩ | ⟨h2, _⟩
    · rw [ho] at hb; cases hb
      exact ⟨b', hb', hkb.noMod.trans hn, hkb.isarr.trans hi, (hkb.tree hfr hn).trans ht, hvals⟩
    · rw [ho] at h2; cases h2
  · cases a with
    | @freeze _ o b f m r hb =>
      have hfm : f = true ∧ m = false := by
        simp only [Kind.safe, Bool.and_eq_true, Bool.not_eq_true'] at hk; exact hk
      obtain ⟨rfl, rfl⟩ := hfm
      by_cases e : o = q
      · subst e
        rw [ho] at hb; cases hb
        refine ⟨{ ob with freeze := true, noMod := !false, readChk := r }, ?_, rfl, hi, ht, hvals⟩
        show (s.objs.set o _)[o]? = _
        rw [List.getElem?_set, if_pos rfl, if_pos (List.getElem?_eq_some_iff.1 ho).1]
      · refine ⟨ob, ?_, hn, hi, ht, hvals⟩
        show (s.objs.set o _)[q]? = _
        rw [List.getElem?_set, if_neg e]; exact ho
    | _ => exact absurd (fun f m e => by cases e) hf

/-- The value of an own property. -/
def propOf (s : St) (q : Nat) (k : Bytes) : Option Val := (lookOwn s q k).map s.val

/-- C78: in histories in which objects are frozen for good and unmodifiable, and that use neither `Object.values` nor
`apply`, no property of a frozen plain object changes. -/
theorem C78_frozen_values_partial (hE : SpecialOk E) (n : Nat) (h1 h2 : List Op) {s s' : St} {bs bs' : List Bool} {q : Nat} {ob : Ob}
    (hs1 : ∀ op ∈ h1, op.kind.safe = true) (hs2 : ∀ op ∈ h2, op.kind.safe = true)
    (hr : run E (start n) h1 = some (s, bs)) (ho : s.objs[q]? = some ob) (hn : ob.noMod = true) (hp : ob.isarr = false)
    (hr' : run E s h2 = some (s', bs')) {k : Bytes} (hk : k ≠ kThis) :
    propOf s' q k = propOf s q k := by
  obtain ⟨hrefs, hg⟩ := run_keeps hE (I := Guard) (P := fun op => op.kind.safe = true)
    (fun op hop s1 s2 _ hi a => guard_atom hi hop a) h1 hs1 (start_refs n) (start_guard n) s bs hr
  have hs : FrozenVals q ob.tree s.val s := ⟨hg, ob, ho, hn, hp, rfl, fun _ _ => rfl⟩
  obtain ⟨_, hg', b, hb, _, g3, g4, g5⟩ := run_keeps hE (I := FrozenVals q ob.tree s.val) (P := fun op => op.kind.safe = true)
    (fun op hop s1 s2 _ hi a => vals_atom hi hop a) h2 hs2 hrefs hs s' bs' hr'
  rw [propOf, propOf, lookOwn_plain hb (hg'.arr q b hb g3) hk, lookOwn_plain ho (hg.arr q ob ho hp) hk, g4]
  cases e : treeGet ob.tree k with
  | none => rfl
  | some c =>
    obtain ⟨d, hd, _, hc⟩ := treeGet_mem e
    subst hc
    show some (s'.val d.cell) = some (s.val d.cell)
    rw [g5 d hd]

/-! ### Variables -/

/-- C82: without callbacks of array methods and `apply`, an assignment to a variable changes no other variable and no
property. -/
theorem C82_assignment_local_partial (hE : SpecialOk E) (n : Nat) (h : List Op) {s s' : St} {bs : List Bool} {x : Nat} {v : FV}
    (hs : ∀ op ∈ h, op.kind ≠ .each ∧ op.kind ≠ .apply) (hr : run E (start n) h = some (s, bs)) (hx : setVar s x v = .ok s') :
    s'.var x = v ∧ (∀ y, y ≠ x → s'.var y = s.var y) ∧ (∀ q k, k ≠ kThis → propOf s' q k = propOf s q k) := by
  obtain ⟨_, hg⟩ := run_keeps hE (I := Sep true) (P := fun op => op.kind ≠ .each ∧ op.kind ≠ .apply)
    (fun op hop s1 s2 _ hi a => sep_atom hi (by
      have h1 := hop.1; have h2 := hop.2
      cases e : op.kind <;> rw [e] at h1 h2 <;> simp_all [Kind.ok]) a) h hs (start_refs n) (start_sep true n) s bs hr
  rw [setVar] at hx
  split at hx
  · next c hc =>
    cases hx
    have hmem : c ∈ s.vars := List.mem_of_getElem? hc
    have hself : Frame s s.vars := Or.inl rfl
    have hlt := hg.vr _ hself c hmem
    have hat := fun d => at_wr s c v d hlt
    have h1 : (s.wr c v).var x = v := by
      rw [St.var]
      show (match s.vars[x]? with | some c' => (s.wr c v).at c' | none => _) = v
      rw [hc]; simp only; rw [hat, if_pos rfl]
    have h2 : ∀ y, y ≠ x → (s.wr c v).var y = s.var y := by
      intro y hy
      rw [St.var, St.var]
      show (match s.vars[y]? with | some c' => (s.wr c v).at c' | none => _) = _
      cases e : s.vars[y]? with
      | none => rfl
      | some d =>
        simp only
        rw [hat, if_neg]
        intro e'; subst e'
        exact hy (nodup_inj (hg.nd rfl _ hself) e hc)
    have h3 : ∀ q k, k ≠ kThis → propOf (s.wr c v) q k = propOf s q k := by
      intro q k hk
      have hlo : lookOwn (s.wr c v) q k = lookOwn s q k := rfl
      rw [propOf, propOf, hlo]
      cases e : lookOwn s q k with
      | none => rfl
      | some d =>
        have hd : d ≠ c := by
          intro e'; subst e'
          rw [lookOwn, if_neg hk] at e
          split at e
          · cases e
          · next ob ho =>
            rw [Option.or_eq_some_iff] at e
            rcases e with e | ⟨_, e⟩
            · -- an element
              have : ACell s d := by
                unfold arrLookup at e
                split at e
                · next a c' r ha =>
                  split at e
                  · split at e
                    · split at e
                      · exact ⟨q, ob, a, ho, ha, getD_mem e⟩
                      · cases e
                    · cases e
                  · cases e
                · cases e
              exact hg.av rfl d this _ hself hmem
            · obtain ⟨f, hf, _, hc'⟩ := treeGet_mem e
              exact hg.tv d ⟨q, ob, f, ho, hf, hc'⟩ _ hself hmem
        simp only [Option.map_some, St.val, hat, hd, if_false]
    exact ⟨h1, h2, h3⟩
  · cases hx

end Verif.Obj
