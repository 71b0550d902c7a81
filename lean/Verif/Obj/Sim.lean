import Verif.Obj.Inv

/-! Steps of the model follow the specification. -/

namespace Verif.Obj

variable {m : Bool} {E : Env} {s : St} {t : SSt}

/-! ### Own properties -/

theorem canon_some {k} (h : canon k = true) : ∃ i, indexKey k = some i ∧ i < 2 ^ 31 := by
  rw [canon] at h
  split at h
  · next i e => exact ⟨i, e, by simpa using h⟩
  · cases h

theorem not_this {k} (h : special k = false) : k ≠ kThis := by
  intro e; subst e; revert h; decide

theorem not_proto {k} (h : special k = false) : k ≠ kPrototype := by
  intro e; subst e; revert h; decide

theorem not_len {k} (h : special k = false) : k ≠ kLength := by
  intro e; subst e; revert h; decide

theorem not_callee {k} (h : special k = false) : ¬ (k = kCallee ∨ k = kConstructor) := by
  rintro (e | e) <;> subst e <;> revert h <;> decide

theorem arrLookup_plain {ob : Ob} (h : ob.arr = none) (k) : arrLookup ob k = none := by
  simp [arrLookup, h]

theorem arrLookup_nodigit (ob : Ob) {k} (h : digitStart k = false) : arrLookup ob k = none := by
  unfold arrLookup
  split
  · next a c r _ => rw [digitStart] at h; rw [h]; rfl
  · rfl

theorem arrLookup_index {ob : Ob} {a} (ha : ob.arr = some a) {i} (hi : i < 2 ^ 31) : arrLookup ob (Json.decNat i) = ob.elem i := by
  obtain ⟨c, r, h, hc⟩ := decNat_cons i
  rw [Ob.elem, ha, arrLookup.eq_def, ha, h]
  simp only [hc, if_true]
  rw [← h, idxOf_dec hi]
  rfl

/-- The key names an own property in the model just as in the specification. -/
theorem lookOwn_eq (h : R m E s t) {q k} (hk : k ≠ kThis) (ha : keyArr t q k = true) : lookOwn s q k = ownCell s q k := by
  rw [lookOwn, if_neg hk, ownCell]
  cases e : s.objs[q]? with
  | none => rfl
  | some ob =>
    have hok := h.ok q ob e
    show (arrLookup ob k).or (treeGet ob.tree k) = ob.own k
    rw [Ob.own]
    cases hia : ob.isarr with
    | false =>
      rw [arrLookup_plain (hok.plain hia)]; rfl
    | true =>
      rw [if_pos rfl]
      obtain ⟨a, ha1, ha2, ha3⟩ := hok.arr hia
      have hisarr : t.isArr q = true := by rw [SSt.isArr, h.len, e]; simp [obLen, hia]
      cases hd : digitStart k with
      | false => rw [arrLookup_nodigit ob hd, indexKey_nodigit hd]; rfl
      | true =>
        have hc : canon k = true := by simpa [keyArr, hisarr, hd] using ha
        obtain ⟨i, hi1, hi2⟩ := canon_some hc
        have hk2 := indexKey_some hi1
        rw [hi1]
        have htn : treeGet ob.tree k = none := by
          rw [treeGet_none]
          intro d hd' e'
          have := (hok.keys d hd').2 hia
          rw [e', hd] at this; cases this
        rw [htn, hk2, arrLookup_index ha1 hi2]
        simp

theorem isArr_none (h : R m E s t) {q} : t.isArr q = false ↔ t.len q = none := by
  rw [SSt.isArr]; cases t.len q <;> simp

theorem keyArr_plain {q k} (h : t.len q = none) : keyArr t q k = true := by
  simp [keyArr, SSt.isArr, h]

/-- Searching in both worlds. -/
theorem look_sim (h : R m E s t) {k} (hk : k ≠ kThis) : ∀ fuel q, q < fuel → keyArr t q k = true →
    match lookBase s k fuel q with
    | .cell c => t.lookIn k fuel q = some (s.val c)
    | .missing => t.lookIn k fuel q = none
    | .overflow => False
  | 0, q, hf, _ => absurd hf (by omega)
  | fuel + 1, q, hf, ha => by
    rw [lookBase, SSt.lookIn, lookOwn_eq h hk ha, h.own]
    cases e : ownCell s q k with
    | some c => simp
    | none =>
      simp only [Option.map_none]
      rw [h.proto]
      cases e2 : (s.objs[q]?).bind Ob.proto with
      | none => simp
      | some p =>
        have hp := h.pr q p (by rw [h.proto, e2])
        exact look_sim h hk fuel p (by omega) (keyArr_plain hp.2)

theorem tree_no_special (h : R m E s t) {q : Nat} {k} {ob : Ob} (ho : s.objs[q]? = some ob) (hk : special k = true) : treeGet ob.tree k = none := by
  rw [treeGet_none]
  intro e he e'
  have := ((h.ok q ob ho).keys e he).1
  rw [e', hk] at this; cases this

/-- No property is called `length`. -/
theorem look_length (h : R m E s t) : ∀ fuel q, q < fuel → lookBase s kLength fuel q = .missing
  | 0, q, hf => absurd hf (by omega)
  | fuel + 1, q, hf => by
    have hl : lookOwn s q kLength = none := by
      rw [lookOwn, if_neg (by decide)]
      cases e : s.objs[q]? with
      | none => rfl
      | some ob =>
        show (arrLookup ob kLength).or (treeGet ob.tree kLength) = none
        rw [arrLookup_nodigit ob (by decide), tree_no_special h e (by decide)]; rfl
    rw [lookBase, hl]
    simp only
    cases e2 : (s.objs[q]?).bind Ob.proto with
    | none => rfl
    | some p =>
      have hp := h.pr q p (by rw [h.proto, e2])
      exact look_length h fuel p (by omega)

theorem key_len {k : Key} (h : k.name = kLength) : ∃ b, k = .s b := by
  cases k with
  | s b => exact ⟨b, rfl⟩
  | n i =>
    exfalso
    by_cases hi : 0 ≤ i
    · rw [name_nat i hi] at h
      have := digitStart_dec i.toNat
      rw [h] at this; revert this; decide
    · simp only [Key.name, Json.dec] at h
      rw [if_pos (by omega)] at h
      injection h with h1 _
      revert h1; decide

theorem missing_val (h : R m E s t) (q k) : missing s q k = .val ⟨.undef, false, false⟩ := by
  rw [missing]
  split
  · next ob e => rw [(h.ok q ob e).frz]; rfl
  · rfl

/-- Reading. -/
theorem read_sim (h : R m E s t) {q k} (hq : q < s.objs.length) (hk : keyGet t q k.name = true) :
    ∃ v, read E s q k = .val v ∧ v.val = (t.get q k.name).getD .undef ∧ FOk m s v := by
  rw [keyGet, Bool.and_eq_true] at hk
  obtain ⟨hk1, hk2⟩ := hk
  by_cases hl : k.name = kLength
  · have hisarr : t.isArr q = true := by
      rw [hl] at hk1
      have : special kLength = true := by decide
      simpa [this] using hk1
    obtain ⟨b, hb⟩ := key_len hl
    have hlook : look s q k.name = .missing := by rw [hl]; exact look_length h _ _ (by omega)
    have hb2 : b.takeWhile (· ≠ 0) = kLength := by rw [hb] at hl; exact hl
    obtain ⟨ob, hob⟩ : ∃ ob, s.objs[q]? = some ob := ⟨_, List.getElem?_eq_getElem hq⟩
    have hia : ob.isarr = true := by
      rw [SSt.isArr, h.len, hob] at hisarr
      simp only [Option.bind_some, obLen] at hisarr
      cases hx : ob.isarr with
      | true => rfl
      | false => rw [hx] at hisarr; cases hisarr
    refine ⟨⟨.num (some (lengthOf ob)), false, false⟩, ?_, ?_, FOk.prim rfl⟩
    · rw [read, hlook, hb]
      simp only [subscript2, hb2, if_true, hob]
    · rw [SSt.get, if_pos ⟨hl, by simpa [SSt.isArr] using hisarr⟩, h.len, hob]
      simp [obLen, hia, lengthOf]
  · have hsp : special k.name = false := by
      have : (k.name == kLength) = false := beq_eq_false_iff_ne.2 hl
      simpa [this] using hk1
    have hs := look_sim h (not_this hsp) (s.objs.length + 1) q (by omega) hk2
    have hget : t.get q k.name = t.lookIn k.name (s.objs.length + 1) q := by
      rw [SSt.get, if_neg (fun e => hl e.1), h.n]
    rw [hget, read, look]
    revert hs
    cases lookBase s k.name (s.objs.length + 1) q with
    | cell c => intro hs; exact ⟨s.at c, rfl, by rw [hs]; rfl, h.fok c⟩
    | overflow => intro hs; exact hs.elim
    | missing =>
      intro hs
      refine ⟨⟨.undef, false, false⟩, ?_, by rw [hs]; rfl, FOk.prim rfl⟩
      have : subscript2 E s q k = none := by
        cases k with
        | n i => rfl
        | s b =>
          have h1 : ¬ b.takeWhile (· ≠ 0) = kLength := hl
          have h2 : ¬ (b.takeWhile (· ≠ 0) = kCallee ∨ b.takeWhile (· ≠ 0) = kConstructor) := not_callee hsp
          simp only [subscript2, h1, h2, if_false]
      simp only [this]
      exact missing_val h q k

/-! ### Changing an object -/

theorem ownCell_ob {q ob} (ho : s.objs[q]? = some ob) (k) : ownCell s q k = ob.own k := by
  rw [ownCell, ho]; rfl

theorem own_tree {ob : Ob} {k} (hd : ob.isarr = true → digitStart k = false) (T : List Ent)
    (hT : ∀ k', k' ≠ k → treeGet T k' = treeGet ob.tree k') (k') :
    ({ ob with tree := T } : Ob).own k' = if k' = k then treeGet T k else ob.own k' := by
  simp only [Ob.own]
  by_cases hia : ob.isarr = true
  · simp only [hia, if_true]
    by_cases e : k' = k
    · subst e; rw [indexKey_nodigit (hd hia)]; simp
    · rw [if_neg e, hT k' e]; rfl
  · rw [if_neg hia, if_neg hia]
    by_cases e : k' = k
    · subst e; simp
    · rw [if_neg e, hT k' e]

theorem own_treeSet {ob : Ob} {k} (hd : ob.isarr = true → digitStart k = false) (c hid k') :
    ({ ob with tree := treeSet k c hid ob.tree } : Ob).own k' = if k' = k then some c else ob.own k' := by
  rw [own_tree hd _ (fun k' e => by rw [treeGet_set, if_neg e])]
  rw [treeGet_set, if_pos rfl]

theorem own_treeDel {ob : Ob} {k} (hd : ob.isarr = false) (k') :
    ({ ob with tree := treeDel ob.tree k } : Ob).own k' = if k' = k then none else ob.own k' := by
  rw [own_tree (fun e => by rw [hd] at e; cases e) _ (fun k' e => by rw [treeGet_del, if_neg e])]
  rw [treeGet_del, if_pos rfl]

theorem ObOk.treeSet {ob : Ob} (h : ObOk E ob) {k c hid} (hs : special k = false) (hd : ob.isarr = true → digitStart k = false) :
    ObOk E { ob with tree := treeSet k c hid ob.tree } := by
  refine ⟨h.frz, h.plain, h.arr, ?_, sorted_set h.sorted⟩
  intro e he
  rcases treeSet_mem he with e' | e'
  · rw [e'.1]; exact ⟨hs, hd⟩
  · exact h.keys e e'

theorem ObOk.treeDel {ob : Ob} (h : ObOk E ob) {k} : ObOk E { ob with tree := treeDel ob.tree k } :=
  ⟨h.frz, h.plain, h.arr, fun e he => h.keys e (List.mem_filter.1 he).1, sorted_del k h.sorted⟩

/-- One pointer of an object is replaced. -/
theorem Links.one (h : R m E s t) {o ob k c} (ho : s.objs[o]? = some ob) (hc : c < s.cells.length ∧ c ∉ s.vars)
    (hn : m = true → ∀ o' k', ownCell s o' k' ≠ some c) {own : Bytes → Option Nat}
    (hown : ∀ k', own k' = if k' = k then some c else ob.own k') : Links m s o own := by
  refine ⟨?_, ?_, ?_⟩
  · intro k' d hd
    rw [hown] at hd
    split at hd
    · cases hd; exact hc
    · rw [← ownCell_ob ho] at hd
      exact ⟨h.rng o k' d hd, h.disj o k' d hd⟩
  · intro hm k' d hd o' k2 h2
    rw [hown] at hd
    split at hd
    · cases hd; exact absurd h2 (hn hm o' k2)
    · rw [← ownCell_ob ho] at hd
      exact (h.inj hm o' k2 d o k' h2 hd).1
  · intro hm k1 d k2 h1 h2
    rw [hown] at h1 h2
    split at h1 <;> split at h2
    · next e1 e2 => exact e1.trans e2.symm
    · next e1 e2 =>
      cases h1
      rw [← ownCell_ob ho] at h2
      exact absurd h2 (hn hm o k2)
    · next e1 e2 =>
      cases h2
      rw [← ownCell_ob ho] at h1
      exact absurd h1 (hn hm o k1)
    · rw [← ownCell_ob ho] at h1 h2
      exact (h.inj hm o k1 d o k2 h1 h2).2

theorem R.congr {t' : SSt} (h : R m E s t) (h1 : t'.own = t.own) (h2 : t'.len = t.len) (h3 : t'.proto = t.proto) (h4 : t'.n = t.n)
    (h5 : t'.vars = t.vars) (h6 : t'.calls = t.calls) : R m E s t' := by
  have : t' = t := by
    cases t; cases t'; simp only [SSt.mk.injEq]; exact ⟨h1, h2, h3, h4, h5, h6⟩
  rw [this]; exact h

theorem R.upd' (h : R m E s t) {o : Nat} {ob ob' : Ob} {t' : SSt} (ho : s.objs[o]? = some ob) (hk : ObOk E ob') (hp : ob'.proto = ob.proto)
    (ha : ob'.isarr = ob.isarr) (hl : Links m s o ob'.own)
    (h1 : ∀ o' k', t'.own o' k' = if o' = o then (ob'.own k').map s.val else t.own o' k')
    (h2 : ∀ o', t'.len o' = if o' = o then obLen ob' else t.len o')
    (h3 : t'.proto = t.proto) (h4 : t'.n = t.n) (h5 : t'.vars = t.vars) (h6 : t'.calls = t.calls) :
    R m E { s with objs := s.objs.set o ob' } t' :=
  (h.upd ho hk hp ha hl).congr (funext fun o' => funext fun k' => h1 o' k') (funext h2) h3 h4 h5 h6

theorem fresh_own (h : R m E s t) {c} (hc : s.cells.length ≤ c) (o k) : ownCell s o k ≠ some c := by
  intro e; have := h.rng o k c e; omega

theorem fresh_var (h : R m E s t) {c} (hc : s.cells.length ≤ c) : c ∉ s.vars := by
  intro e; have := h.vrng c e; omega

/-- A name is given a pointer. -/
theorem insert_sim (h : R m E s t) {o k c} (ho : o < s.objs.length) (hs : special k = false)
    (hd : t.isArr o = true → digitStart k = false)
    (hc : c < s.cells.length ∧ c ∉ s.vars) (hn : m = true → ∀ o' k', ownCell s o' k' ≠ some c) :
    ∃ s', insert s o k c false = some s' ∧ s'.cells = s.cells ∧ s'.vars = s.vars ∧ s'.objs.length = s.objs.length ∧
      (∀ o' k', ownCell s' o' k' = if o' = o ∧ k' = k then some c else ownCell s o' k') ∧
      R m E s' { t with own := fun o' k' => if o' = o ∧ k' = k then some (s.val c) else t.own o' k' } := by
  obtain ⟨ob, hob⟩ : ∃ ob, s.objs[o]? = some ob := ⟨_, List.getElem?_eq_getElem ho⟩
  have hok := h.ok o ob hob
  have hd' : ob.isarr = true → digitStart k = false := by
    intro e; apply hd; rw [SSt.isArr, h.len, hob]; simp [obLen, e]
  have hown := own_treeSet hd' c false
  have hin : insert s o k c false = some { s with objs := s.objs.set o { ob with tree := treeSet k c false ob.tree } } := by
    simp [insert, hob, hok.frz]
  refine ⟨_, hin, rfl, rfl, by simp, ?_, ?_⟩
  · intro o' k'
    rw [ownCell_set s ho, hown]
    by_cases e : o' = o
    · subst e
      by_cases e2 : k' = k
      · simp [e2]
      · simp only [e2, if_false, if_true, and_false]; exact (ownCell_ob hob k').symm
    · simp [e]
  · refine h.upd' hob (hok.treeSet (c := c) (hid := false) hs hd') rfl rfl (Links.one h hob hc hn hown) ?_ ?_ rfl rfl rfl rfl
    · intro o' k'
      rw [hown]
      show (if o' = o ∧ k' = k then _ else _) = _
      by_cases e : o' = o
      · subst e
        by_cases e2 : k' = k
        · simp [e2]
        · simp only [e2, if_false, if_true, and_false]
          rw [h.own, ownCell_ob hob]
      · simp [e]
    · intro o'
      show t.len o' = _
      by_cases e : o' = o
      · subst e; rw [if_pos rfl, h.len, hob]; rfl
      · rw [if_neg e]

/-- A new value is stored under a name. -/
theorem insert_new (h : R m E s t) {o k v} (ho : o < s.objs.length) (hs : special k = false)
    (hd : t.isArr o = true → digitStart k = false) (hv : FOk m s v) :
    ∃ s', insert (s.alloc v) o k s.cells.length false = some s' ∧ s'.objs.length = s.objs.length ∧ s'.vars = s.vars ∧
      (∀ c < s.cells.length, s'.at c = s.at c) ∧
      R m E s' { t with own := fun o' k' => if o' = o ∧ k' = k then some v.val else t.own o' k' } := by
  have h' : R m E (s.alloc v) t := h.more (vs := [v]) (fun w hw => by rw [List.mem_singleton] at hw; subst hw; exact hv)
  obtain ⟨s', h1, h2, h3, h4, _, h6⟩ := insert_sim h' (o := o) (k := k) (c := s.cells.length) ho hs hd
    ⟨by simp [St.alloc], fresh_var h (Nat.le_refl _)⟩ (fun _ o' k' => fresh_own h (Nat.le_refl _) o' k')
  refine ⟨s', h1, h4, h3, ?_, ?_⟩
  · intro c hc
    have : s'.at c = (s.alloc v).at c := by simp only [St.at, h2]
    rw [this, at_alloc_lt s v hc]
  · have e : (s.alloc v).val s.cells.length = v.val := by rw [St.val, at_alloc_new]
    rw [e] at h6; exact h6

/-! ### Elements -/

theorem setSlot_get (a : List (Option Nat)) (n c i : Nat) :
    ((setSlot a n c)[i]?).getD none = if i = n then some c else (a[i]?).getD none := by
  rw [setSlot, List.getElem?_set]
  have hl : n < (a ++ List.replicate (n + 1 - a.length) (none : Option Nat)).length := by simp; omega
  by_cases e : n = i
  · subst e; rw [if_pos rfl, if_pos rfl, if_pos hl]; rfl
  · have : ¬ i = n := fun e' => e e'.symm
    rw [if_neg e, if_neg this]
    by_cases hi : i < a.length
    · rw [List.getElem?_append_left hi]
    · rw [List.getElem?_append_right (by omega), List.getElem?_replicate, List.getElem?_eq_none (l := a) (by omega)]
      split <;> rfl

theorem setSlot_len (a : List (Option Nat)) (n c : Nat) : (setSlot a n c).length = max a.length (n + 1) := by
  simp [setSlot]; omega

/-- `a[n] = v` -/
theorem arraySet_sim (h : R m E s t) (hm : m = true) {o ob a v n} (hob : s.objs[o]? = some ob) (hia : ob.isarr = true)
    (ha : ob.arr = some a) (hn : n < E.maxList) (hf : E.fits n = true) (hv : FOk m s v) :
    ∃ s', arraySetDup E s o ob a v n = .ok s' ∧ R m E s' (t.set o (Json.decNat n) v.val) := by
  have hok := h.ok o ob hob
  obtain ⟨a', ha', hal, hcm⟩ := hok.arr hia
  rw [ha] at ha'; cases ha'
  have ho : o < s.objs.length := (List.getElem?_eq_some_iff.1 hob).1
  have hlen : t.len o = some ob.cnt := by rw [h.len, hob]; simp [obLen, hia]
  have hown : ∀ k, ob.own k = match indexKey k with | some i => ob.elem i | none => treeGet ob.tree k := by
    intro k; rw [Ob.own, if_pos hia]; rfl
  rw [arraySetDup, hf]
  simp only [Bool.not_true, Bool.false_eq_true, if_false]
  cases e : (a[n]?).getD none with
  | some c =>
    have hnl : n < a.length := by
      rcases Nat.lt_or_ge n a.length with h | h
      · exact h
      · rw [List.getElem?_eq_none h] at e; cases e
    have hmax : max ob.cnt n = ob.cnt := by omega
    have hsame : s.upd o (fun _ => { ob with cnt := max ob.cnt n }) = s := by
      rw [hmax]
      simp only [St.upd]
      have : s.objs.modify o (fun _ => ob) = s.objs := by
        apply List.ext_getElem?
        intro i
        rw [List.getElem?_modify]
        by_cases e : o = i
        · subst e; rw [hob]; simp
        · simp [e]
      rw [this]
    have hcell : ownCell s o (Json.decNat n) = some c := by
      rw [ownCell_ob hob, hown, indexKey_dec]
      simp only [Ob.elem, ha, Option.getD_some]
      rw [if_pos (by omega)]; exact e
    simp only [hsame]
    refine ⟨_, rfl, (h.wrOwn hm hcell hv).congr rfl ?_ rfl rfl rfl rfl⟩
    funext o'
    show (if o' = o then _ else t.len o') = t.len o'
    by_cases e : o' = o
    · subst e; rw [if_pos rfl, hlen, indexKey_dec]; simp; omega
    · rw [if_neg e]
  | none =>
    have hgl : objGetLength s { ob with cnt := max ob.cnt n } = (max ob.cnt n : Nat) := by
      have htn : treeGet ob.tree kLength = none := tree_no_special h hob (by decide)
      simp only [objGetLength, htn, ha, Option.isSome_some, if_true]
    have h' : R m E (s.alloc v) t := h.more (vs := [v]) (fun w hw => by rw [List.mem_singleton] at hw; subst hw; exact hv)
    have goal : ∀ cnt, cnt = max ob.cnt (n + 1) →
        ∃ s', Out.ok ((s.alloc v).upd o (fun _ => { ob with cnt := cnt, arr := some (setSlot a n s.cells.length) })) = .ok s' ∧
          R m E s' (t.set o (Json.decNat n) v.val) := by
      intro cnt hcnt
      have hupd : (s.alloc v).upd o (fun _ => { ob with cnt := cnt, arr := some (setSlot a n s.cells.length) }) =
          { s.alloc v with objs := (s.alloc v).objs.set o { ob with cnt := cnt, arr := some (setSlot a n s.cells.length) } } := by
        simp only [St.upd]
        congr 1
        apply List.ext_getElem?
        intro i
        rw [List.getElem?_modify, List.getElem?_set]
        show _ = if o = i then (if o < s.objs.length then _ else none) else _
        have hob' : (s.alloc v).objs[o]? = some ob := hob
        by_cases e : o = i
        · subst e; simp [hob', ho]
        · simp [e]
      have helem : ∀ i, ({ ob with cnt := cnt, arr := some (setSlot a n s.cells.length) } : Ob).elem i =
          if i = n then some s.cells.length else ob.elem i := by
        intro i
        simp only [Ob.elem, Option.getD_some, ha, setSlot_get]
        by_cases e : i = n
        · subst e; simp; omega
        · simp only [e, if_false]
          by_cases hi : i < ob.cnt
          · rw [if_pos hi, if_pos (by omega)]
          · rw [if_neg hi]
            split
            · rw [List.getElem?_eq_none (by omega)]; rfl
            · rfl
      have hown' : ∀ k', ({ ob with cnt := cnt, arr := some (setSlot a n s.cells.length) } : Ob).own k' =
          if k' = Json.decNat n then some s.cells.length else ob.own k' := by
        intro k'
        rw [Ob.own, hown, if_pos hia]
        by_cases e : k' = Json.decNat n
        · subst e; rw [indexKey_dec]; simp only []; rw [helem]; simp
        · rw [if_neg e]
          cases e2 : indexKey k' with
          | none => rfl
          | some i =>
            have : ¬ i = n := by intro e'; subst e'; exact e (indexKey_some e2)
            simp only []; rw [helem, if_neg this]
      have hok' : ObOk E { ob with cnt := cnt, arr := some (setSlot a n s.cells.length) } := by
        refine ⟨hok.frz, ?_, ?_, hok.keys, hok.sorted⟩
        · intro e; rw [hia] at e; cases e
        · intro _
          refine ⟨_, rfl, ?_, ?_⟩
          · rw [setSlot_len]; simp only; omega
          · simp only; omega
      have hlk : Links m (s.alloc v) o ({ ob with cnt := cnt, arr := some (setSlot a n s.cells.length) } : Ob).own :=
        Links.one h' (ob := ob) (c := s.cells.length) hob ⟨by simp [St.alloc], fresh_var h (Nat.le_refl _)⟩
          (fun _ o' k' => fresh_own h (Nat.le_refl _) o' k') hown'
      rw [hupd]
      refine ⟨_, rfl, h'.upd' (ob := ob) hob hok' rfl rfl hlk ?_ ?_ rfl rfl rfl rfl⟩
      · intro o' k'
        rw [hown']
        show (if o' = o ∧ k' = Json.decNat n then _ else _) = _
        by_cases e : o' = o
        · subst e
          by_cases e2 : k' = Json.decNat n
          · simp [e2, St.val, at_alloc_new]
          · simp only [e2, and_false, if_false, if_true]
            rw [h'.own]
            show (ownCell s o' k').map _ = _
            rw [ownCell_ob hob]
        · simp [e]
      · intro o'
        show (if o' = o then _ else t.len o') = _
        by_cases e : o' = o
        · subst e; rw [if_pos rfl, if_pos rfl, hlen, indexKey_dec]; simp [obLen, hia, hcnt]
        · rw [if_neg e, if_neg e]
    simp only [hgl]
    split
    · next hlt => exact goal (n + 1) (by omega)
    · next hlt => exact goal (max ob.cnt n) (by omega)

end Verif.Obj
