import Verif.Obj.Steps

/-! Histories. -/

namespace Verif.Obj

variable {m : Bool} {E : Env} {s : St} {t : SSt}

theorem put_agree (h : R m E s t) {o k y} (hk : onObj (t.var o) (fun q => keyPut m E t q k) = true) :
    Agree m E (step E s (.put o k y)) (sstep E t (.put o k y)) := by
  rw [step, sstep]
  apply obj_agree h
  intro q hq hql
  have hk := onObj_obj hk hq
  obtain ⟨ob, hob⟩ := get_ob hql
  have hok := h.ok q ob hob
  have hv := h.varOk y
  rw [keyPut, Bool.and_eq_true, Bool.not_eq_true'] at hk
  obtain ⟨hsp, hk⟩ := hk
  have hlen : t.len q = obLen ob := by rw [h.len, hob]; rfl
  rw [← h.varVal y]
  have named : (t.isArr q = true → digitStart k.name = false) → Agree m E (putName s q k.name (s.var y)) (some (t.set q k.name (s.var y).val, true)) := by
    intro hd
    obtain ⟨s', h1, _, _, _, h5⟩ := insert_new h (o := q) (k := k.name) (v := s.var y) hql hsp hd hv
    rw [putName, if_neg (not_proto hsp), h1]
    refine h5.congr rfl ?_ rfl rfl rfl rfl
    funext o'
    show (if o' = q then _ else t.len o') = t.len o'
    by_cases e : o' = q
    · subst e
      rw [if_pos rfl]
      cases hl : t.len o' with
      | none => rfl
      | some n =>
        rw [indexKey_nodigit (hd (by rw [SSt.isArr, hl]; rfl))]; rfl
    · rw [if_neg e]
  rw [put, hob]
  cases hia : ob.isarr with
  | false =>
    have harr := hok.plain hia
    have hna : t.isArr q = false := by rw [SSt.isArr, hlen, obLen, hia]; rfl
    cases k <;> simp only [harr] <;> exact named (fun e => by rw [hna] at e; cases e)
  | true =>
    obtain ⟨a, ha, _, _⟩ := hok.arr hia
    have hya : t.isArr q = true := by rw [SSt.isArr, hlen, obLen, hia]; rfl
    cases hd : digitStart k.name with
    | false =>
      cases k with
      | s b => simp only; exact named (fun _ => hd)
      | n i =>
        simp only [ha]
        have : ¬ (0 ≤ i ∧ i.toNat < E.maxList) := by
          rintro ⟨h0, _⟩
          rw [name_nat i h0, digitStart_dec] at hd; cases hd
        rw [if_neg this]
        exact named (fun _ => hd)
    | true =>
      rw [hya, hd] at hk
      simp only [Bool.not_true, Bool.false_or, Bool.and_eq_true] at hk
      obtain ⟨hm, hp⟩ := hk
      cases k with
      | s b => cases hp
      | n i =>
        simp only [posOk, Bool.and_eq_true, decide_eq_true_eq] at hp
        obtain ⟨⟨h0, h1⟩, h2⟩ := hp
        simp only [ha]
        rw [if_pos ⟨h0, h1⟩]
        obtain ⟨s', e, hr⟩ := arraySet_sim h hm hob hia ha h1 h2 hv
        rw [e, name_nat i h0]
        exact hr

theorem get_own {t : SSt} {q k v} (h : t.own q k = some v) (hl : k ≠ kLength) : t.get q k = some v := by
  rw [SSt.get, if_neg (fun e => hl e.1), SSt.lookIn, h]

theorem inc_agree (h : R m E s t) (hm : m = true) {o k} (hk : onObj (t.var o) (fun q => keyInc t q k.name) = true) :
    Agree m E (step E s (.inc o k)) (sstep E t (.inc o k)) := by
  rw [step, sstep]
  apply obj_agree h
  intro q hq hql
  have hk := onObj_obj hk hq
  simp only [keyInc, Bool.and_eq_true, Bool.not_eq_true'] at hk
  obtain ⟨⟨hsp, ha⟩, hon⟩ := hk
  have hlo := lookOwn_eq h (not_this hsp) ha
  cases e : ownCell s q k.name with
  | some c =>
    have hto : t.own q k.name = some (s.val c) := by rw [h.own, e]; rfl
    rw [get_own hto (not_len hsp), inc, look, lookBase, hlo, e]
    obtain ⟨h1, h2⟩ := plusOne_ok (E := E) (h.fok c)
    have hr := h.wrOwn hm e h1
    refine incCell_agree (h.frz c) (hr.congr ?_ ?_ rfl rfl rfl rfl)
    · funext o' k'
      show (if o' = q ∧ k' = k.name then _ else _) = if o' = q ∧ k' = k.name then _ else _
      rw [h2]; rfl
    · funext o'
      show (if o' = q then _ else t.len o') = t.len o'
      by_cases eo : o' = q
      · subst eo
        rw [if_pos rfl]
        cases hl : t.len o' with
        | none => rfl
        | some n =>
          cases hi : indexKey k.name with
          | none => rfl
          | some i =>
            -- the element is there, so its position is below the length
            obtain ⟨ob, hob⟩ := get_ob hql
            have hia : ob.isarr = true := by
              rw [h.len, hob] at hl
              cases hx : ob.isarr with
              | true => rfl
              | false => simp [obLen, hx] at hl
            have hn : n = ob.cnt := by
              rw [h.len, hob] at hl
              simpa [obLen, hia] using hl.symm
            rw [ownCell_ob hob, Ob.own, if_pos hia, hi] at e
            simp only [Ob.elem] at e
            split at e
            · simp only [Option.map_some, Option.some.injEq]; omega
            · cases e
      · rw [if_neg eo]
  | none =>
    have hto : t.own q k.name = none := by rw [h.own, e]; rfl
    have hg : t.get q k.name = none := by
      rw [ownOrNone, hto] at hon
      simpa using hon
    have hs := look_sim h (not_this hsp) (s.objs.length + 1) q (by omega) ha
    have hget : t.get q k.name = t.lookIn k.name (s.objs.length + 1) q := by
      rw [SSt.get, if_neg (fun e => not_len hsp e.1), h.n]
    rw [hg, inc, look]
    rw [← hget, hg] at hs
    revert hs
    cases lookBase s k.name (s.objs.length + 1) q with
    | cell c => intro hs; cases hs
    | overflow => intro hs; exact hs.elim
    | missing => intro _; exact h

theorem del_agree (h : R m E s t) {o k} (hk : onObj (t.var o) (fun q => !t.isArr q) = true) :
    Agree m E (step E s (.del o k)) (sstep E t (.del o k)) := by
  rw [step, sstep]
  apply obj_agree h
  intro q hq hql
  have hk := onObj_obj hk hq
  rw [Bool.not_eq_true'] at hk
  obtain ⟨ob, hob⟩ := get_ob hql
  have hok := h.ok q ob hob
  have hia : ob.isarr = false := by
    rw [SSt.isArr, h.len, hob] at hk
    cases e : ob.isarr with
    | false => rfl
    | true => simp [obLen, e] at hk
  rw [del, hob]
  simp only [hok.frz, Bool.false_eq_true, if_false]
  have hupd : s.upd q (fun b => { b with tree := treeDel b.tree k.name }) =
      { s with objs := s.objs.set q { ob with tree := treeDel ob.tree k.name } } := by
    simp only [St.upd]
    congr 1
    apply List.ext_getElem?
    intro i
    rw [List.getElem?_modify, List.getElem?_set]
    by_cases e : q = i
    · subst e; rw [hob, if_pos rfl, if_pos hql]; simp
    · simp [e]
  rw [hupd]
  have hown := own_treeDel (ob := ob) (k := k.name) hia
  refine h.upd' hob hok.treeDel rfl rfl ?_ ?_ ?_ rfl rfl rfl rfl
  · have hsub : ∀ k' c, ({ ob with tree := treeDel ob.tree k.name } : Ob).own k' = some c → ownCell s q k' = some c := by
      intro k' c e
      rw [hown] at e
      split at e
      · cases e
      · rw [ownCell_ob hob]; exact e
    exact ⟨fun k' c e => ⟨h.rng _ _ _ (hsub k' c e), h.disj _ _ _ (hsub k' c e)⟩,
      fun hm k' c e o' k2 e2 => (h.inj hm o' k2 c q k' e2 (hsub k' c e)).1,
      fun hm k1 c k2 e1 e2 => (h.inj hm q k1 c q k2 (hsub k1 c e1) (hsub k2 c e2)).2⟩
  · intro o' k'
    rw [hown]
    show (if o' = q ∧ k' = k.name then none else t.own o' k') = _
    by_cases eo : o' = q
    · subst eo
      by_cases ek : k' = k.name
      · simp [ek]
      · simp only [ek, and_false, if_false, if_true]
        rw [h.own, ownCell_ob hob]
    · simp [eo]
  · intro o'
    show t.len o' = _
    by_cases e : o' = q
    · subst e; rw [if_pos rfl, h.len, hob]; rfl
    · rw [if_neg e]

theorem R.valsOk (h : R m E s t) {ys : List Nat} (hys : ∀ y ∈ ys, plainSrc t (t.var y) = true) :
    ∀ v ∈ ys.map (fun y => (s.var y).val), ∀ p, v = .obj p → p < s.objs.length ∧ t.len p = none := by
  intro v hv p e
  obtain ⟨y, hy, e'⟩ := List.mem_map.1 hv
  subst e'
  exact ⟨(h.varOk y).ref p e, plainSrc_obj (hys y hy) (by rw [← h.varVal]; exact e)⟩

theorem map_var (h : R m E s t) (ys : List Nat) : ys.map (fun y => (s.var y).val) = ys.map t.var :=
  List.map_congr_left fun y _ => h.varVal y

theorem create_agree (h : R m E s t) {x p props} (hf : fine m E t (.create x p props) = true) :
    Agree m E (step E s (.create x p props)) (sstep E t (.create x p props)) := by
  rw [step, sstep, create, h.varVal p]
  simp only [fine, Bool.and_eq_true, bne_iff_ne, ne_eq, Bool.or_eq_true, List.isEmpty_iff, Bool.not_eq_true', List.all_eq_true] at hf
  obtain ⟨⟨hpl, hnn⟩, hps⟩ := hf
  have hr := (h.varOk p).ref
  rw [h.varVal p] at hr
  cases e : t.var p with
  | null => exact absurd e hnn
  | obj q =>
    simp only [createProto, sProto]
    rw [map_var h]
    apply build_agree h (hr q e) (plainSrc_obj hpl e)
    · rcases hps with hps | hps
      · right; rw [hps]; rfl
      · left; exact hps.1
    · rw [← map_var h]
      rcases hps with hps | hps
      · rw [hps]; intro v hv; cases hv
      · exact h.valsOk hps.2
  | undef => exact h
  | bool _ => exact h
  | num _ => exact h
  | str _ => exact h

theorem assign_agree (h : R m E s t) {o ys} (hf : fine m E t (.assign o ys) = true) :
    Agree m E (step E s (.assign o ys)) (sstep E t (.assign o ys)) := by
  rw [step, sstep, h.varVal o]
  simp only [fine, Bool.and_eq_true, Bool.not_eq_true', List.all_eq_true] at hf
  obtain ⟨⟨hm, hpl⟩, hys⟩ := hf
  have hr := (h.varOk o).ref
  rw [h.varVal o] at hr
  cases e : t.var o with
  | obj q =>
    have hl := plainSrc_obj hpl e
    have hq := hr q e
    simp only [assign, sObj, hl, Option.isSome_none, Bool.false_eq_true, if_false, if_pos hq]
    rw [map_var h]
    exact (assignAll_agree hm _ h hq hl (by rw [← map_var h]; exact h.valsOk hys)).1
  | undef => exact h
  | null => exact h
  | bool _ => exact h
  | num _ => exact h
  | str _ => exact h

theorem merge_agree (h : R m E s t) {x a b} (hf : fine m E t (.merge x a b) = true) :
    Agree m E (step E s (.merge x a b)) (sstep E t (.merge x a b)) := by
  simp only [fine, Bool.and_eq_true, Bool.not_eq_true'] at hf
  obtain ⟨⟨hm, ha⟩, hb⟩ := hf
  have hra := (h.varOk a).ref
  have hrb := (h.varOk b).ref
  rw [h.varVal a] at hra
  rw [h.varVal b] at hrb
  rw [step, sstep, h.varVal a, h.varVal b]
  cases ea : t.var a with
  | obj p =>
    cases eb : t.var b with
    | obj q =>
      simp only [merge]
      apply build_agree h (show 0 < _ by have := h.two.1; omega) h.two.2.1 (Or.inl hm)
      intro v hv r er
      subst er
      simp only [List.mem_cons, Val.obj.injEq, List.not_mem_nil, or_false] at hv
      rcases hv with e | e
      · rw [e]; exact ⟨hra p ea, plainSrc_obj ha ea⟩
      · rw [e]; exact ⟨hrb q eb, plainSrc_obj hb eb⟩
    | undef => exact h
    | null => exact h
    | bool _ => exact h
    | num _ => exact h
    | str _ => exact h
  | undef => exact h
  | null => exact h
  | bool _ => exact h
  | num _ => exact h
  | str _ => exact h

/-- Every step that is fine does what the specification says. -/
theorem step_agree (h : R m E s t) (hmax : E.maxList ≤ 2 ^ 31) {op} (hf : fine m E t op = true) :
    Agree m E (step E s op) (sstep E t op) := by
  cases op with
  | lit x v =>
    rw [step, sstep]
    cases e : isPrim v with
    | false => exact h
    | true => exact setVar_agree h (FOk.prim e)
  | copy x y => rw [step, sstep, ← h.varVal]; exact setVar_agree h (h.varOk y)
  | incVar x =>
    rw [step, sstep, h.varslen]
    cases e : s.vars[x]? with
    | none =>
      have : ¬ x < s.vars.length := by rw [List.getElem?_eq_none_iff] at e; omega
      rw [if_neg this]; exact h
    | some c =>
      have hx : x < s.vars.length := (List.getElem?_eq_some_iff.1 e).1
      obtain ⟨h1, h2⟩ := plusOne_ok (E := E) (h.fok c)
      have hv : t.var x = (s.at c).val := by rw [← h.varVal, St.var, e]
      rw [if_pos hx, hv]
      refine incCell_agree (h.frz c) ?_
      have := h.wrVar e h1
      rw [h2] at this
      rw [SSt.setVar, h.varslen, if_pos hx]
      exact this
  | mk x ps => exact mk_agree h (fun p hp => by simpa using (List.all_eq_true.1 hf) p hp)
  | mkArr x ys => exact mkArr_agree h (by simpa [fine] using hf)
  | get x o k =>
    rw [step, sstep]
    apply obj_agree h
    intro q hq hql
    obtain ⟨v, h1, h2, h3⟩ := read_sim h hql (onObj_obj hf hq)
    rw [h1, ← h2]
    exact setVar_agree h h3
  | put o k y => exact put_agree h hf
  | inc o k =>
    rw [fine, Bool.and_eq_true] at hf
    exact inc_agree h hf.1 hf.2
  | del o k => exact del_agree h hf
  | create x p props => exact create_agree h hf
  | assign o ys => exact assign_agree h hf
  | merge x a b => exact merge_agree h hf
  | filter x a sel => exact filter_agree h (by simpa [fine] using hf) hmax
  | call ys =>
    have := h.push hf (vs := ys.map s.var) (fun v hv => by obtain ⟨y, _, e⟩ := List.mem_map.1 hv; subst e; exact h.varOk y)
    rw [List.map_map, List.length_map] at this
    have e : ys.map (FV.val ∘ s.var) = ys.map t.var := List.map_congr_left fun y _ => h.varVal y
    rw [e] at this
    exact this
  | ret =>
    rw [step, sstep, ret]
    have hfr := h.frames
    cases e1 : s.saved with
    | nil =>
      cases e2 : t.calls with
      | nil => exact h
      | cons k r => rw [e1, e2] at hfr; exact hfr.elim
    | cons w r =>
      cases e2 : t.calls with
      | nil => rw [e1, e2] at hfr; exact hfr.elim
      | cons k r' => exact h.pop e1 e2
  | freeze => cases hf
  | setProto => cases hf
  | values => cases hf
  | each => cases hf
  | apply => cases hf

theorem start_at (n c) : (start n).at c = ⟨.undef, false, false⟩ := by
  simp only [St.at, start, List.getElem?_replicate]
  split <;> rfl

theorem start_own (n o k) : ownCell (start n) o k = none := by
  rcases o with _ | _ | o <;> simp [ownCell, start, Ob.own, treeGet]

theorem start_R (m E n) : R m E (start n) (sstart n) := by
  have hvars : (start n).vars = (List.range n).map (· + 1) := rfl
  refine ⟨rfl, ?_, ?_, ?_, ?_, trivial, ?_, ?_, ?_, ?_, ?_, ?_, ?_, ?_, ?_, ?_, ?_⟩
  · intro o k; rw [start_own]; rfl
  · intro o; rcases o with _ | _ | o <;> simp [start, sstart, obLen]
  · intro o; rcases o with _ | _ | o <;> simp [start, sstart]
  · show List.replicate n Val.undef = _
    apply List.ext_getElem?
    intro i
    rw [hvars, List.map_map, List.getElem?_map, List.getElem?_replicate]
    by_cases hi : i < n
    · rw [if_pos hi, List.getElem?_range hi]; simp [St.val, start_at]
    · rw [if_neg hi, List.getElem?_eq_none (by simpa using hi)]; rfl
  · intro o ob h
    rcases o with _ | _ | o
    · simp [start] at h; subst h; exact plain_ok (p := none)
    · simp [start] at h; subst h; exact plain_ok (p := some objProto)
    · simp [start] at h
  · intro o p h
    have h' : (if o = 1 then some objProto else none) = some p := h
    split at h'
    · next e => cases h'; subst e; exact ⟨by decide, rfl⟩
    · cases h'
  · intro o k c h; rw [start_own] at h; cases h
  · intro c h
    rw [hvars] at h
    obtain ⟨i, hi, e⟩ := List.mem_map.1 h
    have := List.mem_range.1 hi
    show c < (List.replicate (n + 1) _).length
    rw [List.length_replicate]; omega
  · rw [hvars, List.Nodup, List.pairwise_map]
    exact List.Pairwise.imp (fun h e => h (by omega)) (List.nodup_range)
  · intro o k c h; rw [start_own] at h; cases h
  · intro c; rw [start_at]
  · intro c p h; rw [St.val, start_at] at h; cases h
  · exact ⟨Nat.le_refl 2, rfl, rfl⟩
  · intro _ o k c o' k' h; rw [start_own] at h; cases h
  · intro _ c; rw [start_at]

theorem run_agree (hmax : E.maxList ≤ 2 ^ 31) : ∀ (h : List Op) {s t}, R m E s t → fineRun m E t h = true →
    ∃ s' t' bs, run E s h = some (s', bs) ∧ srun E t h = some (t', bs) ∧ R m E s' t'
  | [], s, t, hr, _ => ⟨s, t, [], rfl, rfl, hr⟩
  | op :: h, s, t, hr, hf => by
    rw [fineRun, Bool.and_eq_true] at hf
    have ha := step_agree hr hmax hf.1
    rw [run, srun]
    have hf2 := hf.2
    revert ha hf2
    cases step E s op with
    | crash => intro ha; exact ha.elim
    | ok s' =>
      cases sstep E t op with
      | none => intro ha; exact ha.elim
      | some p =>
        obtain ⟨t', b⟩ := p
        cases b with
        | false => intro ha; exact ha.elim
        | true =>
          intro ha hf2
          obtain ⟨s2, t2, bs, g1, g2, g3⟩ := run_agree hmax h ha hf2
          exact ⟨s2, t2, true :: bs, by simp [g1], by simp [g2], g3⟩
    | err s' =>
      cases sstep E t op with
      | none => intro ha; exact ha.elim
      | some p =>
        obtain ⟨t', b⟩ := p
        cases b with
        | true => intro ha; exact ha.elim
        | false =>
          intro ha hf2
          obtain ⟨s2, t2, bs, g1, g2, g3⟩ := run_agree hmax h ha hf2
          exact ⟨s2, t2, false :: bs, by simp [g1], by simp [g2], g3⟩

/-- C75: every history of the two kinds gives the values ECMAScript demands, and the same steps fail.  (The largest
`maxArrayList` an `int` can hold is below 2^31.) -/
theorem C75_objects_agree_partial (hmax : E.maxList ≤ 2 ^ 31) (n : Nat) (h : List Op)
    (hf : fineRun false E (sstart n) h = true ∨ fineRun true E (sstart n) h = true) :
    ∃ s t bs, run E (start n) h = some (s, bs) ∧ srun E (sstart n) h = some (t, bs) ∧ Sees s t := by
  rcases hf with hf | hf
  · obtain ⟨s, t, bs, h1, h2, h3⟩ := run_agree hmax h (start_R false E n) hf
    exact ⟨s, t, bs, h1, h2, h3.vars.symm⟩
  · obtain ⟨s, t, bs, h1, h2, h3⟩ := run_agree hmax h (start_R true E n) hf
    exact ⟨s, t, bs, h1, h2, h3.vars.symm⟩

end Verif.Obj
