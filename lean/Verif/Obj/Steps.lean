import Verif.Obj.Sim

/-! Every kind of step. -/

namespace Verif.Obj

variable {m : Bool} {E : Env} {s : St} {t : SSt}

/-- The model does what the specification says: it succeeds or fails just as it, in related states. -/
def Agree (m : Bool) (E : Env) : Out → Option (SSt × Bool) → Prop
  | .ok s, some (t, true) => R m E s t
  | .err s, some (t, false) => R m E s t
  | _, _ => False

theorem FOk.mono {s s' : St} {v} (h : FOk m s v) (hl : s.objs.length ≤ s'.objs.length) : FOk m s' v :=
  ⟨h.frz, fun p e => Nat.lt_of_lt_of_le (h.ref p e) hl, h.enum⟩

theorem setVar_agree (h : R m E s t) {x v} (hv : FOk m s v) : Agree m E (setVar s x v) (some (t.setVar x v.val)) := by
  rw [setVar, SSt.setVar, h.varslen]
  cases e : s.vars[x]? with
  | none =>
    have : ¬ x < s.vars.length := by rw [List.getElem?_eq_none_iff] at e; omega
    rw [if_neg this]; exact h
  | some c =>
    have : x < s.vars.length := (List.getElem?_eq_some_iff.1 e).1
    rw [if_pos this]; exact h.wrVar e hv

theorem obj_agree (h : R m E s t) {o} {f : Nat → Out} {g : Nat → Option (SSt × Bool)}
    (hf : ∀ q, t.var o = .obj q → q < s.objs.length → Agree m E (f q) (g q)) :
    Agree m E (withObj s (s.var o).val f) (sObj t (t.var o) g) := by
  have hv := h.varVal o
  have hr := (h.varOk o).ref
  rw [hv] at hr ⊢
  cases e : t.var o with
  | obj q => exact hf q e (hr q e)
  | undef => exact h
  | null => exact h
  | bool _ => exact h
  | num _ => exact h
  | str _ => exact h

theorem onObj_obj {v f q} (h : onObj v f = true) (e : v = .obj q) : f q = true := by rw [e] at h; exact h

theorem get_ob (hq : q < s.objs.length) : ∃ ob, s.objs[q]? = some ob := ⟨_, List.getElem?_eq_getElem hq⟩

/-! ### Increments -/

theorem plusOne_ok {v : FV} (hv : FOk m s v) : FOk m s (plusOne (numbered E v)) ∧ (plusOne (numbered E v)).val = succVal E v.val := by
  obtain ⟨w, de, fr⟩ := v
  have hf : fr = false := hv.frz
  subst hf
  have he := hv.enum
  cases w with
  | num n =>
    cases n with
    | none => exact ⟨⟨rfl, fun p e => (by cases e), he⟩, rfl⟩
    | some n => exact ⟨⟨rfl, fun p e => (by cases e), he⟩, rfl⟩
  | undef => exact ⟨⟨rfl, fun p e => (by cases e), he⟩, rfl⟩
  | null => exact ⟨⟨rfl, fun p e => (by cases e), fun _ => rfl⟩, rfl⟩
  | bool b => exact ⟨⟨rfl, fun p e => (by cases e), fun _ => rfl⟩, rfl⟩
  | obj o => exact ⟨⟨rfl, fun p e => (by cases e), fun _ => rfl⟩, rfl⟩
  | str b =>
    simp only [numbered, toNum]
    cases hs : E.strtod b with
    | none => exact ⟨⟨rfl, fun p e => (by simp [plusOne] at e), fun _ => rfl⟩, by simp [plusOne, succVal, toNum, hs]⟩
    | some n => exact ⟨⟨rfl, fun p e => (by simp [plusOne] at e), fun _ => rfl⟩, by simp [plusOne, succVal, toNum, hs]⟩

theorem incCell_agree {c : Nat} {t' : SSt} (hf : (s.at c).frozen = false)
    (h' : R m E (s.wr c (plusOne (numbered E (s.at c)))) t') :
    Agree m E (incCell E s c) (some (t', !incFails E (s.at c).val)) := by
  rw [incCell, hf, incFails]
  simp only [Bool.false_eq_true, if_false]
  cases e : (E.strict && (toNum E (s.at c).val).isNone)
  · simp only [Bool.false_eq_true, if_false]; exact h'
  · simp only [if_true]; exact h'

/-! ### New objects -/

theorem plain_ok {p} : ObOk E { proto := p } :=
  ⟨rfl, fun _ => rfl, fun e => (by cases e), fun e he => (by cases he), List.Pairwise.nil⟩

theorem Links.none {o} {own : Bytes → Option Nat} (h : ∀ k, own k = none) : Links m s o own :=
  ⟨fun k c e => (by rw [h] at e; cases e), fun _ k c e => (by rw [h] at e; cases e), fun _ k c k' e => by rw [h] at e; cases e⟩

theorem new_plain (h : R m E s t) {p} (hp : p < s.objs.length) (hpa : t.len p = none) :
    R m E (newObj s { proto := some p }) (t.new (some p) (fun _ => none) none) :=
  h.newOb plain_ok rfl hp hpa (Links.none (own := ({ proto := some p } : Ob).own) fun _ => rfl)

/-- Pairs of a literal on top of properties. -/
def litOn (ps : List (Bytes × Val)) (f : Bytes → Option Val) : Bytes → Option Val :=
  ps.foldl (fun m p => fun k => if k = p.1.takeWhile (· ≠ 0) then some p.2 else m k) f

theorem litPairs_sim : ∀ (ps : List (Bytes × FV)) {s t} (_ : R m E s t) {o} (_ : o < s.objs.length) (_ : t.len o = none)
    (_ : ∀ p ∈ ps, FOk m s p.2) (_ : ∀ p ∈ ps, special (p.1.takeWhile (· ≠ 0)) = false),
    R m E (litPairs s o ps) { t with own := fun o' => if o' = o then litOn (ps.map fun p => (p.1, p.2.val)) (t.own o) else t.own o' } ∧
      (litPairs s o ps).objs.length = s.objs.length
  | [], s, t, h, o, _, _, _, _ => by
    refine ⟨?_, rfl⟩
    refine h.congr ?_ rfl rfl rfl rfl rfl
    funext o'
    show (if o' = o then _ else _) = _
    split
    · next e => rw [e]; rfl
    · rfl
  | (k, v) :: ps, s, t, h, o, ho, hl, hv, hk => by
    obtain ⟨s', h1, h2, _, _, h5⟩ := insert_new h (o := o) (k := k.takeWhile (· ≠ 0)) (v := v) ho
      (hk (k, v) List.mem_cons_self) (fun e => by rw [SSt.isArr, hl] at e; cases e) (hv (k, v) List.mem_cons_self)
    rw [litPairs, h1]
    simp only
    have ih := litPairs_sim ps h5 (o := o) (by omega) hl
      (fun p hp => (hv p (List.mem_cons_of_mem _ hp)).mono (by omega)) (fun p hp => hk p (List.mem_cons_of_mem _ hp))
    refine ⟨ih.1.congr ?_ rfl rfl rfl rfl rfl, by rw [ih.2, h2]⟩
    funext o'
    show (if o' = o then _ else _) = if o' = o then _ else _
    by_cases e : o' = o
    · rw [if_pos e, if_pos e]
      show litOn _ _ = litOn _ _
      rw [List.map_cons, litOn, List.foldl_cons, litOn]
      congr 1
      funext k'
      show (if _ then _ else _) = if o = o ∧ _ then _ else _
      simp
    · rw [if_neg e, if_neg e]
      funext k'
      show t.own o' k' = if o' = o ∧ _ then _ else _
      simp [e]

theorem R.objVar (h : R m E s t) {x} {s' t'} (h' : R m E s' t') (hn : t.n < s'.objs.length) :
    Agree m E (setVar s' x ⟨.obj s.objs.length, false, false⟩) (some (t'.setVar x (.obj t.n))) := by
  have := setVar_agree h' (x := x) (v := ⟨.obj s.objs.length, false, false⟩)
    ⟨rfl, fun p e => (by cases e; rw [← h.n]; exact hn), fun _ => rfl⟩
  rw [h.n]; exact this

theorem mk_agree (h : R m E s t) {x} {ps : List (Bytes × Nat)} (hk : ∀ p ∈ ps, special (p.1.takeWhile (· ≠ 0)) = false) :
    Agree m E (step E s (.mk x ps)) (sstep E t (.mk x ps)) := by
  have h0 := new_plain h (p := objProto) (by have := h.two.1; simp only [objProto]; omega) h.two.2.1
  have hol : (newObj s { proto := some objProto }).objs.length = s.objs.length + 1 := by simp [newObj]
  have h1 := litPairs_sim (ps.map fun p => (p.1, s.var p.2)) h0 (o := s.objs.length) (by rw [hol]; omega)
    (by show (if s.objs.length = t.n then none else _) = none; rw [h.n, if_pos rfl])
    (by
      intro p hp
      obtain ⟨q, _, e⟩ := List.mem_map.1 hp
      subst e
      exact (h.varOk q.2).mono (by rw [hol]; omega))
    (by
      intro p hp
      obtain ⟨q, hq, e⟩ := List.mem_map.1 hp
      subst e
      exact hk q hq)
  rw [step, sstep]
  refine h.objVar (s' := literal s _) ?_ ?_
  · refine h1.1.congr ?_ rfl rfl rfl rfl rfl
    funext o'
    show (fun k' => if o' = t.n then _ else _) = if o' = s.objs.length then _ else fun k' => if o' = t.n then _ else _
    rw [h.n]
    by_cases e : o' = s.objs.length
    · simp only [e, if_true]
      rw [litOn, List.map_map]
      show litProps _ = _
      rw [litProps]
      have e1 : (ps.map fun p => (p.1, t.var p.2)) = ps.map ((fun p => (p.1, p.2.val)) ∘ fun p => (p.1, s.var p.2)) := by
        apply List.map_congr_left
        intro p _
        simp [h.varVal]
      rw [e1]
      congr 1
      funext k'
      show none = if s.objs.length = t.n then none else _
      rw [h.n, if_pos rfl]
    · simp only [e, if_false]
  · show t.n < (literal s _).objs.length
    rw [h.n, literal, h1.2, hol]; omega

theorem elem_some {ob : Ob} {cs : List Nat} (ha : ob.arr = some (cs.map some)) (hc : ob.cnt = cs.length) (i) : ob.elem i = cs[i]? := by
  rw [Ob.elem, ha, hc, Option.getD_some, List.getElem?_map]
  by_cases hi : i < cs.length
  · rw [if_pos hi, List.getElem?_eq_getElem hi]; rfl
  · rw [if_neg hi, List.getElem?_eq_none (by omega)]

/-- A new array of these pointers. -/
theorem new_arr (h : R m E s t) {cs : List Nat} (hlen : cs.length ≤ E.maxList) (hr : ∀ c ∈ cs, c < s.cells.length ∧ c ∉ s.vars)
    (hn : m = true → (∀ c ∈ cs, ∀ o k, ownCell s o k ≠ some c) ∧ cs.Nodup) :
    R m E (newObj s { isarr := true, proto := some arrProto, cnt := cs.length, arr := some (cs.map some) })
      (t.new (some arrProto) (arrProps (cs.map s.val)) (some cs.length)) := by
  generalize hob : ({ isarr := true, proto := some arrProto, cnt := cs.length, arr := some (cs.map some) } : Ob) = ob
  have hia : ob.isarr = true := by rw [← hob]
  have ha : ob.arr = some (cs.map some) := by rw [← hob]
  have hc : ob.cnt = cs.length := by rw [← hob]
  have ht : ob.tree = [] := by rw [← hob]
  have hown : ∀ k, ob.own k = match indexKey k with | some i => cs[i]? | none => none := by
    intro k
    rw [Ob.own, if_pos hia]
    cases indexKey k with
    | none => simp only [ht]; rfl
    | some i => simp only []; exact elem_some ha hc i
  have hmem : ∀ k c, ob.own k = some c → ∃ i, k = Json.decNat i ∧ cs[i]? = some c := by
    intro k c e
    rw [hown] at e
    split at e
    · next i hi => exact ⟨i, indexKey_some hi, e⟩
    · cases e
  have hok : ObOk E ob := by
    refine ⟨by rw [← hob], fun e => (by rw [hia] at e; cases e), fun _ => ⟨_, ha, by rw [hc]; simp, by rw [hc]; exact hlen⟩,
      fun e he => (by rw [ht] at he; cases he), by rw [ht]; exact List.Pairwise.nil⟩
  have hl : Links m s s.objs.length ob.own := by
    refine ⟨?_, ?_, ?_⟩
    · intro k c e
      obtain ⟨i, _, hi⟩ := hmem k c e
      exact hr c (List.mem_of_getElem? hi)
    · intro hm k c e o' k' e'
      obtain ⟨i, _, hi⟩ := hmem k c e
      exact absurd e' ((hn hm).1 c (List.mem_of_getElem? hi) o' k')
    · intro hm k c k' e e'
      obtain ⟨i, hk, hi⟩ := hmem k c e
      obtain ⟨j, hk', hj⟩ := hmem k' c e'
      rw [hk, hk', nodup_inj (hn hm).2 hi hj]
  have := h.newOb (ob := ob) (p := arrProto) hok (by rw [← hob]) (by have := h.two.1; simp only [arrProto]; omega) h.two.2.2 hl
  have e1 : (fun k => (ob.own k).map s.val) = arrProps (cs.map s.val) := by
    funext k
    rw [hown, arrProps]
    cases indexKey k with
    | none => rfl
    | some i => simp only [List.getElem?_map]
  have e2 : obLen ob = some cs.length := by rw [obLen, if_pos hia, hc]
  rw [e1, e2] at this
  exact this

theorem mkArr_agree (h : R m E s t) {x ys} (hl : ys.length ≤ E.maxList) :
    Agree m E (step E s (.mkArr x ys)) (sstep E t (.mkArr x ys)) := by
  rw [step, sstep]
  have h' : R m E { s with cells := s.cells ++ ys.map s.var } t :=
    h.more (fun v hv => by obtain ⟨y, _, e⟩ := List.mem_map.1 hv; subst e; exact h.varOk y)
  let cs := (List.range ys.length).map (s.cells.length + ·)
  have hcl : cs.length = ys.length := by simp [cs]
  have hmem : ∀ c ∈ cs, s.cells.length ≤ c ∧ c < s.cells.length + ys.length := by
    intro c hc
    obtain ⟨i, hi, e⟩ := List.mem_map.1 hc
    have := List.mem_range.1 hi
    omega
  have h2 := new_arr h' (cs := cs) (by omega)
    (fun c hc => ⟨by have := hmem c hc; simp; omega, fresh_var h (hmem c hc).1⟩)
    (fun _ => ⟨fun c hc o k => fresh_own h (hmem c hc).1 o k, by
      show ((List.range ys.length).map (s.cells.length + ·)).Nodup
      rw [List.Nodup, List.pairwise_map]
      exact List.Pairwise.imp (fun h e => h (by omega)) (List.nodup_range)⟩)
  have e1 : cs.map ({ s with cells := s.cells ++ ys.map s.var } : St).val = ys.map t.var := by
    apply List.ext_getElem?
    intro i
    simp only [cs, List.getElem?_map]
    by_cases hi : i < ys.length
    · rw [List.getElem?_range hi, List.getElem?_eq_getElem hi]
      simp only [Option.map_some, St.val, St.at]
      rw [List.getElem?_append_right (by omega), show s.cells.length + i - s.cells.length = i by omega, List.getElem?_map,
        List.getElem?_eq_getElem hi]
      simp [h.varVal]
    · rw [List.getElem?_eq_none (by simpa using hi), List.getElem?_eq_none (by simpa using hi)]; rfl
  rw [e1, hcl] at h2
  have e2 : arrayLit s (ys.map s.var) =
      newObj { s with cells := s.cells ++ ys.map s.var }
        { isarr := true, proto := some arrProto, cnt := ys.length, arr := some (cs.map some) } := by
    simp only [arrayLit, List.length_map, cs, List.map_map]
    rfl
  rw [e2]
  exact h.objVar h2 (by rw [h.n]; simp [newObj])

theorem filterMap_eq {f g : Nat → Option Val} : ∀ {l : List Nat}, (∀ i ∈ l, f i = g i) → l.filterMap f = l.filterMap g
  | [], _ => rfl
  | i :: l, h => by
    rw [List.filterMap_cons, List.filterMap_cons, h i List.mem_cons_self,
      filterMap_eq (l := l) (fun j hj => h j (List.mem_cons_of_mem _ hj))]

theorem filter_agree (h : R m E s t) (hm : m = false) (hmax : E.maxList ≤ 2 ^ 31) {x a sel} :
    Agree m E (step E s (.filter x a sel)) (sstep E t (.filter x a sel)) := by
  rw [step, sstep]
  apply obj_agree h
  intro q hq hql
  obtain ⟨ob, hob⟩ := get_ob hql
  have hok := h.ok q ob hob
  have hlen : t.len q = obLen ob := by rw [h.len, hob]; rfl
  rw [filterArr, hob, hlen, obLen]
  cases hia : ob.isarr with
  | false => simp only [hia, Bool.false_eq_true, if_false]; exact h
  | true =>
    obtain ⟨av, ha, hal, hcm⟩ := hok.arr hia
    simp only [hia, if_true, bind]
    generalize hcs : (List.range ob.cnt).filterMap (fun i => if sel i = true then ((ob.arr.getD [])[i]?).getD none else none) = cs
    have hown : ∀ i, i < ob.cnt → ownCell s q (Json.decNat i) = ((ob.arr.getD [])[i]?).getD none := by
      intro i hi
      rw [ownCell_ob hob, Ob.own, if_pos hia, indexKey_dec]
      simp only [Ob.elem, if_pos hi]
    have hvs : (List.range ob.cnt).filterMap (fun i => if sel i = true then t.own q (Json.decNat i) else none) = cs.map s.val := by
      rw [← hcs, List.map_filterMap]
      apply filterMap_eq
      intro i hi
      have hi' := List.mem_range.1 hi
      by_cases e : sel i = true
      · simp only [e, if_true]; rw [h.own, hown i hi']
      · simp only [e, if_false, Option.map_none]; rfl
    have hr : ∀ c ∈ cs, c < s.cells.length ∧ c ∉ s.vars := by
      intro c hc
      rw [← hcs, List.mem_filterMap] at hc
      obtain ⟨i, hi, e⟩ := hc
      split at e
      · rw [← hown i (List.mem_range.1 hi)] at e
        exact ⟨h.rng _ _ _ e, h.disj _ _ _ e⟩
      · cases e
    have hcl : cs.length ≤ E.maxList := by
      have : cs.length ≤ (List.range ob.cnt).length := by rw [← hcs]; exact List.length_filterMap_le _ _
      simp only [List.length_range] at this
      omega
    have h2 := new_arr h hcl hr (fun e => by rw [hm] at e; cases e)
    rw [hvs, List.length_map]
    exact h.objVar h2 (by rw [h.n]; simp [newObj])

/-! ### Sharing -/

theorem copyTree_sim (hm : m = false) : ∀ (l : List Ent) {s t} (_ : R m E s t) {q} (_ : q < s.objs.length) (_ : t.len q = none)
    (_ : ∀ e ∈ l, special e.key = false ∧ e.cell < s.cells.length ∧ e.cell ∉ s.vars) (_ : Sorted l),
    ∃ s' w, copyTree s q l = (some s', w) ∧ s'.objs.length = s.objs.length ∧
      R m E s' { t with own := fun o k => if o = q then ((treeGet l k).map s.val).or (t.own q k) else t.own o k }
  | [], s, t, h, q, _, _, _, _ => by
    refine ⟨s, s, rfl, rfl, h.congr ?_ rfl rfl rfl rfl rfl⟩
    funext o k
    show (if o = q then _ else _) = _
    split
    · next e => rw [e]; simp [treeGet]
    · rfl
  | e :: l, s, t, h, q, hq, hl, he, hs => by
    have he0 := he e List.mem_cons_self
    have hs' := List.pairwise_cons.1 hs
    obtain ⟨s1, h1, h2, h3, h4, _, h6⟩ := insert_sim h (o := q) (k := e.key) (c := e.cell) hq he0.1
      (fun e => by rw [SSt.isArr, hl] at e; cases e) he0.2 (fun e => by rw [hm] at e; cases e)
    have hval : s1.val = s.val := by funext c; simp only [St.val, St.at, h2]
    obtain ⟨s', w, g1, g2, g3⟩ := copyTree_sim hm l h6 (q := q) (by omega) hl
      (fun d hd => by rw [h2, h3]; exact he d (List.mem_cons_of_mem _ hd)) hs'.2
    refine ⟨s', w, ?_, by omega, ?_⟩
    · rw [copyTree, h.enum hm, h1]; exact g1
    · refine g3.congr ?_ rfl rfl rfl rfl rfl
      funext o k
      show (if o = q then _ else _) = if o = q then Option.or _ (if q = q ∧ k = e.key then _ else _) else (if o = q ∧ k = e.key then _ else _)
      by_cases eo : o = q
      · rw [if_pos eo, if_pos eo, hval, treeGet_cons]
        by_cases ek : e.key = k
        · have hn : treeGet l k = none := by
            rw [treeGet_none]; intro d hd e'
            exact before_ne (hs'.1 d hd) (ek.trans e'.symm)
          rw [hn, if_pos ek, if_pos ⟨rfl, ek.symm⟩]; rfl
        · have : ¬ k = e.key := fun e' => ek e'.symm
          simp [ek, this]
      · simp [eo]

theorem giveAll_eq (h : R m E s t) {q p pb} (hp : s.objs[p]? = some pb) (hl : t.len p = none) :
    { t with own := fun o k => if o = q then ((treeGet pb.tree k).map s.val).or (t.own q k) else t.own o k } = t.giveAll q p := by
  have hia : pb.isarr = false := by
    rw [h.len, hp] at hl
    cases e : pb.isarr with
    | false => rfl
    | true => simp [obLen, e] at hl
  rw [SSt.giveAll]
  congr 1
  funext o k
  have e : pb.own k = treeGet pb.tree k := by rw [Ob.own, if_neg (by rw [hia]; simp)]
  rw [h.own p, ownCell_ob hp, e]

theorem assignAll_agree (hm : m = false) : ∀ (vs : List Val) {s t} (_ : R m E s t) {q} (_ : q < s.objs.length) (_ : t.len q = none)
    (_ : ∀ v ∈ vs, ∀ p, v = .obj p → p < s.objs.length ∧ t.len p = none),
    Agree m E (assignAll s q vs) (some (sAssign t q vs)) ∧ ∀ s', assignAll s q vs = .ok s' → s'.objs.length = s.objs.length
  | [], s, t, h, q, _, _, _ => ⟨h, fun s' e => by cases e; rfl⟩
  | .obj p :: r, s, t, h, q, hq, hl, hv => by
    obtain ⟨hp, hpl⟩ := hv _ List.mem_cons_self p rfl
    obtain ⟨pb, hpb⟩ := get_ob hp
    have hok := h.ok p pb hpb
    have hia : pb.isarr = false := by
      rw [h.len, hpb] at hpl
      cases e : pb.isarr with
      | false => rfl
      | true => simp [obLen, e] at hpl
    have hcell : ∀ e ∈ pb.tree, ownCell s p e.key = some e.cell := by
      intro e he
      rw [ownCell_ob hpb, Ob.own, if_neg (by rw [hia]; simp)]
      exact treeGet_of_mem hok.sorted he
    obtain ⟨s', w, g1, g2, g3⟩ := copyTree_sim hm pb.tree h (q := q) hq hl
      (fun e he => ⟨(hok.keys e he).1, h.rng _ _ _ (hcell e he), h.disj _ _ _ (hcell e he)⟩) hok.sorted
    rw [giveAll_eq h hpb hpl] at g3
    rw [assignAll, hpb]
    simp only [g1, sAssign]
    have ih := assignAll_agree hm r g3 (q := q) (by omega) hl
      (fun v hv' p e => by rw [g2]; exact hv v (List.mem_cons_of_mem _ hv') p e)
    exact ⟨ih.1, fun s2 e => by rw [ih.2 s2 e, g2]⟩
  | .undef :: r, s, t, h, q, _, _, _ => ⟨h, fun s' e => by cases e⟩
  | .null :: r, s, t, h, q, _, _, _ => ⟨h, fun s' e => by cases e⟩
  | .bool _ :: r, s, t, h, q, _, _, _ => ⟨h, fun s' e => by cases e⟩
  | .num _ :: r, s, t, h, q, _, _, _ => ⟨h, fun s' e => by cases e⟩
  | .str _ :: r, s, t, h, q, _, _, _ => ⟨h, fun s' e => by cases e⟩

theorem plainSrc_obj {v p} (h : plainSrc t v = true) (e : v = .obj p) : t.len p = none := by
  have := onObj_obj h e
  rw [SSt.isArr] at this
  cases h' : t.len p with
  | none => rfl
  | some n => rw [h'] at this; cases this

/-- New object, sources copied, variable set. -/
theorem build_agree (h : R m E s t) {x p} (hp : p < s.objs.length) (hpa : t.len p = none) {vs : List Val}
    (hm : m = false ∨ vs = []) (hv : ∀ v ∈ vs, ∀ p, v = .obj p → p < s.objs.length ∧ t.len p = none) :
    Agree m E (bind (assignAll (newObj s { proto := some p }) s.objs.length vs) x s.objs.length)
      (some (sBind (sAssign (t.new (some p) (fun _ => none) none) t.n vs) x t.n)) := by
  have h0 := new_plain h hp hpa
  have hol : (newObj s { proto := some p }).objs.length = s.objs.length + 1 := by simp [newObj]
  have hl0 : (t.new (some p) (fun _ => none) none).len s.objs.length = none := by
    show (if s.objs.length = t.n then none else _) = none; rw [h.n, if_pos rfl]
  have ha : Agree m E (assignAll (newObj s { proto := some p }) s.objs.length vs)
      (some (sAssign (t.new (some p) (fun _ => none) none) s.objs.length vs)) ∧
      ∀ s', assignAll (newObj s { proto := some p }) s.objs.length vs = .ok s' → s'.objs.length = (newObj s { proto := some p }).objs.length := by
    rcases hm with hm | hm
    · apply assignAll_agree hm vs h0 (by rw [hol]; omega) hl0
      intro v hv' q e
      have := hv v hv' q e
      refine ⟨by rw [hol]; omega, ?_⟩
      show (if q = t.n then none else t.len q) = none
      rw [this.2]; simp
    · subst hm; exact ⟨h0, fun s' e => by cases e; rfl⟩
  have hn := h.n
  rw [hn]
  revert ha
  generalize assignAll (newObj s { proto := some p }) s.objs.length vs = o
  generalize sAssign (t.new (some p) (fun _ => none) none) s.objs.length vs = r
  obtain ⟨t', b⟩ := r
  cases o with
  | crash => intro ha; exact ha.1.elim
  | err s' =>
    intro ha
    cases b with
    | true => exact ha.1.elim
    | false => exact ha.1
  | ok s' =>
    intro ha
    cases b with
    | false => exact ha.1.elim
    | true =>
      have := h.objVar (x := x) (s' := s') (t' := t') ha.1 (by rw [ha.2 s' rfl, hol, hn]; omega)
      rw [hn] at this
      exact this

end Verif.Obj
