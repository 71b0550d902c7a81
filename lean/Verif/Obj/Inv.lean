import Verif.Obj.Facts

/-! The relation between the states of the model and of the specification. -/

namespace Verif.Obj

def St.val (s : St) (c : Nat) : Val := (s.at c).val

def obLen (ob : Ob) : Option Nat := if ob.isarr then some ob.cnt else none

/-- Shape of an object. -/
structure ObOk (E : Env) (ob : Ob) : Prop where
  frz : ob.freeze = false
  plain : ob.isarr = false → ob.arr = none
  arr : ob.isarr = true → ∃ a, ob.arr = some a ∧ a.length ≤ ob.cnt ∧ ob.cnt ≤ E.maxList
  keys : ∀ e ∈ ob.tree, special e.key = false ∧ (ob.isarr = true → digitStart e.key = false)
  sorted : Sorted ob.tree

/-- The waiting functions. -/
def Frames : List Nat → List (List Nat) → List Nat → Prop
  | _, [], [] => True
  | vs, w :: r, k :: r' => w = vs.drop k ∧ Frames w r r'
  | _, _, _ => False

structure R (m : Bool) (E : Env) (s : St) (t : SSt) : Prop where
  n : t.n = s.objs.length
  own : ∀ o k, t.own o k = (ownCell s o k).map s.val
  len : ∀ o, t.len o = (s.objs[o]?).bind obLen
  proto : ∀ o, t.proto o = (s.objs[o]?).bind Ob.proto
  vars : t.vars = s.vars.map s.val
  frames : Frames s.vars s.saved t.calls
  ok : ∀ (o : Nat) ob, s.objs[o]? = some ob → ObOk E ob
  pr : ∀ o p, t.proto o = some p → p < o ∧ t.len p = none
  rng : ∀ o k c, ownCell s o k = some c → c < s.cells.length
  vrng : ∀ c ∈ s.vars, c < s.cells.length
  nodup : s.vars.Nodup
  disj : ∀ o k c, ownCell s o k = some c → c ∉ s.vars
  frz : ∀ c, (s.at c).frozen = false
  refs : ∀ c p, s.val c = .obj p → p < s.objs.length
  two : 2 ≤ s.objs.length ∧ t.len 0 = none ∧ t.len 1 = none
  inj : m = true → ∀ o k c o' k', ownCell s o k = some c → ownCell s o' k' = some c → o = o' ∧ k = k'
  enum : m = false → ∀ c, (s.at c).dontenum = false

/-- A value that may be stored. -/
structure FOk (m : Bool) (s : St) (v : FV) : Prop where
  frz : v.frozen = false
  ref : ∀ p, v.val = .obj p → p < s.objs.length
  enum : m = false → v.dontenum = false

theorem FOk.prim {m s v} (h : isPrim v = true) : FOk m s ⟨v, false, false⟩ :=
  ⟨rfl, fun p e => by simp only [] at e; subst e; simp [isPrim] at h, fun _ => rfl⟩

variable {m : Bool} {E : Env} {s : St} {t : SSt}

theorem R.fok (h : R m E s t) (c) : FOk m s (s.at c) := ⟨h.frz c, h.refs c, fun e => h.enum e c⟩

theorem R.varOk (h : R m E s t) (x) : FOk m s (s.var x) := by
  rw [St.var]
  split
  · exact h.fok _
  · exact FOk.prim (v := .undef) rfl

theorem R.varVal (h : R m E s t) (x) : (s.var x).val = t.var x := by
  rw [St.var, SSt.var, h.vars, List.getElem?_map]
  cases s.vars[x]? <;> rfl

theorem R.varslen (h : R m E s t) : t.vars.length = s.vars.length := by rw [h.vars, List.length_map]

theorem nodup_inj {l : List Nat} (h : l.Nodup) {i j c : Nat} (hi : l[i]? = some c) (hj : l[j]? = some c) : i = j := by
  obtain ⟨hil, hie⟩ := List.getElem?_eq_some_iff.1 hi
  obtain ⟨hjl, hje⟩ := List.getElem?_eq_some_iff.1 hj
  have hp := List.pairwise_iff_getElem.1 h
  rcases Nat.lt_trichotomy i j with e | e | e
  · exact absurd (hie.trans hje.symm) (hp i j hil hjl e)
  · exact e
  · exact absurd (hje.trans hie.symm) (hp j i hjl hil e)

/-- A variable is overwritten. -/
theorem R.wrVar (h : R m E s t) {x c v} (hx : s.vars[x]? = some c) (hv : FOk m s v) :
    R m E (s.wr c v) { t with vars := t.vars.set x v.val } := by
  have hc : c ∈ s.vars := List.mem_of_getElem? hx
  have hl := h.vrng c hc
  have hat := fun d => at_wr s c v d hl
  have hown : ∀ o k, ownCell (s.wr c v) o k = ownCell s o k := fun _ _ => rfl
  refine ⟨h.n, ?_, h.len, h.proto, ?_, h.frames, h.ok, h.pr, ?_, ?_, h.nodup, h.disj, ?_, ?_, h.two, h.inj, ?_⟩
  · intro o k
    rw [hown, h.own]
    cases e : ownCell s o k with
    | none => rfl
    | some d =>
      have : d ≠ c := fun e' => h.disj o k d e (e' ▸ hc)
      simp [St.val, hat, this]
  · apply List.ext_getElem?
    intro i
    have hx' := List.getElem?_eq_some_iff.1 hx
    obtain ⟨hxl, hxe⟩ := hx'
    show (t.vars.set x v.val)[i]? = ((s.wr c v).vars.map (s.wr c v).val)[i]?
    rw [List.getElem?_set, List.getElem?_map, h.vars, List.length_map, List.getElem?_map]
    show _ = (s.vars[i]?).map (s.wr c v).val
    by_cases e : x = i
    · subst e; simp only [hx, hxl, if_true, Option.map_some, St.val, hat]
    · rw [if_neg e]
      cases e2 : s.vars[i]? with
      | none => rfl
      | some d =>
        have : d ≠ c := by
          intro e'; subst e'
          obtain ⟨hi, he⟩ := List.getElem?_eq_some_iff.1 e2
          exact e (nodup_inj h.nodup hx e2)
        simp [St.val, hat, this]
  · intro o k d e; simpa [St.wr] using h.rng o k d e
  · intro d hd; simpa [St.wr] using h.vrng d hd
  · intro d; rw [hat]; split
    · exact hv.frz
    · exact h.frz d
  · intro d p; rw [St.val, hat]; split
    · exact hv.ref p
    · exact h.refs d p
  · intro e d; rw [hat]; split
    · exact hv.enum e
    · exact h.enum e d

/-- A property is overwritten in place. -/
theorem R.wrOwn (h : R m E s t) (hm : m = true) {o k c v} (hc : ownCell s o k = some c) (hv : FOk m s v) :
    R m E (s.wr c v) { t with own := fun o' k' => if o' = o ∧ k' = k then some v.val else t.own o' k' } := by
  have hl := h.rng o k c hc
  have hat := fun d => at_wr s c v d hl
  have hown : ∀ o k, ownCell (s.wr c v) o k = ownCell s o k := fun _ _ => rfl
  refine ⟨h.n, ?_, h.len, h.proto, ?_, h.frames, h.ok, h.pr, ?_, ?_, h.nodup, h.disj, ?_, ?_, h.two, h.inj, ?_⟩
  · intro o' k'
    rw [hown]
    show (if o' = o ∧ k' = k then some v.val else t.own o' k') = _
    split
    · next e => rw [e.1, e.2, hc]; simp [St.val, hat]
    · next e =>
      rw [h.own]
      cases e2 : ownCell s o' k' with
      | none => rfl
      | some d =>
        have : d ≠ c := fun e' => by
          subst e'
          have := h.inj hm o k d o' k' hc e2
          exact e ⟨this.1.symm, this.2.symm⟩
        simp [St.val, hat, this]
  · show t.vars = s.vars.map (s.wr c v).val
    rw [h.vars]
    apply List.map_congr_left
    intro d hd
    have : d ≠ c := fun e => h.disj o k c hc (e ▸ hd)
    simp [St.val, hat, this]
  · intro o k d e; simpa [St.wr] using h.rng o k d e
  · intro d hd; simpa [St.wr] using h.vrng d hd
  · intro d; rw [hat]; split
    · exact hv.frz
    · exact h.frz d
  · intro d p; rw [St.val, hat]; split
    · exact hv.ref p
    · exact h.refs d p
  · intro e d; rw [hat]; split
    · exact hv.enum e
    · exact h.enum e d

/-! New values -/

theorem at_app_lt (s : St) (vs : List FV) {c} (h : c < s.cells.length) : ({ s with cells := s.cells ++ vs } : St).at c = s.at c := by
  simp [St.at, List.getElem?_append_left h]

theorem at_app (s : St) (vs : List FV) (c) : ({ s with cells := s.cells ++ vs } : St).at c = s.at c ∨
    ({ s with cells := s.cells ++ vs } : St).at c ∈ vs := by
  by_cases h : c < s.cells.length
  · exact Or.inl (at_app_lt s vs h)
  · simp only [St.at]
    rw [List.getElem?_append_right (by omega)]
    cases e : vs[c - s.cells.length]? with
    | none => left; rw [List.getElem?_eq_none (by omega)]
    | some v => right; simpa using List.mem_of_getElem? e

/-- The same objects, more values. -/
theorem R.more (h : R m E s t) {vs : List FV} (hv : ∀ v ∈ vs, FOk m s v) : R m E { s with cells := s.cells ++ vs } t := by
  have hlt := fun c (hc : c < s.cells.length) => at_app_lt s vs hc
  have hown : ∀ o k, ownCell { s with cells := s.cells ++ vs } o k = ownCell s o k := fun _ _ => rfl
  have hlen : s.cells.length ≤ (s.cells ++ vs).length := by simp
  refine ⟨h.n, ?_, h.len, h.proto, ?_, h.frames, h.ok, h.pr, ?_, ?_, h.nodup, h.disj, ?_, ?_, h.two, h.inj, ?_⟩
  · intro o k
    rw [hown, h.own]
    cases e : ownCell s o k with
    | none => rfl
    | some d => simp [St.val, hlt d (h.rng o k d e)]
  · show t.vars = s.vars.map _
    rw [h.vars]
    apply List.map_congr_left
    intro d hd
    simp [St.val, hlt d (h.vrng d hd)]
  · intro o k d e; exact Nat.lt_of_lt_of_le (h.rng o k d e) hlen
  · intro d hd; exact Nat.lt_of_lt_of_le (h.vrng d hd) hlen
  · intro d; rcases at_app s vs d with e | e
    · rw [e]; exact h.frz d
    · exact (hv _ e).frz
  · intro d p hd; rcases at_app s vs d with e | e
    · rw [St.val, e] at hd; exact h.refs d p hd
    · exact (hv _ e).ref p hd
  · intro e' d; rcases at_app s vs d with e | e
    · rw [e]; exact h.enum e' d
    · exact (hv _ e).enum e'

/-- Where the pointers of an object may go: to its old ones, to new ones, or (without changes in place) anywhere but to
variables. -/
structure Links (m : Bool) (s : St) (o : Nat) (own : Bytes → Option Nat) : Prop where
  rng : ∀ k c, own k = some c → c < s.cells.length ∧ c ∉ s.vars
  other : m = true → ∀ k c, own k = some c → ∀ o' k', ownCell s o' k' = some c → o' = o
  inj : m = true → ∀ k c k', own k = some c → own k' = some c → k = k'

theorem ownCell_set (s : St) {o ob'} (ho : o < s.objs.length) (o' k') :
    ownCell { s with objs := s.objs.set o ob' } o' k' = if o' = o then ob'.own k' else ownCell s o' k' := by
  simp only [ownCell, List.getElem?_set]
  by_cases e : o' = o
  · subst e; simp [ho]
  · have : ¬ o = o' := fun e' => e e'.symm
    simp [e, this]

/-- An object is changed. -/
theorem R.upd (h : R m E s t) {o ob ob'} (ho : s.objs[o]? = some ob) (hk : ObOk E ob') (hp : ob'.proto = ob.proto)
    (ha : ob'.isarr = ob.isarr) (hl : Links m s o ob'.own) :
    R m E { s with objs := s.objs.set o ob' }
      { t with own := fun o' k' => if o' = o then (ob'.own k').map s.val else t.own o' k',
               len := fun o' => if o' = o then obLen ob' else t.len o' } := by
  have hol : o < s.objs.length := (List.getElem?_eq_some_iff.1 ho).1
  have hown := ownCell_set s (ob' := ob') hol
  have hget : ∀ o', (s.objs.set o ob')[o']? = if o' = o then some ob' else s.objs[o']? := by
    intro o'
    rw [List.getElem?_set]
    by_cases e : o' = o
    · subst e; simp [hol]
    · have : ¬ o = o' := fun e' => e e'.symm
      simp [e, this]
  have hlo : t.len o = obLen ob := by rw [h.len, ho]; rfl
  have hnone : ∀ o', t.len o' = none → (if o' = o then obLen ob' else t.len o') = none := by
    intro o' e
    split
    · next e' =>
      subst e'
      rw [hlo, obLen] at e
      rw [obLen, ha]
      split at e
      · cases e
      · next hf => rw [if_neg hf]
    · exact e
  refine ⟨by rw [h.n]; simp, ?_, ?_, ?_, h.vars, h.frames, ?_, ?_, ?_, h.vrng, h.nodup, ?_, h.frz, ?_, ?_, ?_, h.enum⟩
  · intro o' k'
    rw [hown]
    show (if o' = o then (ob'.own k').map s.val else t.own o' k') = Option.map s.val _
    split
    · rfl
    · rw [h.own]
  · intro o'
    show (if o' = o then obLen ob' else t.len o') = ((s.objs.set o ob')[o']?).bind obLen
    rw [hget]
    split
    · rfl
    · rw [h.len]
  · intro o'
    show t.proto o' = ((s.objs.set o ob')[o']?).bind Ob.proto
    rw [hget, h.proto]
    split
    · next e => rw [e, ho]; exact hp.symm
    · rfl
  · intro o' b hb
    rw [hget] at hb
    split at hb
    · cases hb; exact hk
    · exact h.ok o' b hb
  · intro o' p hp'
    have := h.pr o' p hp'
    exact ⟨this.1, hnone p this.2⟩
  · intro o' k' c hc
    rw [hown] at hc
    split at hc
    · exact (hl.rng k' c hc).1
    · exact h.rng o' k' c hc
  · intro o' k' c hc
    rw [hown] at hc
    split at hc
    · exact (hl.rng k' c hc).2
    · exact h.disj o' k' c hc
  · intro c p hc
    have := h.refs c p hc
    simpa using this
  · refine ⟨?_, hnone 0 h.two.2.1, hnone 1 h.two.2.2⟩
    simpa using h.two.1
  · intro hm o1 k1 c o2 k2 h1 h2
    rw [hown] at h1 h2
    split at h1 <;> split at h2
    · next e1 e2 => exact ⟨e1.trans e2.symm, hl.inj hm k1 c k2 h1 h2⟩
    · next e1 e2 => exact absurd (hl.other hm k1 c h1 o2 k2 h2) e2
    · next e1 e2 => exact absurd (hl.other hm k2 c h2 o1 k1 h1) e1
    · exact h.inj hm o1 k1 c o2 k2 h1 h2

/-- A new object. -/
theorem R.newOb (h : R m E s t) {ob p} (hk : ObOk E ob) (hp : ob.proto = some p) (hpl : p < s.objs.length) (hpa : t.len p = none)
    (hl : Links m s s.objs.length ob.own) :
    R m E (newObj s ob) (t.new (some p) (fun k => (ob.own k).map s.val) (obLen ob)) := by
  have hget : ∀ o', (s.objs ++ [ob])[o']? = if o' = s.objs.length then some ob else s.objs[o']? := by
    intro o'
    rcases Nat.lt_trichotomy o' s.objs.length with e | e | e
    · rw [List.getElem?_append_left e, if_neg (by omega)]
    · subst e; simp
    · rw [if_neg (by omega), List.getElem?_eq_none (by simp; omega), List.getElem?_eq_none (by omega)]
  have hown : ∀ o' k', ownCell (newObj s ob) o' k' = if o' = s.objs.length then ob.own k' else ownCell s o' k' := by
    intro o' k'
    show ((s.objs ++ [ob])[o']?).bind _ = _
    rw [hget]
    split <;> rfl
  have hnone : ∀ o', o' < s.objs.length → t.len o' = none → (if o' = t.n then obLen ob else t.len o') = none := by
    intro o' e' e
    rw [h.n, if_neg (by omega)]; exact e
  have hplt : ∀ o p, t.proto o = some p → o < s.objs.length := by
    intro o p e
    rw [h.proto] at e
    cases e' : s.objs[o]? with
    | none => rw [e'] at e; cases e
    | some b => exact (List.getElem?_eq_some_iff.1 e').1
  refine ⟨?_, ?_, ?_, ?_, h.vars, h.frames, ?_, ?_, ?_, h.vrng, h.nodup, ?_, h.frz, ?_, ?_, ?_, h.enum⟩
  · show t.n + 1 = (s.objs ++ [ob]).length
    rw [h.n]; simp
  · intro o' k'
    rw [hown]
    show (if o' = t.n then (ob.own k').map s.val else t.own o' k') = Option.map s.val _
    rw [h.n]
    split
    · rfl
    · rw [h.own]
  · intro o'
    show (if o' = t.n then obLen ob else t.len o') = ((s.objs ++ [ob])[o']?).bind obLen
    rw [hget, h.n]
    split
    · rfl
    · rw [h.len]
  · intro o'
    show (if o' = t.n then some p else t.proto o') = ((s.objs ++ [ob])[o']?).bind Ob.proto
    rw [hget, h.n]
    split
    · exact hp.symm
    · rw [h.proto]
  · intro o' b hb
    have hb' : (s.objs ++ [ob])[o']? = some b := hb
    rw [hget] at hb'
    split at hb'
    · cases hb'; exact hk
    · exact h.ok o' b hb'
  · intro o' q hq
    have hq' : (if o' = t.n then some p else t.proto o') = some q := hq
    split at hq'
    · next e => cases hq'; rw [e, h.n]; exact ⟨hpl, hnone p hpl hpa⟩
    · have := h.pr o' q hq'
      exact ⟨this.1, hnone q (Nat.lt_trans this.1 (hplt o' q hq')) this.2⟩
  · intro o' k' c hc
    rw [hown] at hc
    split at hc
    · exact (hl.rng k' c hc).1
    · exact h.rng o' k' c hc
  · intro o' k' c hc
    rw [hown] at hc
    split at hc
    · exact (hl.rng k' c hc).2
    · exact h.disj o' k' c hc
  · intro c q hc
    have := h.refs c q hc
    show q < (s.objs ++ [ob]).length
    simp; omega
  · have := h.two.1
    refine ⟨?_, hnone 0 (by omega) h.two.2.1, hnone 1 (by omega) h.two.2.2⟩
    show 2 ≤ (s.objs ++ [ob]).length
    simp; omega
  · intro hm o1 k1 c o2 k2 h1 h2
    rw [hown] at h1 h2
    split at h1 <;> split at h2
    · next e1 e2 => exact ⟨e1.trans e2.symm, hl.inj hm k1 c k2 h1 h2⟩
    · next e1 e2 => exact absurd (hl.other hm k1 c h1 o2 k2 h2) e2
    · next e1 e2 => exact absurd (hl.other hm k2 c h2 o1 k1 h1) e1
    · exact h.inj hm o1 k1 c o2 k2 h1 h2

/-- A function is called. -/
theorem R.push (h : R m E s t) (hm : m = true) {vs : List FV} (hv : ∀ v ∈ vs, FOk m s v) :
    R m E (call s vs) { t with vars := vs.map FV.val ++ t.vars, calls := vs.length :: t.calls } := by
  have hv' : ∀ v ∈ vs.map (fun v : FV => { v with dontenum := true }), FOk m s v := by
    intro v hv1
    obtain ⟨w, hw, e⟩ := List.mem_map.1 hv1
    subst e
    have := hv w hw
    exact ⟨this.frz, this.ref, fun e => by rw [hm] at e; cases e⟩
  have h' := h.more hv'
  generalize hws : vs.map (fun v : FV => { v with dontenum := true }) = ws at h'
  have hwl : ws.length = vs.length := by rw [← hws]; simp
  have hcall : call s vs = { s with
    cells := s.cells ++ ws,
    vars := (List.range vs.length).map (s.cells.length + ·) ++ s.vars,
    saved := s.vars :: s.saved } := by rw [← hws]; rfl
  rw [hcall]
  have hlen : (s.cells ++ ws).length = s.cells.length + vs.length := by simp [hwl]
  refine ⟨h'.n, h'.own, h'.len, h'.proto, ?_, ?_, h'.ok, h'.pr, h'.rng, ?_, ?_, ?_, h'.frz, h'.refs, h'.two, h'.inj, h'.enum⟩
  · show vs.map FV.val ++ t.vars = ((List.range vs.length).map (s.cells.length + ·) ++ s.vars).map _
    rw [List.map_append]
    congr 1
    · apply List.ext_getElem?
      intro i
      rw [List.getElem?_map, List.getElem?_map, List.getElem?_map]
      by_cases hi : i < vs.length
      · rw [List.getElem?_range hi, List.getElem?_eq_getElem hi]
        simp only [Option.map_some, St.val, St.at]
        rw [List.getElem?_append_right (by omega), ← hws, List.getElem?_map, show s.cells.length + i - s.cells.length = i by omega,
          List.getElem?_eq_getElem hi]
        rfl
      · rw [List.getElem?_eq_none (by simpa using hi), List.getElem?_eq_none (by simpa using hi)]; rfl
    · exact h'.vars
  · show Frames _ (s.vars :: s.saved) (vs.length :: t.calls)
    refine ⟨?_, h.frames⟩
    rw [List.drop_append_of_le_length (by simp), List.drop_eq_nil_of_le (by simp), List.nil_append]
  · intro c hc
    show c < (s.cells ++ ws).length
    rw [hlen]
    rcases List.mem_append.1 hc with e | e
    · obtain ⟨i, hi, e⟩ := List.mem_map.1 e
      have := List.mem_range.1 hi
      omega
    · have := h.vrng c e; omega
  · show ((List.range vs.length).map (s.cells.length + ·) ++ s.vars).Nodup
    rw [List.nodup_append]
    refine ⟨?_, h.nodup, ?_⟩
    · rw [List.Nodup, List.pairwise_map]
      exact List.Pairwise.imp (fun h e => h (by omega)) (List.nodup_range)
    · intro a ha b hb e
      obtain ⟨i, _, e'⟩ := List.mem_map.1 ha
      have := h.vrng b hb
      omega
  · intro o k c hc hmem
    rcases List.mem_append.1 hmem with e | e
    · obtain ⟨i, _, e'⟩ := List.mem_map.1 e
      have := h.rng o k c hc
      omega
    · exact h.disj o k c hc e

/-- A function returns. -/
theorem R.pop (h : R m E s t) {w r k r'} (hs : s.saved = w :: r) (hc : t.calls = k :: r') :
    R m E { s with vars := w, saved := r } { t with vars := t.vars.drop k, calls := r' } := by
  have hf := h.frames
  rw [hs, hc] at hf
  have hw : w = s.vars.drop k := hf.1
  have hsub : ∀ c ∈ w, c ∈ s.vars := fun c e => List.mem_of_mem_drop (hw ▸ e)
  refine ⟨h.n, h.own, h.len, h.proto, ?_, hf.2, h.ok, h.pr, h.rng, fun c e => h.vrng c (hsub c e), ?_,
    fun o k c e e' => h.disj o k c e (hsub c e'), h.frz, h.refs, h.two, h.inj, h.enum⟩
  · show t.vars.drop k = w.map s.val
    rw [hw, h.vars, List.map_drop]
  · show w.Nodup
    rw [hw]; exact h.nodup.sublist (List.drop_sublist _ _)

end Verif.Obj
