import Verif.Obj.Sim

/-!
Every step of a script is made of small changes.  What holds before and after each small change holds for all histories.
-/

namespace Verif.Obj

/-- Operations that some properties exclude. -/
inductive Kind where
  | usual | values | each | apply | setProto | del
  | freeze (f m : Bool)
  deriving DecidableEq

def Op.kind : Op → Kind
  | .values .. => .values
  | .each .. => .each
  | .apply .. => .apply
  | .setProto .. => .setProto
  | .del .. => .del
  | .freeze _ f m _ => .freeze f m
  | _ => .usual

/-- Where stored values come from. -/
def Src (E : Env) (s : St) (v : FV) : Prop :=
  (∃ c, v = s.at c) ∨ (isPrim v.val = true ∧ v.frozen = false) ∨ (∃ o, o < s.objs.length ∧ v = ⟨.obj o, false, false⟩) ∨
    ∃ o k, E.special s o k = some v

/-- A small change. -/
inductive Atom (E : Env) : Kind → St → St → Prop
  /-- a variable is overwritten -/
  | setv {s : St} {x c : Nat} {v} : s.vars[x]? = some c → Src E s v → Atom E .usual s (s.wr c v)
  /-- a number is made one more -/
  | incr {s c} : (s.at c).frozen = false → Atom E .usual s (s.wr c (plusOne (numbered E (s.at c))))
  /-- an element is overwritten -/
  | elem {s : St} {o : Nat} {ob} {a : List (Option Nat)} {n c : Nat} {v} : s.objs[o]? = some ob → ob.arr = some a → a[n]? = some (some c) → Src E s v → Atom E .usual s (s.wr c v)
  /-- `arrCnt` grows -/
  | cnt {s : St} {o : Nat} {ob : Ob} {n} : s.objs[o]? = some ob → Atom E .usual s { s with objs := s.objs.set o { ob with cnt := n } }
  /-- a new element -/
  | slot {s : St} {o : Nat} {ob : Ob} {a n v k} : s.objs[o]? = some ob → ob.arr = some a → Src E s v →
      Atom E .usual s { s.alloc v with objs := s.objs.set o { ob with cnt := k, arr := some (setSlot a n s.cells.length) } }
  /-- a value nobody uses -/
  | alloc {s v} : Src E s v → Atom E .usual s (s.alloc v)
  /-- a new property -/
  | ins {s o k v s'} : insert (s.alloc v) o k s.cells.length false = some s' → Src E s v → Atom E .usual s s'
  /-- shared properties -/
  | share {s : St} {q p : Nat} {pb : Ob} : s.objs[p]? = some pb → Atom E .usual s (copyTree s q pb.tree).2
  | del {s : St} {o : Nat} {ob : Ob} {k} : s.objs[o]? = some ob → ob.freeze = false →
      Atom E .del s { s with objs := s.objs.set o { ob with tree := treeDel ob.tree k } }
  | newPlain {s p} : p < s.objs.length → Atom E .usual s (newObj s { proto := some p })
  | newArr {s vs} : (∀ v ∈ vs, Src E s v) → Atom E .usual s (arrayLit s vs)
  /-- `filter` -/
  | newFilter {s : St} {o : Nat} {ob : Ob} {cs : List Nat} : s.objs[o]? = some ob → (∀ c ∈ cs, ∃ i : Nat, ((ob.arr.getD [])[i]?).getD none = some c) →
      Atom E .usual s (newObj s { isarr := true, proto := some arrProto, cnt := cs.length, arr := some (cs.map some) })
  | call {s vs} : (∀ v ∈ vs, Src E s v) → Atom E .usual s (call s vs)
  | ret {s v r} : s.saved = v :: r → Atom E .usual s { s with vars := v, saved := r }
  | values {s : St} {o : Nat} {ob : Ob} : s.objs[o]? = some ob → Atom E .values s (newObj s (valuesOb ob))
  | setvO {s : St} {x c o : Nat} : s.vars[x]? = some c → o < s.objs.length → Atom E .values s (s.wr c ⟨.obj o, false, false⟩)
  | each {s : St} {o i c : Nat} {ob : Ob} : s.objs[o]? = some ob → ((ob.arr.getD [])[i]?).getD none = some c → Atom E .each s { s with
          cells := s.cells.modify c (fun v => { v with dontenum := true }),
          vars := c :: s.vars, saved := s.vars :: s.saved }
  | applied {s o ps s'} : apply s o ps = .ok s' → Atom E .apply s s'
  | setProto {s : St} {o : Nat} {ob : Ob} {p} : s.objs[o]? = some ob → Atom E .setProto s { s with objs := s.objs.set o { ob with proto := p } }
  | freeze {s : St} {o : Nat} {ob : Ob} {f m r} : s.objs[o]? = some ob → Atom E (.freeze f m) s { s with
      objs := s.objs.set o { ob with freeze := f, noMod := !m, readChk := r },
      cells := if (!ob.noMod) != m then setFrozen (!m) (ownCells ob) s.cells else s.cells }

/-- Many small changes. -/
inductive Reach (E : Env) (k : Kind) : St → St → Prop
  | refl {s} : Reach E k s s
  | next {s s' s''} : Reach E k s s' → Atom E k s' s'' → Reach E k s s''

theorem Reach.one {E k s s'} (h : Atom E k s s') : Reach E k s s' := .next .refl h

theorem Reach.trans {E k s s' s''} (h : Reach E k s s') (h' : Reach E k s' s'') : Reach E k s s'' := by
  induction h' with
  | refl => exact h
  | next _ a ih => exact .next ih a

theorem Reach.keeps {E k} {I : St → Prop} (hI : ∀ s s', I s → Atom E k s s' → I s') {s s'} (h : Reach E k s s') (hs : I s) : I s' := by
  induction h with
  | refl => exact hs
  | next _ a ih => exact hI _ _ ih a

/-- The state after a step. -/
def Out.st : Out → Option St
  | .ok s => some s
  | .err s => some s
  | .crash => none

variable {E : Env} {s : St}

theorem src_var (x) : Src E s (s.var x) := by
  rw [St.var]
  split
  · exact Or.inl ⟨_, rfl⟩
  · exact Or.inr (Or.inl ⟨rfl, rfl⟩)

theorem src_undef : Src E s ⟨.undef, false, false⟩ := Or.inr (Or.inl ⟨rfl, rfl⟩)

/-- A step was made by small changes from `s`. -/
def Made (E : Env) (k : Kind) (s : St) (o : Out) : Prop := ∀ s', o.st = some s' → Reach E k s s'

theorem made_err {k} : Made E k s (.err s) := fun s' h => by cases h; exact .refl
theorem made_crash {k} : Made E k s .crash := fun s' h => by cases h
theorem made_ok {k s'} (h : Reach E k s s') : Made E k s (.ok s') := fun s'' e => by cases e; exact h
theorem made_err' {k s'} (h : Reach E k s s') : Made E k s (.err s') := fun s'' e => by cases e; exact h

theorem Made.after {k s s1 o} (h : Reach E k s s1) (h' : Made E k s1 o) : Made E k s o := fun s' e => h.trans (h' s' e)

theorem made_withObj {k v} {f : Nat → Out} (h : ∀ o, v = .obj o → Made E k s (f o)) : Made E k s (withObj s v f) := by
  cases v with
  | obj o => exact h o rfl
  | undef => exact made_err
  | null => exact made_err
  | bool _ => exact made_err
  | num _ => exact made_err
  | str _ => exact made_err

theorem made_setVar {x v} (h : Src E s v) : Made E .usual s (setVar s x v) := by
  rw [setVar]
  split
  · next c e => exact made_ok (.one (.setv e h))
  · exact made_err

theorem set_self {o : Nat} {ob : Ob} (f : Ob → Ob) (h : s.objs[o]? = some ob) : s.objs.modify o f = s.objs.set o (f ob) := by
  have ho := (List.getElem?_eq_some_iff.1 h).1
  apply List.ext_getElem?
  intro i
  rw [List.getElem?_modify, List.getElem?_set]
  by_cases e : o = i
  · subst e; rw [h, if_pos rfl, if_pos ho]; simp
  · simp [e]

theorem made_putName {o k v} (h : Src E s v) : Made E .usual s (putName s o k v) := by
  rw [putName]
  split
  · exact made_err
  · split
    · next s' e => exact made_ok (.one (.ins e h))
    · exact made_err' (.one (.alloc h))

theorem made_put {o k v} (h : Src E s v) : Made E .usual s (put E s o k v) := by
  rw [put]
  cases e : s.objs[o]? with
  | none => exact made_err
  | some ob =>
    simp only
    split
    · next i a ha =>
      split
      · rw [arraySetDup]
        split
        · exact made_err
        · split
          · next c hc =>
            have hc' : a[i.toNat]? = some (some c) := by
              cases e' : a[i.toNat]? with
              | none => rw [e'] at hc; cases hc
              | some w => rw [e'] at hc; simp only [Option.getD_some] at hc; rw [hc]
            refine made_ok ?_
            -- the element first, then the count
            have h1 : Reach E .usual s (s.wr c v) := .one (.elem e ha hc' h)
            have h2 : Atom E .usual (s.wr c v) { s.wr c v with objs := (s.wr c v).objs.set o { ob with cnt := max ob.cnt i.toNat } } :=
              .cnt (s := s.wr c v) e
            have : (s.upd o (fun _ => { ob with cnt := max ob.cnt i.toNat })).wr c v =
                { s.wr c v with objs := (s.wr c v).objs.set o { ob with cnt := max ob.cnt i.toNat } } := by
              simp only [St.upd, St.wr, set_self _ e]
            rw [this]
            exact h1.next h2
          · split
            · refine made_ok (.one ?_)
              have : (s.alloc v).upd o (fun _ => { ob with cnt := i.toNat + 1, arr := some (setSlot a i.toNat s.cells.length) }) =
                  { s.alloc v with objs := s.objs.set o { ob with cnt := i.toNat + 1, arr := some (setSlot a i.toNat s.cells.length) } } := by
                have e' : (s.alloc v).objs[o]? = some ob := e
                simp only [St.upd, set_self _ e']; rfl
              rw [this]
              exact .slot e ha h
            · refine made_ok (.one ?_)
              have : (s.alloc v).upd o (fun _ => { ob with cnt := max ob.cnt i.toNat, arr := some (setSlot a i.toNat s.cells.length) }) =
                  { s.alloc v with objs := s.objs.set o { ob with cnt := max ob.cnt i.toNat, arr := some (setSlot a i.toNat s.cells.length) } } := by
                have e' : (s.alloc v).objs[o]? = some ob := e
                simp only [St.upd, set_self _ e']; rfl
              rw [this]
              exact .slot e ha h
      · exact made_putName h
    · exact made_putName h

theorem made_incCell {c} : Made E .usual s (incCell E s c) := by
  rw [incCell]
  split
  · exact made_err
  · next hf =>
    have hf : (s.at c).frozen = false := by simpa using hf
    split
    · exact made_err' (.one (.incr hf))
    · exact made_ok (.one (.incr hf))

theorem made_inc {o k} : Made E .usual s (inc E s o k) := by
  rw [inc]
  split
  · exact made_incCell
  · exact made_crash
  · exact made_err

theorem made_read {x o k} : Made E .usual s (gotten s x (read E s o k)) := by
  have hsub : ∀ v, subscript2 E s o k = some v → Src E s v := by
    intro v hv
    cases k with
    | n i => cases hv
    | s b =>
      rw [subscript2] at hv
      split at hv
      · split at hv
        · cases hv; exact Or.inr (Or.inl ⟨rfl, rfl⟩)
        · cases hv
      · split at hv
        · exact Or.inr (Or.inr (Or.inr ⟨_, _, hv⟩))
        · cases hv
  have hmiss : ∀ v, missing s o k = .val v → Src E s v := by
    intro v hv
    rw [missing] at hv
    split at hv
    · split at hv
      · cases hv
      · cases hv; exact src_undef
    · cases hv; exact src_undef
  have : ∀ v, read E s o k = .val v → Src E s v := by
    intro v hv
    rw [read] at hv
    split at hv
    · cases hv; exact Or.inl ⟨_, rfl⟩
    · cases hv
    · split at hv
      · next w hw => cases hv; exact hsub v hw
      · exact hmiss v hv
  cases e : read E s o k with
  | val v => exact made_setVar (this v e)
  | err => exact made_err
  | crash => exact made_crash

theorem made_del {o k} : Made E .del s (del s o k) := by
  rw [del]
  cases e : s.objs[o]? with
  | none => exact made_err
  | some ob =>
    simp only
    split
    · exact made_err
    · next hf =>
      refine made_ok (.one ?_)
      rw [St.upd, set_self _ e]
      exact .del e (by simpa using hf)

theorem made_litPairs : ∀ (ps : List (Bytes × FV)) {s : St} (_ : ∀ p ∈ ps, ∀ s' : St, s.cells <+: s'.cells → s.objs.length ≤ s'.objs.length → Src E s' p.2) (o : Nat),
    Reach E .usual s (litPairs s o ps)
  | [], s, _, o => .refl
  | (k, v) :: ps, s, h, o => by
    have h0 : Src E s v := h (k, v) List.mem_cons_self s (List.prefix_refl _) (Nat.le_refl _)
    have hrest : ∀ s1 : St, s.cells <+: s1.cells → s.objs.length ≤ s1.objs.length →
        ∀ p ∈ ps, ∀ s' : St, s1.cells <+: s'.cells → s1.objs.length ≤ s'.objs.length → Src E s' p.2 :=
      fun s1 hc hl p hp s' hc' hl' => h p (List.mem_cons_of_mem _ hp) s' (hc.trans hc') (Nat.le_trans hl hl')
    rw [litPairs]
    split
    · next s' e =>
      have hs' : s.cells <+: s'.cells ∧ s.objs.length ≤ s'.objs.length := by
        rw [insert] at e
        split at e
        · cases e
        · split at e
          · cases e
          · cases e
            refine ⟨?_, by simp [St.alloc]⟩
            simp only [Bool.false_eq_true, if_false]
            exact ⟨[v], rfl⟩
      exact (Reach.one (.ins e h0)).trans (made_litPairs ps (hrest s' hs'.1 hs'.2) o)
    · exact (Reach.one (.alloc h0)).trans (made_litPairs ps (hrest (s.alloc v) ⟨[v], rfl⟩ (Nat.le_refl _)) o)

theorem insert_same {s s' : St} {o k c} (h : insert s o k c false = some s') :
    ∃ ob, s.objs[o]? = some ob ∧ s' = { s with objs := s.objs.set o { ob with tree := treeSet k c false ob.tree } } ∧
      ¬ (ob.freeze = true ∧ (ob.noMod = true ∨ treeGet ob.tree k = none)) := by
  rw [insert] at h
  split at h
  · cases h
  · next ob e =>
    split at h
    · cases h
    · next hn =>
      refine ⟨ob, e, ?_, ?_⟩
      · cases h; rfl
      · simpa using hn

theorem copyTree_fst : ∀ (l : List Ent) {s : St} {q s'}, (copyTree s q l).1 = some s' → s' = (copyTree s q l).2
  | [], s, q, s', h => by cases h; rfl
  | e :: l, s, q, s', h => by
    rw [copyTree] at h ⊢
    split at h
    · next hd => rw [if_pos hd]; exact copyTree_fst l h
    · next hd =>
      rw [if_neg hd]
      split at h
      · exact copyTree_fst l h
      · cases h

/-- What an insertion keeps, a copy of all properties keeps. -/
theorem copyTree_keeps {J : St → Prop} {P : Bytes → Nat → Prop} {q : Nat}
    (hJ : ∀ s k c s', J s → P k c → insert s q k c false = some s' → J s') :
    ∀ (l : List Ent) {s : St}, (∀ e ∈ l, P e.key e.cell) → J s → J (copyTree s q l).2
  | [], s, _, h => h
  | e :: l, s, hl, h => by
    rw [copyTree]
    split
    · exact copyTree_keeps hJ l (fun d hd => hl d (List.mem_cons_of_mem _ hd)) h
    · split
      · next s1 e1 =>
        exact copyTree_keeps hJ l (fun d hd => hl d (List.mem_cons_of_mem _ hd)) (hJ _ _ _ _ h (hl e List.mem_cons_self) e1)
      · exact h

theorem made_assignAll (q : Nat) : ∀ (vs : List Val) {s : St}, Made E .usual s (assignAll s q vs)
  | [], s => made_ok .refl
  | .obj p :: r, s => by
    rw [assignAll]
    split
    · exact made_err
    · next pb e =>
      have h1 : Reach E .usual s (copyTree s q pb.tree).2 := .one (.share e)
      split
      · next s' w e' =>
        have : s' = (copyTree s q pb.tree).2 := copyTree_fst _ (by rw [e'])
        rw [← this] at h1
        exact (made_assignAll q r).after h1
      · next s' e' => rw [e'] at h1; exact made_err' h1
  | .undef :: _, s => made_err
  | .null :: _, s => made_err
  | .bool _ :: _, s => made_err
  | .num _ :: _, s => made_err
  | .str _ :: _, s => made_err

theorem insert_len {s s' : St} {o k c} (h : insert s o k c false = some s') : s'.objs.length = s.objs.length := by
  obtain ⟨ob, _, e, _⟩ := insert_same h
  rw [e]; simp

theorem copyTree_len {s : St} {q} (l : List Ent) : (copyTree s q l).2.objs.length = s.objs.length :=
  copyTree_keeps (J := fun s' => s'.objs.length = s.objs.length) (P := fun _ _ => True)
    (fun _ _ _ _ h _ e => by rw [insert_len e]; exact h) l (fun _ _ => trivial) rfl

theorem assignAll_len (q : Nat) : ∀ (vs : List Val) {s s' : St}, assignAll s q vs = .ok s' → s'.objs.length = s.objs.length
  | [], s, s', h => by cases h; rfl
  | .obj p :: r, s, s', h => by
    rw [assignAll] at h
    split at h
    · cases h
    · next pb e =>
      split at h
      · next s1 w e' =>
        have h1 : s1 = (copyTree s q pb.tree).2 := copyTree_fst _ (by rw [e'])
        rw [assignAll_len q r h, h1, copyTree_len]
      · cases h
  | .undef :: _, s, s', h => by cases h
  | .null :: _, s, s', h => by cases h
  | .bool _ :: _, s, s', h => by cases h
  | .num _ :: _, s, s', h => by cases h
  | .str _ :: _, s, s', h => by cases h

theorem made_build {x p} (hp : p < s.objs.length) (vs : List Val) :
    Made E .usual s (bind (assignAll (newObj s { proto := some p }) s.objs.length vs) x s.objs.length) := by
  have h0 : Reach E .usual s (newObj s { proto := some p }) := .one (.newPlain hp)
  have h1 := (made_assignAll (E := E) s.objs.length vs (s := newObj s { proto := some p })).after h0
  cases e : assignAll (newObj s { proto := some p }) s.objs.length vs with
  | crash => exact made_crash
  | err s' => rw [e] at h1; exact h1
  | ok s' =>
    rw [e] at h1
    have hl := assignAll_len _ _ e
    refine (made_setVar ?_).after (h1 s' rfl)
    exact Or.inr (Or.inr (Or.inl ⟨_, by rw [hl]; simp [newObj], rfl⟩))

/-- Objects in values exist, and there are the two first objects. -/
structure Refs (s : St) : Prop where
  ref : ∀ c p, s.val c = .obj p → p < s.objs.length
  two : 2 ≤ s.objs.length

/-- Special properties hold existing objects. -/
def SpecialOk (E : Env) : Prop := ∀ s o k v p, E.special s o k = some v → v.val = .obj p → p < s.objs.length

theorem Refs.var {s : St} (h : Refs s) {x p} (e : (s.var x).val = .obj p) : p < s.objs.length := by
  rw [St.var] at e
  split at e
  · exact h.ref _ _ e
  · cases e

theorem litPairs_len : ∀ (ps : List (Bytes × FV)) {s : St} (o : Nat), (litPairs s o ps).objs.length = s.objs.length
  | [], s, o => rfl
  | (k, v) :: ps, s, o => by
    rw [litPairs]
    split
    · next s' e => rw [litPairs_len ps o, insert_len e]; rfl
    · rw [litPairs_len ps o]; rfl

/-- Every step is made of small changes of its kind. -/
theorem made_step (h : Refs s) (op : Op) : Made E op.kind s (step E s op) := by
  cases op with
  | lit x v =>
    rw [step]
    split
    · next e => exact made_setVar (Or.inr (Or.inl ⟨e, rfl⟩))
    · exact made_err
  | copy x y => exact made_setVar (src_var y)
  | incVar x =>
    rw [step]
    split
    · exact made_incCell
    · exact made_err
  | mk x ps =>
    have h0 : Reach E .usual s (newObj s { proto := some objProto }) :=
      .one (.newPlain (show 0 < _ by have := h.two; omega))
    have h1 := made_litPairs (E := E) (ps.map fun p => (p.1, s.var p.2)) (s := newObj s { proto := some objProto })
      (by
        intro p hp s' hc _
        obtain ⟨q, _, e⟩ := List.mem_map.1 hp
        subst e
        show Src E s' (s.var q.2)
        rw [St.var]
        split
        · next c _ =>
          by_cases hcl : c < s.cells.length
          · left
            refine ⟨c, ?_⟩
            obtain ⟨r, hr⟩ := hc
            simp only [St.at, ← hr]
            have : (s.cells ++ r)[c]? = s.cells[c]? := List.getElem?_append_left hcl
            show _ = ((s.cells ++ r)[c]?).getD _
            rw [this]
          · rw [St.at, List.getElem?_eq_none (by omega)]; exact src_undef
        · exact src_undef) s.objs.length
    refine (made_setVar ?_).after (h0.trans h1)
    refine Or.inr (Or.inr (Or.inl ⟨_, ?_, rfl⟩))
    show s.objs.length < (litPairs _ _ _).objs.length
    rw [litPairs_len]; simp [newObj]
  | mkArr x ys =>
    have h0 : Reach E .usual s (arrayLit s (ys.map s.var)) :=
      .one (.newArr fun v hv => by obtain ⟨y, _, e⟩ := List.mem_map.1 hv; subst e; exact src_var y)
    refine (made_setVar ?_).after h0
    exact Or.inr (Or.inr (Or.inl ⟨_, by simp [arrayLit, newObj], rfl⟩))
  | get x o k => exact made_withObj fun q _ => made_read
  | put o k y => exact made_withObj fun q _ => made_put (src_var y)
  | inc o k => exact made_withObj fun q _ => made_inc
  | del o k => exact made_withObj fun q _ => made_del
  | create x p props =>
    show Made E .usual s (create s x (s.var p).val _)
    rw [create]
    split
    · exact made_err
    · next q e =>
      apply made_build
      cases e' : (s.var p).val with
      | obj r => rw [e'] at e; cases e; exact h.var e'
      | null => rw [e'] at e; cases e; show 0 < _; have := h.two; omega
      | undef => rw [e'] at e; cases e
      | bool _ => rw [e'] at e; cases e
      | num _ => rw [e'] at e; cases e
      | str _ => rw [e'] at e; cases e
  | assign o ys =>
    show Made E .usual s (assign s (s.var o).val _)
    cases (s.var o).val with
    | obj q =>
      rw [assign]
      split
      · exact made_assignAll _ _
      · exact made_err
    | undef => exact made_err
    | null => exact made_err
    | bool _ => exact made_err
    | num _ => exact made_err
    | str _ => exact made_err
  | merge x a b =>
    show Made E .usual s (merge s x (s.var a).val (s.var b).val)
    unfold merge
    split
    · exact made_build (show 0 < _ by have := h.two; omega) _
    · exact made_err
  | freeze o f m r =>
    refine made_withObj fun q _ => ?_
    show Made E (.freeze f m) s (freeze s q f m r)
    rw [freeze]
    split
    · exact made_err
    · next ob e => exact made_ok (.one (.freeze e))
  | setProto o p =>
    refine made_withObj fun q _ => made_withObj fun p _ => ?_
    show Made E .setProto s (setProto s q p)
    rw [setProto]
    split
    · next ob pb e _ =>
      split <;> · refine made_ok (.one ?_); rw [St.upd, set_self _ e]; exact .setProto e
    · exact made_err
  | values x o =>
    refine made_withObj fun q _ => ?_
    show Made E .values s (values s x q)
    rw [values]
    split
    · exact made_err
    · next ob e =>
      have h1 := Reach.one (Atom.values (E := E) e)
      refine Made.after h1 ?_
      have hl : s.objs.length < (newObj s (valuesOb ob)).objs.length := by simp [newObj]
      revert hl
      generalize newObj s (valuesOb ob) = s1
      intro hl
      rw [bind, setVar]
      split
      · next c e' => exact made_ok (.one (.setvO e' hl))
      · exact made_err
  | filter x a sel =>
    refine made_withObj fun q _ => ?_
    show Made E .usual s (filterArr s x q sel)
    rw [filterArr]
    split
    · exact made_err
    · next ob e =>
      split
      · have h1 := Reach.one (Atom.newFilter (E := E) (cs := (List.range ob.cnt).filterMap (fun i => if sel i then ((ob.arr.getD [])[i]?).getD none else none)) e (by
          intro c hc
          obtain ⟨i, _, hi⟩ := List.mem_filterMap.1 hc
          split at hi
          · exact ⟨i, hi⟩
          · cases hi))
        refine Made.after h1 (made_setVar ?_)
        exact Or.inr (Or.inr (Or.inl ⟨_, by simp [newObj], rfl⟩))
      · exact made_err
  | call ys =>
    exact made_ok (.one (.call fun v hv => by obtain ⟨y, _, e⟩ := List.mem_map.1 hv; subst e; exact src_var y))
  | each a i =>
    refine made_withObj fun q _ => ?_
    show Made E .each s (each s q i)
    rw [each]
    split
    · exact made_err
    · next ob ho =>
      split
      · split
        · next c hc => exact made_ok (.one (.each ho hc))
        · exact made_err
      · exact made_err
  | apply a ps =>
    refine made_withObj fun q _ => ?_
    show Made E .apply s (apply s q ps)
    cases e : apply s q ps with
    | ok s' => exact made_ok (.one (.applied e))
    | crash => exact made_crash
    | err s' =>
      rw [apply] at e
      split at e
      · cases e; exact made_err
      · split at e
        · cases e
        · cases e; exact made_err
  | ret =>
    show Made E .usual s (ret s)
    rw [ret]
    split
    · next v r e => exact made_ok (.one (.ret e))
    · exact made_err

end Verif.Obj
