import Verif.Obj.Keys

/-! C79: what the variable of a loop holds when the body begins. -/

namespace Verif.Obj

variable {E : Env}

/-- Variables have values. -/
def VarsIn (s : St) : Prop :=
  (∀ c ∈ s.vars, c < s.cells.length) ∧ ∀ w ∈ s.saved, ∀ c ∈ w, c < s.cells.length

theorem VarsIn.same {s s' : St} (h : VarsIn s) (h1 : s'.vars = s.vars) (h2 : s'.saved = s.saved) (h3 : s.cells.length ≤ s'.cells.length) :
    VarsIn s' :=
  ⟨fun c hc => Nat.lt_of_lt_of_le (h.1 c (h1 ▸ hc)) h3, fun w hw c hc => Nat.lt_of_lt_of_le (h.2 w (h2 ▸ hw) c hc) h3⟩

theorem insert_vars {s s' : St} {o k c hid} (e : insert s o k c hid = some s') :
    s'.vars = s.vars ∧ s'.saved = s.saved ∧ s.cells.length ≤ s'.cells.length := by
  rw [insert] at e
  split at e
  · cases e
  · split at e
    · cases e
    · cases e
      refine ⟨rfl, rfl, ?_⟩
      simp only
      split <;> simp

theorem setFrozen_len (b : Bool) : ∀ (cs : List Nat) (l : List FV), (setFrozen b cs l).length = l.length
  | [], l => rfl
  | c :: cs, l => by
    have := setFrozen_len b cs (l.modify c (fun v => { v with frozen := b }))
    simpa [setFrozen] using this

theorem varsIn_atom {k : Kind} {s s' : St} (h1 : k ≠ .each) (h2 : k ≠ .apply) (h : VarsIn s) (a : Atom E k s s') : VarsIn s' := by
  cases a with
  | setv _ _ => exact h.same rfl rfl (by simp [St.wr])
  | incr _ => exact h.same rfl rfl (by simp [St.wr])
  | elem _ _ _ _ => exact h.same rfl rfl (by simp [St.wr])
  | cnt _ => exact h.same rfl rfl (Nat.le_refl _)
  | slot _ _ _ => exact h.same rfl rfl (by simp [St.alloc])
  | alloc _ => exact h.same rfl rfl (by simp [St.alloc])
  | ins e _ =>
    obtain ⟨a1, a2, a3⟩ := insert_vars e
    exact h.same a1 a2 (Nat.le_trans (by simp [St.alloc]) a3)
  | share _ =>
    exact copyTree_keeps (J := VarsIn) (P := fun _ _ => True)
      (fun s1 k c s2 h _ e => by obtain ⟨a1, a2, a3⟩ := insert_vars e; exact h.same a1 a2 a3) _ (fun _ _ => trivial) h
  | del _ _ => exact h.same rfl rfl (Nat.le_refl _)
  | newPlain _ => exact h.same rfl rfl (Nat.le_refl _)
  | newArr _ => exact h.same rfl rfl (by simp [arrayLit, newObj])
  | newFilter _ _ => exact h.same rfl rfl (Nat.le_refl _)
  | @call _ vs _ =>
    have hl : (call s vs).cells.length = s.cells.length + vs.length := by simp [call]
    refine ⟨fun c hc => ?_, fun w hw c hc => ?_⟩
    · rw [hl]
      rcases List.mem_append.1 (show c ∈ (List.range vs.length).map (s.cells.length + ·) ++ s.vars from hc) with h' | h'
      · obtain ⟨i, hi, e⟩ := List.mem_map.1 h'
        have := List.mem_range.1 hi
        omega
      · have := h.1 c h'; omega
    · rw [hl]
      rcases List.mem_cons.1 (show w ∈ s.vars :: s.saved from hw) with h' | h'
      · subst h'; have := h.1 c hc; omega
      · have := h.2 w h' c hc; omega
  | @ret _ v r e =>
    exact ⟨fun c hc => h.2 v (by rw [e]; exact List.mem_cons_self) c hc, fun w hw c hc => h.2 w (by rw [e]; exact List.mem_cons_of_mem _ hw) c hc⟩
  | values _ => exact h.same rfl rfl (Nat.le_refl _)
  | setvO _ _ => exact h.same rfl rfl (by simp [St.wr])
  | each _ _ => exact absurd rfl h1
  | applied _ => exact absurd rfl h2
  | setProto _ => exact h.same rfl rfl (Nat.le_refl _)
  | freeze _ =>
    refine h.same rfl rfl ?_
    simp only
    split
    · rw [setFrozen_len]; exact Nat.le_refl _
    · exact Nat.le_refl _

/-- No callbacks of array methods and no `apply`. -/
def noAlias (h : List Op) : Prop := ∀ op ∈ h, op.kind ≠ .each ∧ op.kind ≠ .apply

theorem run_varsIn (hE : SpecialOk E) {h : List Op} {s s' : St} {bs} (hp : noAlias h) (hr : Refs s) (hv : VarsIn s)
    (e : run E s h = some (s', bs)) : Refs s' ∧ VarsIn s' :=
  run_keeps hE (I := VarsIn) (P := fun op => op.kind ≠ .each ∧ op.kind ≠ .apply)
    (fun _ hop _ _ _ hi a => varsIn_atom hop.1 hop.2 hi a) h hp hr hv s' bs e

theorem start_varsIn (n) : VarsIn (start n) := by
  refine ⟨fun c hc => ?_, fun w hw => by cases hw⟩
  simp only [start, List.mem_map, List.mem_range, List.length_replicate] at hc ⊢
  obtain ⟨a, h1, h2⟩ := hc
  omega

theorem setVar_holds {s s1 : St} {x v} (hv : VarsIn s) (e : setVar s x v = .ok s1) :
    s1.var x = v ∧ s1.objs = s.objs ∧ ∀ c, s1.at c = s.at c ∨ s1.at c = v := by
  rw [setVar] at e
  split at e
  · next c hc =>
    cases e
    have hl := hv.1 c (List.mem_of_getElem? hc)
    refine ⟨?_, rfl, fun d => ?_⟩
    · rw [St.var, show (s.wr c v).vars = s.vars from rfl, hc]
      simp [St.at, St.wr, List.getElem?_set, hl]
    · simp only [St.at, St.wr, List.getElem?_set]
      by_cases hd : c = d
      · subst hd; right; simp [hl]
      · left; simp [hd]
  · cases e

/-- `x` holds the position of an element of the array `o`, or, for `of`, the element. -/
def HoldsElem (s : St) (o x : Nat) (isof : Bool) : Prop :=
  ∃ ob i c, s.objs[o]? = some ob ∧ ob.elem i = some c ∧ s.var x = if isof then s.at c else ⟨.num (some i), false, false⟩

/-- `x` holds one of the names `ks`, and `o` has that property. -/
def HoldsName (s : St) (o x : Nat) (ks : List Bytes) : Prop :=
  ∃ k ∈ ks, s.var x = ⟨.str k, false, false⟩ ∧ present s k (s.objs.length + 1) o = some true

theorem present_objs {s s' : St} (h : s'.objs = s.objs) (k) : ∀ fuel o, present s' k fuel o = present s k fuel o
  | 0, _ => rfl
  | fuel + 1, o => by
    rw [present, present, h]
    cases s.objs[o]? with
    | none => rfl
    | some ob =>
      simp only
      split
      · rfl
      · cases ob.proto with
        | none => rfl
        | some p => exact present_objs h k fuel p

theorem setVar_refs {s s1 : St} {x v} (hr : Refs s) (hv : VarsIn s) (hp : ∀ p, v.val = .obj p → p < s.objs.length)
    (e : setVar s x v = .ok s1) : Refs s1 ∧ VarsIn s1 := by
  rw [setVar] at e
  split at e
  · cases e
    exact ⟨hr.wr hp, hv.same rfl rfl (by simp [St.wr])⟩
  · cases e

/-- C79: when the body of `for (x in o)` begins, `x` holds a name, and `o` has that property.  Stated so: bodies that do
the same in these states make the same loop. -/
theorem forNames_holds (hE : SpecialOk E) (x o : Nat) (body body' : St → List Op) (all : List Bytes)
    (hb : ∀ s, noAlias (body s)) (hbb : ∀ s, HoldsName s o x all → body s = body' s) :
    ∀ (ks : List Bytes) (s : St) (vis : List Bytes), (∀ k ∈ ks, k ∈ all) → Refs s → VarsIn s →
      forNames E x o body ks s vis = forNames E x o body' ks s vis
  | [], s, vis, _, _, _ => rfl
  | k :: r, s, vis, hk, hr, hv => by
    have hk' : ∀ k ∈ r, k ∈ all := fun k h => hk k (List.mem_cons_of_mem _ h)
    rw [forNames, forNames]
    cases hp : present s k (s.objs.length + 1) o with
    | none => rfl
    | some b =>
      cases b with
      | false => exact forNames_holds hE x o body body' all hb hbb r s vis hk' hr hv
      | true =>
        simp only
        rw [turn, turn]
        cases e : setVar s x ⟨.str k, false, false⟩ with
        | crash => rfl
        | err s1 => rfl
        | ok s1 =>
          simp only
          obtain ⟨a1, a2, _⟩ := setVar_holds hv e
          obtain ⟨r1, v1⟩ := setVar_refs hr hv (fun p h => by cases h) e
          have := hbb s1 ⟨k, hk k List.mem_cons_self, a1, by rw [present_objs a2, a2]; exact hp⟩
          rw [← this]
          cases er : run E s1 (body s1) with
          | none => rfl
          | some p =>
            obtain ⟨r2, v2⟩ := run_varsIn hE (hb s1) r1 v1 er
            exact forNames_holds hE x o body body' all hb hbb r p.1 _ hk' r2 v2

/-- C79, see `forNames_holds`. -/
theorem C79_variable_name_partial (hE : SpecialOk E) (n : Nat) (h : List Op) {s : St} {bs : List Bool}
    (hr : run E (start n) h = some (s, bs)) (hh : noAlias h) (o x : Nat) (body body' : St → List Op) (hb : ∀ s, noAlias (body s))
    {ks : List Bytes} (hbb : ∀ s, HoldsName s o x ks → body s = body' s) :
    forNames E x o body ks s [] = forNames E x o body' ks s [] := by
  obtain ⟨r, v⟩ := run_varsIn hE hh (start_refs n) (start_varsIn n) hr
  exact forNames_holds hE x o body body' ks hb hbb ks s [] (fun _ h => h) r v

theorem find_mem {α} {p : α → Bool} {l : List α} {i} (h : l.find? p = some i) : i ∈ l := List.mem_of_find?_eq_some h

theorem forElems_holds (hE : SpecialOk E) (x o : Nat) (isof : Bool) (body body' : St → List Op)
    (hb : ∀ s, noAlias (body s)) (hbb : ∀ s, HoldsElem s o x isof → body s = body' s) :
    ∀ (n cur : Nat) (s : St) (vis : List Nat), Refs s → VarsIn s →
      forElems E x o isof body n cur s vis = forElems E x o isof body' n cur s vis
  | 0, cur, s, vis, _, _ => rfl
  | n + 1, cur, s, vis, hr, hv => by
    rw [forElems, forElems]
    cases ho : s.objs[o]? with
    | none => rfl
    | some ob =>
      simp only
      cases hn : nextElem ob cur with
      | none => rfl
      | some i =>
        simp only
        have hi := (indices_mem ob i).1 (find_mem hn)
        obtain ⟨c, hc⟩ := Option.isSome_iff_exists.1 hi
        have hc' : ((ob.arr.getD [])[i]?).getD none = some c := by
          rw [Ob.elem] at hc
          split at hc
          · exact hc
          · cases hc
        have hval : elemVal s ob isof i = if isof then s.at c else ⟨.num (some i), false, false⟩ := by
          rw [elemVal, hc']
        rw [turn, turn]
        cases e : setVar s x (elemVal s ob isof i) with
        | crash => rfl
        | err s1 => rfl
        | ok s1 =>
          simp only
          obtain ⟨a1, a2, a3⟩ := setVar_holds hv e
          have hp : ∀ p, (elemVal s ob isof i).val = .obj p → p < s.objs.length := by
            intro p h
            rw [hval] at h
            split at h
            · exact hr.ref c p h
            · cases h
          obtain ⟨r1, v1⟩ := setVar_refs hr hv hp e
          have hH : HoldsElem s1 o x isof := by
            refine ⟨ob, i, c, by rw [a2]; exact ho, hc, ?_⟩
            rw [a1, hval]
            cases isof with
            | false => rfl
            | true =>
              simp only [if_true]
              rcases a3 c with h | h
              · exact h.symm
              · rw [h, hval]; simp
          rw [← hbb s1 hH]
          cases er : run E s1 (body s1) with
          | none => rfl
          | some p =>
            obtain ⟨r2, v2⟩ := run_varsIn hE (hb s1) r1 v1 er
            exact forElems_holds hE x o isof body body' hb hbb n _ p.1 _ r2 v2

/-- C79: when the body of `for (x in a)` begins, `x` holds the position of an element; in `for (x of a)`, an element of the
array as it is then.  Stated so: bodies that do the same in these states make the same loop. -/
theorem C79_variable_element_partial (hE : SpecialOk E) (n : Nat) (h : List Op) {s : St} {bs : List Bool}
    (hr : run E (start n) h = some (s, bs)) (hh : noAlias h) (o x : Nat) (isof : Bool) (body body' : St → List Op)
    (hb : ∀ s, noAlias (body s)) (hbb : ∀ s, HoldsElem s o x isof → body s = body' s) (turns : Nat) :
    forElems E x o isof body turns 0 s [] = forElems E x o isof body' turns 0 s [] := by
  obtain ⟨r, v⟩ := run_varsIn hE hh (start_refs n) (start_varsIn n) hr
  exact forElems_holds hE x o isof body body' hb hbb turns 0 s [] r v

end Verif.Obj
