import Verif.Obj.Atoms

/-! Objects exist, prototypes are older than the objects they are prototypes of. -/

namespace Verif.Obj

variable {E : Env} {s : St}

theorem insert_form {s s' : St} {o k c hid} (h : insert s o k c hid = some s') :
    ∃ ob, s.objs[o]? = some ob ∧ s' = { s with
      objs := s.objs.set o { ob with tree := treeSet k c hid ob.tree },
      cells := if hid then s.cells.modify c (fun v => { v with dontenum := true }) else s.cells } ∧
      ¬ (ob.freeze = true ∧ (ob.noMod = true ∨ treeGet ob.tree k = none)) := by
  rw [insert] at h
  split at h
  · cases h
  · next ob e =>
    split at h
    · cases h
    · next hn => exact ⟨ob, e, by cases h; rfl, by simpa using hn⟩

/-- What insertions and new values keep, the binding of parameters keeps. -/
theorem bindParams_keeps {J : St → Prop} {o : Nat} (h1 : ∀ s k c s', J s → insert s o k c true = some s' → J s')
    (h2 : ∀ s, J s → J (s.alloc ⟨.undef, false, false⟩)) (a : List (Option Nat)) (cnt : Nat) :
    ∀ (ps : List Bytes) (i : Nat) (vs : List Nat) {s : St}, J s → J (bindParams s o a cnt i ps vs).1
  | [], i, vs, s, h => h
  | nm :: r, i, vs, s, h => by
    rw [bindParams]
    split
    · next c _ =>
      apply bindParams_keeps h1 h2 a cnt r
      cases e : insert s o nm c true with
      | none => exact h
      | some s' => exact h1 _ _ _ _ h e
    · apply bindParams_keeps h1 h2 a cnt r
      cases e : insert (s.alloc ⟨.undef, false, false⟩) o nm s.cells.length true with
      | none => exact h2 _ h
      | some s' => exact h1 _ _ _ _ (h2 _ h) e

theorem val_modify (s : St) (c : Nat) (f : FV → FV) (hf : ∀ v, (f v).val = v.val) (d) :
    ({ s with cells := s.cells.modify c f } : St).val d = s.val d := by
  simp only [St.val, St.at, List.getElem?_modify]
  cases s.cells[d]? with
  | none => rfl
  | some v => by_cases e : c = d <;> simp [e, hf]

theorem val_setFrozen (b : Bool) : ∀ (cs : List Nat) (l : List FV) (d : Nat),
    ((setFrozen b cs l)[d]?).map FV.val = (l[d]?).map FV.val
  | [], l, d => rfl
  | c :: cs, l, d => by
    rw [setFrozen, List.foldl_cons, ← setFrozen, val_setFrozen b cs, List.getElem?_modify]
    cases l[d]? with
    | none => rfl
    | some v => by_cases e : c = d <;> simp [e]

theorem val_of_map {s s' : St} {d : Nat} (h : (s'.cells[d]?).map FV.val = (s.cells[d]?).map FV.val) : s'.val d = s.val d := by
  simp only [St.val, St.at]
  cases e : s.cells[d]? with
  | none => rw [e] at h; cases e' : s'.cells[d]? with
    | none => rfl
    | some v => rw [e'] at h; cases h
  | some v => rw [e] at h; cases e' : s'.cells[d]? with
    | none => rw [e'] at h; cases h
    | some w => rw [e'] at h; simpa using h

theorem val_wr (s : St) (c : Nat) (v : FV) (d) : (s.wr c v).val d = s.val d ∨ (s.wr c v).val d = v.val := by
  simp only [St.val, St.at, St.wr, List.getElem?_set]
  by_cases e : c = d
  · subst e
    by_cases hc : c < s.cells.length
    · right; simp [hc]
    · left; simp [hc]
  · left; simp [e]

theorem val_app (s : St) (vs : List FV) (d) : ({ s with cells := s.cells ++ vs } : St).val d = s.val d ∨
    ∃ v ∈ vs, ({ s with cells := s.cells ++ vs } : St).val d = v.val := by
  rcases at_app s vs d with h | h
  · left; rw [St.val, h]; rfl
  · right; exact ⟨_, h, rfl⟩

theorem Refs.of {s s' : St} (h : Refs s) (hl : s.objs.length ≤ s'.objs.length)
    (hc : ∀ c, s'.val c = s.val c ∨ ∀ p, s'.val c = .obj p → p < s'.objs.length) : Refs s' := by
  refine ⟨?_, Nat.le_trans h.two hl⟩
  intro c p e
  rcases hc c with e' | e'
  · exact Nat.lt_of_lt_of_le (h.ref c p (by rw [← e']; exact e)) hl
  · exact e' p e

theorem Refs.src (hE : SpecialOk E) (h : Refs s) {v} (hv : Src E s v) {p} (e : v.val = .obj p) : p < s.objs.length := by
  rcases hv with ⟨c, hc⟩ | ⟨hp, _⟩ | ⟨o, ho, hv⟩ | ⟨o, k, hs⟩
  · rw [hc] at e; exact h.ref c p e
  · rw [e] at hp; cases hp
  · rw [hv] at e; cases e; exact ho
  · exact hE s o k v p hs e

theorem Refs.wr (h : Refs s) {c v} (hv : ∀ p, v.val = .obj p → p < s.objs.length) : Refs (s.wr c v) :=
  h.of (Nat.le_refl _) fun d => (val_wr s c v d).imp id fun e p e' => hv p (by rw [← e]; exact e')

theorem Refs.app (h : Refs s) {vs : List FV} (hv : ∀ v ∈ vs, ∀ p, v.val = .obj p → p < s.objs.length) :
    Refs { s with cells := s.cells ++ vs } :=
  h.of (Nat.le_refl _) fun d => (val_app s vs d).imp id fun ⟨v, hm, e⟩ p e' => hv v hm p (by rw [← e]; exact e')

theorem Refs.objs (h : Refs s) {l : List Ob} (hl : s.objs.length ≤ l.length) : Refs { s with objs := l } :=
  h.of hl fun _ => Or.inl rfl

theorem Refs.insert {s s' : St} (h : Refs s) {o k c hid} (e : insert s o k c hid = some s') : Refs s' := by
  obtain ⟨ob, _, e', _⟩ := insert_form e
  subst e'
  refine h.of (by simp) fun d => Or.inl ?_
  cases hid with
  | false => rfl
  | true => exact val_modify s c (fun v => { v with dontenum := true }) (fun _ => rfl) d

theorem plusOne_prim (v : FV) : ∀ p, (plusOne (numbered E v)).val ≠ .obj p := by
  intro p
  obtain ⟨w, a, b⟩ := v
  cases w with
  | num n => cases n <;> simp [plusOne, numbered]
  | undef => simp [plusOne, numbered]
  | null => simp [plusOne, numbered, toNum]
  | bool _ => simp [plusOne, numbered, toNum]
  | obj _ => simp [plusOne, numbered, toNum]
  | str b => simp only [numbered, toNum]; cases E.strtod b <;> simp [plusOne]

/-- All objects that values name exist. -/
theorem refs_atom (hE : SpecialOk E) {k s s'} (h : Refs s) (a : Atom E k s s') : Refs s' := by
  cases a with
  | setv _ hv => exact h.wr fun p e => h.src hE hv e
  | incr _ => exact h.wr fun p e => absurd e (plusOne_prim _ p)
  | elem _ _ _ hv => exact h.wr fun p e => h.src hE hv e
  | cnt _ => exact h.objs (by simp)
  | slot _ _ hv =>
    exact (h.app (vs := [_]) fun v hm p e => by rw [List.mem_singleton] at hm; subst hm; exact h.src hE hv e).objs (by simp)
  | alloc hv => exact h.app (vs := [_]) fun v hm p e => by rw [List.mem_singleton] at hm; subst hm; exact h.src hE hv e
  | ins e hv =>
    exact (h.app (vs := [_]) fun v hm p e' => by rw [List.mem_singleton] at hm; subst hm; exact h.src hE hv e').insert e
  | share _ =>
    exact copyTree_keeps (J := Refs) (P := fun _ _ => True) (fun s k c s' h _ e => h.insert e) _ (fun _ _ => trivial) h
  | del _ _ => exact h.objs (by simp)
  | newPlain _ => exact h.objs (by simp)
  | newArr hv => exact (h.app fun v hm p e => h.src hE (hv v hm) e).objs (by simp)
  | newFilter _ _ => exact h.objs (by simp)
  | @call _ vs hv =>
    refine h.of (Nat.le_refl _) fun d => ?_
    have := val_app s ((List.map (fun v : FV => { v with dontenum := true }) vs)) d
    refine this.imp id ?_
    rintro ⟨v, hm, e⟩ p e'
    obtain ⟨w, hw, ew⟩ := List.mem_map.1 hm
    subst ew
    exact h.src hE (hv w hw) (e.symm.trans e')
  | ret _ => exact h.of (Nat.le_refl _) fun _ => Or.inl rfl
  | values _ => exact h.objs (by simp)
  | setvO _ ho => exact h.wr fun p e => by cases e; exact ho
  | each _ _ => exact h.of (Nat.le_refl _) fun d => Or.inl (val_modify s _ (fun v => { v with dontenum := true }) (fun _ => rfl) d)
  | @applied _ o ps _ e =>
    rw [apply] at e
    split at e
    · cases e
    · next ob _ =>
      split at e
      · cases e
        have := bindParams_keeps (o := o) (J := Refs) (fun s k c s' h e => h.insert e)
          (fun s h => h.app (vs := [_]) fun v hm p e => by rw [List.mem_singleton] at hm; subst hm; cases e) (ob.arr.getD []) ob.cnt
        exact (this _ 0 [] h).of (Nat.le_refl _) fun _ => Or.inl rfl
      · cases e
  | setProto _ => exact h.objs (by simp)
  | freeze _ =>
    refine h.of (by simp) fun d => Or.inl ?_
    apply val_of_map
    show (_[d]?).map FV.val = _
    split
    · exact val_setFrozen _ _ _ d
    · rfl

/-- Prototypes are older. -/
def Down (s : St) : Prop := ∀ (o : Nat) ob p, s.objs[o]? = some ob → ob.proto = some p → p < o

theorem Down.set (h : Down s) {o ob ob'} (ho : s.objs[o]? = some ob) (hp : ob'.proto = ob.proto) : Down { s with objs := s.objs.set o ob' } := by
  intro o' b p hb hp'
  have hb' : (s.objs.set o ob')[o']? = some b := hb
  rw [List.getElem?_set] at hb'
  split at hb'
  · next e =>
    subst e
    split at hb'
    · cases hb'; exact h o ob p ho (hp ▸ hp')
    · cases hb'
  · exact h o' b p hb' hp'

theorem Down.push (h : Down s) {ob : Ob} {p} (hp : ob.proto = some p) (hpl : p < s.objs.length) : Down (newObj s ob) := by
  intro o' b q hb hq
  have hb' : (s.objs ++ [ob])[o']? = some b := hb
  rw [List.getElem?_append] at hb'
  split at hb'
  · exact h o' b q hb' hq
  · next hl =>
    cases e : o' - s.objs.length with
    | zero => rw [e] at hb'; simp at hb'; subst hb'; rw [hp] at hq; cases hq; omega
    | succ n => rw [e] at hb'; simp at hb'

theorem Down.same {s s' : St} (h : Down s) (e : s'.objs = s.objs) : Down s' := by
  intro o ob p ho; rw [e] at ho; exact h o ob p ho

theorem Down.insert {s s' : St} (h : Down s) {o k c hid} (e : insert s o k c hid = some s') : Down s' := by
  obtain ⟨ob, ho, e', _⟩ := insert_form e
  subst e'
  exact (h.set (ob' := { ob with tree := treeSet k c hid ob.tree }) ho rfl).same rfl

theorem down_atom {k s s'} (hr : Refs s) (h : Down s) (hk : k ≠ .setProto) (a : Atom E k s s') : Down s' := by
  have h1 : arrProto < s.objs.length := by have := hr.two; simp only [arrProto]; omega
  cases a with
  | setv _ hv => exact h.same rfl
  | incr _ => exact h.same rfl
  | elem _ _ _ hv => exact h.same rfl
  | cnt ho => exact h.set ho rfl
  | @slot _ o ob a n v k ho _ hv =>
    exact (h.set (ob' := { ob with cnt := k, arr := some (setSlot a n s.cells.length) }) ho rfl).same rfl
  | alloc hv => exact h.same rfl
  | ins e hv => exact (h.same (s' := s.alloc _) rfl).insert e
  | share _ => exact copyTree_keeps (J := Down) (P := fun _ _ => True) (fun s k c s' h _ e => h.insert e) _ (fun _ _ => trivial) h
  | del ho _ => exact h.set ho rfl
  | newPlain hp => exact h.push rfl hp
  | newArr hv => exact Down.push (s := { s with cells := s.cells ++ _ }) (h.same rfl) rfl h1
  | newFilter _ _ => exact h.push rfl h1
  | call hv => exact h.same rfl
  | ret _ => exact h.same rfl
  | values _ => exact h.push (ob := valuesOb _) rfl h1
  | setvO _ ho => exact h.same rfl
  | each _ _ => exact h.same rfl
  | @applied _ o ps _ e =>
    rw [apply] at e
    split at e
    · cases e
    · next ob _ =>
      split at e
      · cases e
        have := bindParams_keeps (o := o) (J := Down) (fun s k c s' h e => h.insert e) (fun s h => h.same rfl) (ob.arr.getD []) ob.cnt
        exact (this _ 0 [] h).same rfl
      · cases e
  | setProto _ => exact absurd rfl hk
  | @freeze _ o ob f m r ho => exact (h.set (ob' := { ob with freeze := f, noMod := !m, readChk := r }) ho rfl).same rfl

/-- A property of states that small changes keep holds after every history. -/
theorem run_keeps (hE : SpecialOk E) {I : St → Prop} {P : Op → Prop}
    (hI : ∀ op, P op → ∀ s s', Refs s → I s → Atom E op.kind s s' → I s') :
    ∀ (h : List Op) {s : St}, (∀ op ∈ h, P op) → Refs s → I s → ∀ s' bs, run E s h = some (s', bs) → Refs s' ∧ I s'
  | [], s, _, hr, hs, s', bs, e => by cases e; exact ⟨hr, hs⟩
  | op :: h, s, hP, hr, hs, s', bs, e => by
    have hm := made_step (E := E) hr op
    have key : ∀ s1, Reach E op.kind s s1 → Refs s1 ∧ I s1 := fun s1 h1 =>
      h1.keeps (I := fun s => Refs s ∧ I s) (fun a b hab at' => ⟨refs_atom hE hab.1 at', hI op (hP op List.mem_cons_self) a b hab.1 hab.2 at'⟩) ⟨hr, hs⟩
    rw [run] at e
    cases eo : step E s op with
    | crash => rw [eo] at e; cases e
    | ok s1 =>
      rw [eo] at e hm
      have h1 := key s1 (hm s1 rfl)
      simp only at e
      cases er : run E s1 h with
      | none => rw [er] at e; cases e
      | some p =>
        rw [er] at e; cases e
        exact run_keeps hE hI h (fun op ho => hP op (List.mem_cons_of_mem _ ho)) h1.1 h1.2 p.1 p.2 er
    | err s1 =>
      rw [eo] at e hm
      have h1 := key s1 (hm s1 rfl)
      simp only at e
      cases er : run E s1 h with
      | none => rw [er] at e; cases e
      | some p =>
        rw [er] at e; cases e
        exact run_keeps hE hI h (fun op ho => hP op (List.mem_cons_of_mem _ ho)) h1.1 h1.2 p.1 p.2 er

theorem start_val (n c) : (start n).val c = .undef := by
  simp only [St.val, St.at, start, List.getElem?_replicate]
  split <;> rfl

theorem start_refs (n) : Refs (start n) :=
  ⟨fun c p e => (by rw [start_val] at e; cases e), Nat.le_refl 2⟩

theorem start_down (n) : Down (start n) := by
  intro o ob p ho hp
  rcases o with _ | _ | o
  · simp [start] at ho; subst ho; cases hp
  · simp [start] at ho; subst ho; cases hp; decide
  · simp [start] at ho

theorem look_ends (h : Down s) (k) : ∀ fuel o, o < fuel → lookBase s k fuel o ≠ .overflow
  | 0, o, ho => absurd ho (by omega)
  | fuel + 1, o, ho => by
    rw [lookBase]
    split
    · exact fun e => by cases e
    · split
      · next p hp =>
        cases e : s.objs[o]? with
        | none => rw [e] at hp; cases hp
        | some ob => rw [e] at hp; exact look_ends h k fuel p (by have := h o ob p e hp; omega)
      · exact fun e => by cases e

theorem withObj_nocrash {v} {f : Nat → Out} (h : ∀ o, v = .obj o → f o ≠ .crash) : withObj s v f ≠ .crash := by
  cases v with
  | obj o => exact h o rfl
  | undef => exact fun e => by cases e
  | null => exact fun e => by cases e
  | bool _ => exact fun e => by cases e
  | num _ => exact fun e => by cases e
  | str _ => exact fun e => by cases e

theorem setVar_nocrash (x v) : setVar s x v ≠ .crash := by
  rw [setVar]; split <;> exact fun e => by cases e

theorem incCell_nocrash (c) : incCell E s c ≠ .crash := by
  rw [incCell]; split
  · exact fun e => by cases e
  · split <;> exact fun e => by cases e

theorem assignAll_nocrash (q) : ∀ (vs : List Val) {s : St}, assignAll s q vs ≠ .crash
  | [], s => fun e => by cases e
  | .obj p :: r, s => by
    rw [assignAll]
    split
    · exact fun e => by cases e
    · split
      · exact assignAll_nocrash q r
      · exact fun e => by cases e
  | .undef :: _, s => fun e => by cases e
  | .null :: _, s => fun e => by cases e
  | .bool _ :: _, s => fun e => by cases e
  | .num _ :: _, s => fun e => by cases e
  | .str _ :: _, s => fun e => by cases e

theorem bind_nocrash {r : Out} {x o} (h : r ≠ .crash) : bind r x o ≠ .crash := by
  cases r with
  | ok s => exact setVar_nocrash _ _
  | err s => exact fun e => by cases e
  | crash => exact absurd rfl h

theorem put_nocrash (o k v) : put E s o k v ≠ .crash := by
  have hn : ∀ k, putName s o k v ≠ .crash := by
    intro k; rw [putName]; split
    · exact fun e => by cases e
    · split <;> exact fun e => by cases e
  rw [put]
  split
  · exact fun e => by cases e
  · split
    · split
      · rw [arraySetDup]
        split
        · exact fun e => by cases e
        · split
          · exact fun e => by cases e
          · split <;> exact fun e => by cases e
      · exact hn _
    · exact hn _

theorem step_nocrash (hr : Refs s) (h : Down s) (op : Op) : step E s op ≠ .crash := by
  cases op with
  | lit x v => rw [step]; split; exact setVar_nocrash _ _; exact fun e => by cases e
  | copy x y => exact setVar_nocrash _ _
  | incVar x => rw [step]; split; exact incCell_nocrash _; exact fun e => by cases e
  | mk x ps => exact setVar_nocrash _ _
  | mkArr x ys => exact setVar_nocrash _ _
  | get x o k =>
    refine withObj_nocrash fun q hq => ?_
    have hl := look_ends h k.name (s.objs.length + 1) q (by have := hr.var hq; omega)
    have : read E s q k ≠ .crash := by
      rw [read, look]
      split
      · exact fun e => by cases e
      · next e => exact absurd e hl
      · split
        · exact fun e => by cases e
        · rw [missing]; split
          · split <;> exact fun e => by cases e
          · exact fun e => by cases e
    cases e : read E s q k with
    | val v => exact setVar_nocrash _ _
    | err => exact fun e => by cases e
    | crash => exact absurd e this
  | put o k y => exact withObj_nocrash fun q _ => put_nocrash _ _ _
  | inc o k =>
    refine withObj_nocrash fun q hq => ?_
    have hl := look_ends h k.name (s.objs.length + 1) q (by have := hr.var hq; omega)
    rw [inc, look]
    split
    · exact incCell_nocrash _
    · next e => exact absurd e hl
    · exact fun e => by cases e
  | del o k =>
    refine withObj_nocrash fun q _ => ?_
    rw [del]; split
    · exact fun e => by cases e
    · split <;> exact fun e => by cases e
  | create x p props =>
    rw [step, create]; split
    · exact fun e => by cases e
    · exact bind_nocrash (assignAll_nocrash _ _)
  | assign o ys =>
    rw [step]
    cases (s.var o).val with
    | obj q => rw [assign]; split; exact assignAll_nocrash _ _; exact fun e => by cases e
    | undef => exact fun e => by cases e
    | null => exact fun e => by cases e
    | bool _ => exact fun e => by cases e
    | num _ => exact fun e => by cases e
    | str _ => exact fun e => by cases e
  | merge x a b =>
    rw [step]; unfold merge; split
    · exact bind_nocrash (assignAll_nocrash _ _)
    · exact fun e => by cases e
  | freeze o f m r =>
    refine withObj_nocrash fun q _ => ?_
    rw [freeze]; split <;> exact fun e => by cases e
  | setProto o p =>
    refine withObj_nocrash fun q _ => withObj_nocrash fun p _ => ?_
    rw [setProto]; split
    · split <;> exact fun e => by cases e
    · exact fun e => by cases e
  | values x o =>
    refine withObj_nocrash fun q _ => ?_
    rw [values]; split
    · exact fun e => by cases e
    · exact bind_nocrash fun e => by cases e
  | filter x a sel =>
    refine withObj_nocrash fun q _ => ?_
    rw [filterArr]; split
    · exact fun e => by cases e
    · split
      · exact bind_nocrash fun e => by cases e
      · exact fun e => by cases e
  | call ys => exact fun e => by cases e
  | each a i =>
    refine withObj_nocrash fun q _ => ?_
    rw [each]; split
    · exact fun e => by cases e
    · split
      · split <;> exact fun e => by cases e
      · exact fun e => by cases e
  | apply a ps =>
    refine withObj_nocrash fun q _ => ?_
    rw [apply]; split
    · exact fun e => by cases e
    · split <;> exact fun e => by cases e
  | ret =>
    show ret s ≠ .crash
    rw [ret]; split <;> exact fun e => by cases e

theorem run_ends (hE : SpecialOk E) : ∀ (h : List Op) {s : St}, (∀ op ∈ h, ∀ o p, op ≠ .setProto o p) → Refs s → Down s →
    (run E s h).isSome = true := by
  intro h
  induction h with
  | nil => intros; rfl
  | cons op h ih =>
    intro s hp hr hd
    have hm := made_step (E := E) hr op
    have hk : op.kind ≠ .setProto := by
      intro e
      cases op <;> simp [Op.kind] at e
      exact hp _ List.mem_cons_self _ _ rfl
    have keep : ∀ s1, Reach E op.kind s s1 → Refs s1 ∧ Down s1 := fun s1 h1 =>
      h1.keeps (I := fun s => Refs s ∧ Down s) (fun a b hab at' => ⟨refs_atom hE hab.1 at', down_atom hab.1 hab.2 hk at'⟩) ⟨hr, hd⟩
    have hp' : ∀ op ∈ h, ∀ o p, op ≠ .setProto o p := fun op ho => hp op (List.mem_cons_of_mem _ ho)
    rw [run]
    cases eo : step E s op with
    | crash => exact absurd eo (step_nocrash hr hd op)
    | ok s1 =>
      rw [eo] at hm
      have h1 := keep s1 (hm s1 rfl)
      have := ih hp' h1.1 h1.2
      simpa using this
    | err s1 =>
      rw [eo] at hm
      have h1 := keep s1 (hm s1 rfl)
      have := ih hp' h1.1 h1.2
      simpa using this

/-- C81: without `Object.setPrototypeOf` no history makes a search through the prototypes run forever. -/
theorem C81_lookups_end_partial (hE : SpecialOk E) (n : Nat) (h : List Op) (hp : ∀ op ∈ h, ∀ o p, op ≠ .setProto o p) :
    (run E (start n) h).isSome = true := run_ends hE h hp (start_refs n) (start_down n)

end Verif.Obj
