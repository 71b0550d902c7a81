import Verif.Basic
/-!
# Properties with `get` and `set` (C208)

`jsi_ValueLookupBase`, `jsi_GetterCall`, `jsi_SetterCall`, `jsi_ObjValInsert` (src/jsiValue.c 981-1014, 1342-1437) and the instructions
`OP_SUBSCRIPT`, `OP_ASSIGN`, `OP_INC`, `OP_DEC` with them (src/jsiEval.c 1286-1318, 1705-1742).

Simplified: objects, not arrays; keys other than `this`, `length`, `constructor` and the like; `++` on objects that are not frozen; an entry of a
table of setters is the function in it (in C it is a pointer, which stays when the table is freed).
-/
namespace Verif.Obj.Access

abbrev Key := List UInt8

inductive V where
  | undef
  | num (n : Int)
  | obj (o : Nat)
  | other (n : Nat)
  deriving DecidableEq

/-- An object: its tree, `getters`, `setters` (`none`: no table), `__proto__`; `freeze`, with `freezeNoModify`.  Functions are numbers. -/
structure Ob where
  data : Key → Option V
  getters : Key → Option Nat
  setters : Option (Key → Option Nat)
  proto : Option Nat
  freeze : Option Bool

/-- The objects, and `interp->hPtrGet`. -/
structure St where
  objs : Nat → Ob
  hget : Option Nat

/-- The functions of the script: with `this` and the argument they give a value or an exception, and change anything. -/
structure Env where
  call : Nat → V → Option V → St → Option V × St
  toNum : V → Int

def upd {α β : Type} [DecidableEq α] (f : α → β) (a : α) (b : β) : α → β := fun x => if x = a then b else f x

/-- `jsi_TreeObjSetValue`. -/
def setData (st : St) (o : Nat) (k : Key) (v : V) : St :=
  { st with objs := upd st.objs o { st.objs o with data := upd (st.objs o).data k (some v) } }

/-- Is it an object? -/
def V.isObj : V → Bool
  | .obj _ => true
  | _ => false

/-- `interp->hPtrGet` after a getter.  src/jsiValue.c:1393-1401. -/
def noteSetter (st : St) (o : Nat) (k : Key) (v : V) : St :=
  match (st.objs o).setters with
  | none => st
  | some s => if v.isObj then st else { st with hget := s k }

/-- Where a property is found. -/
inductive Found where
  /-- In the tree of this object. -/
  | data (o : Nat) (v : V)
  /-- From a getter: it is in `interp->GetterValue`. -/
  | got (v : V)
  | missing
  deriving DecidableEq

/-- What a getter leads to.  src/jsiValue.c:996-1006. -/
def afterGet (o : Nat) (k : Key) : Option V × St → Found × St
  | (none, st) => (.missing, st)
  | (some v, st) => (.got v, noteSetter st o k v)

/-- `jsi_ValueLookupBase`, at most `n` objects up.  src/jsiValue.c:981-1014. -/
def find (E : Env) : Nat → St → Nat → Key → Found × St
  | 0, st, _, _ => (.missing, st)
  | n + 1, st, o, k =>
    match (st.objs o).data k with
    | some v => (.data o v, st)
    | none =>
      match (st.objs o).getters k with
      | some f => afterGet o k (E.call f (.obj o) none st)
      | none =>
        match (st.objs o).proto with
        | some p => find E n st p k
        | none => (.missing, st)

/-- The value a script sees.  src/jsiEval.c:998-1027. -/
def Found.value : Found → V
  | .data _ v => v
  | .got v => v
  | .missing => .undef

/-- `o.k`. -/
def read (E : Env) (n : Nat) (st : St) (o : Nat) (k : Key) : V × St := ((find E n st o k).1.value, (find E n st o k).2)

/-- The own setter. -/
def ownSetter (st : St) (o : Nat) (k : Key) : Option Nat := (st.objs o).setters.bind fun s => s k

/-- `o.k = v`; `false`: an exception.  src/jsiValue.c:1405-1425. -/
def assign (E : Env) (st : St) (o : Nat) (k : Key) (v : V) : Bool × St :=
  match ownSetter st o k with
  | some f => ((E.call f (.obj o) (some v) st).1.isSome, (E.call f (.obj o) (some v) st).2)
  | none =>
    match (st.objs o).freeze with
    | some true => (false, st)
    | some false => if (st.objs o).data k = none then (false, st) else (true, setData st o k v)
    | none => (true, setData st o k v)

/-- The setter that `++` calls at its end; what it gives is not looked at.  src/jsiEval.c:1135-1136, 1290, 1735-1740; `below`: what is on the stack below the value. -/
def afterInc (E : Env) (below : Option V) (n : Int) (st : St) : St :=
  match st.hget with
  | none => st
  | some s => (E.call s (below.getD (.num n)) (some (.num n)) st).2

/-- `o.k++`, with `d = 1`; the number it leaves, `none`: an exception.  src/jsiEval.c:1705-1742. -/
def inc (E : Env) (n : Nat) (below : Option V) (d : Int) (st : St) (o : Nat) (k : Key) : Option Int × St :=
  match find E n st o k with
  | (.missing, st1) => (none, st1)
  | (.data p v, st1) => (some (E.toNum v + d), afterInc E below (E.toNum v + d) (setData st1 p k (.num (E.toNum v + d))))
  | (.got v, st1) => (some (E.toNum v + d), afterInc E below (E.toNum v + d) st1)

/-! ## What it should be -/

/-- The object has a property without functions. -/
def Plain (st : St) (o : Nat) (k : Key) (v : V) : Prop := (st.objs o).data k = some v ∧ ownSetter st o k = none

/-- It has a property with these two. -/
def Pair (st : St) (o : Nat) (k : Key) (g s : Nat) : Prop :=
  (st.objs o).data k = none ∧ (st.objs o).getters k = some g ∧ ownSetter st o k = some s

/-- Only this property differs. -/
def OnlyAt (st st' : St) (o : Nat) (k : Key) (v : V) : Prop :=
  (∀ o' k', (st'.objs o').data k' = if o' = o ∧ k' = k then some v else (st.objs o').data k') ∧
    ∀ o', (st'.objs o').getters = (st.objs o').getters ∧ (st'.objs o').setters = (st.objs o').setters ∧ (st'.objs o').proto = (st.objs o').proto ∧
      (st'.objs o').freeze = (st.objs o').freeze

/-! ## Theorems -/

theorem setData_only (st : St) (o : Nat) (k : Key) (v : V) : OnlyAt st (setData st o k v) o k v := by
  constructor
  · intro o' k'
    unfold setData upd
    dsimp only
    by_cases h : o' = o
    · subst h
      by_cases h2 : k' = k
      · subst h2; simp
      · simp [h2]
    · simp [h]
  · intro o'
    unfold setData upd
    dsimp only
    by_cases h : o' = o
    · subst h; simp
    · simp [h]

/-- **C208 (part).** Reading a property with a getter calls it once, with the object as `this`, and gives what it gives; nothing else is changed. -/
theorem C208_get_partial (E : Env) (n : Nat) {st st1 : St} {o : Nat} {k : Key} {g : Nat} {v : V}
    (hd : (st.objs o).data k = none) (hg : (st.objs o).getters k = some g) (hc : E.call g (.obj o) none st = (some v, st1)) :
    (read E (n + 1) st o k).1 = v ∧ (read E (n + 1) st o k).2.objs = st1.objs := by
  have hf : find E (n + 1) st o k = (.got v, noteSetter st1 o k v) := by
    rw [find, hd]
    simp only [hg, hc, afterGet]
  unfold read
  rw [hf]
  refine ⟨rfl, ?_⟩
  show (noteSetter st1 o k v).objs = _
  unfold noteSetter
  split
  · rfl
  · split <;> rfl

/-- **C208** Assigning to a property with a setter calls it once, with the object as `this` and the value, and does nothing else; its exception is
passed on. -/
theorem C208_set (E : Env) {st : St} {o : Nat} {k : Key} {s : Nat} (v : V) (h : ownSetter st o k = some s) :
    (assign E st o k v).2 = (E.call s (.obj o) (some v) st).2 ∧ ((assign E st o k v).1 = true ↔ (E.call s (.obj o) (some v) st).1 ≠ none) := by
  unfold assign
  rw [h]
  refine ⟨rfl, ?_⟩
  show ((E.call s (.obj o) (some v) st).1.isSome = true) ↔ _
  rw [Option.isSome_iff_ne_none]

/-- **C208** Without functions an assignment changes this property and nothing else, and it is read afterwards. -/
theorem C208_plain (E : Env) (n : Nat) {st : St} {o : Nat} {k : Key} (v : V) (h : ownSetter st o k = none) (hf : (st.objs o).freeze = none) :
    (assign E st o k v).1 = true ∧ OnlyAt st (assign E st o k v).2 o k v ∧
      read E (n + 1) (assign E st o k v).2 o k = (v, (assign E st o k v).2) := by
  have ha : assign E st o k v = (true, setData st o k v) := by
    unfold assign
    rw [h]
    simp only [hf]
  rw [ha]
  refine ⟨rfl, setData_only st o k v, ?_⟩
  have hd : ((setData st o k v).objs o).data k = some v := by
    rw [(setData_only st o k v).1 o k, if_pos ⟨rfl, rfl⟩]
  unfold read
  rw [find, hd]
  rfl

/-- **C208** An assignment to an object frozen without modifications is an exception and changes nothing; with modifications those of new keys. -/
theorem C208_frozen (E : Env) {st : St} {o : Nat} {k : Key} (v : V) (h : ownSetter st o k = none) :
    ((st.objs o).freeze = some true → assign E st o k v = (false, st)) ∧
      ((st.objs o).freeze = some false → (st.objs o).data k = none → assign E st o k v = (false, st)) ∧
      ((st.objs o).freeze = some false → (st.objs o).data k ≠ none → (assign E st o k v).1 = true ∧ OnlyAt st (assign E st o k v).2 o k v) := by
  unfold assign
  rw [h]
  refine ⟨fun hf => ?_, fun hf hd => ?_, fun hf hd => ?_⟩
  · simp only [hf]
  · simp only [hf, hd, if_true]
  · simp only [hf, if_neg hd]
    exact ⟨trivial, setData_only st o k v⟩

/-- **C208 (part).** `++` on a property with both calls the getter with the object, and then the setter with the number. -/
theorem C208_inc_partial (E : Env) (n : Nat) (below : Option V) (d : Int) {st st1 : St} {o : Nat} {k : Key} {g s : Nat} {v : V}
    (hd : (st.objs o).data k = none) (hg : (st.objs o).getters k = some g) (hc : E.call g (.obj o) none st = (some v, st1)) (hv : v.isObj = false)
    (hs : ownSetter st1 o k = some s) :
    ∃ this st2, st2.objs = st1.objs ∧ inc E (n + 1) below d st o k = (some (E.toNum v + d), (E.call s this (some (.num (E.toNum v + d))) st2).2) := by
  have hf : find E (n + 1) st o k = (.got v, noteSetter st1 o k v) := by
    rw [find, hd]
    simp only [hg, hc, afterGet]
  have hn : noteSetter st1 o k v = { st1 with hget := some s } := by
    unfold noteSetter
    unfold ownSetter at hs
    cases h : (st1.objs o).setters with
    | none => rw [h] at hs; exact absurd hs (by simp)
    | some t =>
      rw [h] at hs
      have ht : t k = some s := hs
      simp only [hv, ht]
      rfl
  refine ⟨below.getD (.num (E.toNum v + d)), { st1 with hget := some s }, rfl, ?_⟩
  unfold inc
  rw [hf, hn]
  rfl

/-! ### Without setters -/

/-- No object has a setter, nor was one noted. -/
def NoSetters (st : St) : Prop := st.hget = none ∧ ∀ o, (st.objs o).setters = none

/-- The functions define none. -/
def Keeps (E : Env) : Prop := ∀ f this a st, NoSetters st → NoSetters (E.call f this a st).2

/-- A step of a script. -/
inductive Step where
  | read (o : Nat) (k : Key)
  | assign (o : Nat) (k : Key) (v : V)
  | inc (o : Nat) (k : Key) (d : Int) (below : Option V)

def step (E : Env) (n : Nat) (st : St) : Step → St
  | .read o k => (read E n st o k).2
  | .assign o k v => (assign E st o k v).2
  | .inc o k d below => (inc E n below d st o k).2

theorem setData_noSetters {st : St} (h : NoSetters st) (o : Nat) (k : Key) (v : V) : NoSetters (setData st o k v) :=
  ⟨h.1, fun o' => ((setData_only st o k v).2 o').2.1.trans (h.2 o')⟩

theorem find_noSetters {E : Env} (hE : Keeps E) : ∀ (n : Nat) {st : St}, NoSetters st → ∀ (o : Nat) (k : Key), NoSetters (find E n st o k).2
  | 0, _, h, _, _ => h
  | n + 1, st, h, o, k => by
    rw [find]
    split
    · exact h
    · split
      · rename_i f _
        have hk := hE f (.obj o) none st h
        cases hc : E.call f (.obj o) none st with
        | mk a b =>
          rw [hc] at hk
          cases a with
          | none => exact hk
          | some v =>
            show NoSetters (noteSetter b o k v)
            unfold noteSetter
            rw [hk.2 o]
            exact hk
      · split
        · exact find_noSetters hE n h _ k
        · exact h

theorem step_noSetters {E : Env} (hE : Keeps E) (n : Nat) {st : St} (h : NoSetters st) (x : Step) : NoSetters (step E n st x) := by
  cases x with
  | read o k => exact find_noSetters hE n h o k
  | assign o k v =>
    show NoSetters (assign E st o k v).2
    unfold assign
    have : ownSetter st o k = none := by unfold ownSetter; rw [h.2 o]; rfl
    rw [this]
    dsimp only
    split
    · exact h
    · split
      · exact h
      · exact setData_noSetters h o k v
    · exact setData_noSetters h o k v
  | inc o k d below =>
    show NoSetters (inc E n below d st o k).2
    have hf := find_noSetters hE n h o k
    unfold inc
    cases hc : find E n st o k with
    | mk a b =>
      rw [hc] at hf
      cases a with
      | missing => exact hf
      | data p v =>
        show NoSetters (afterInc E below _ (setData b p k _))
        have := setData_noSetters hf p k (.num (E.toNum v + d))
        unfold afterInc
        rw [this.1]
        exact this
      | got v =>
        show NoSetters (afterInc E below _ b)
        unfold afterInc
        rw [hf.1]
        exact hf

/-- **C208 (part).** In a script without setters, after any history, `++` on an own property without functions changes it and nothing else. -/
theorem C208_inc_plain_partial {E : Env} (hE : Keeps E) (n : Nat) {st : St} (h0 : NoSetters st) (h : List Step) (below : Option V) (d : Int) {o : Nat}
    {k : Key} {v : V} (hp : ((h.foldl (step E n) st).objs o).data k = some v) :
    (inc E (n + 1) below d (h.foldl (step E n) st) o k).1 = some (E.toNum v + d) ∧
      OnlyAt (h.foldl (step E n) st) (inc E (n + 1) below d (h.foldl (step E n) st) o k).2 o k (.num (E.toNum v + d)) := by
  have hI : ∀ (h : List Step) (st : St), NoSetters st → NoSetters (h.foldl (step E n) st) := by
    intro h
    induction h with
    | nil => intro st h0; exact h0
    | cons x h ih => intro st h0; exact ih _ (step_noSetters hE n h0 x)
  have hi := hI h st h0
  generalize h.foldl (step E n) st = s at *
  have hf : find E (n + 1) s o k = (.data o v, s) := by rw [find, hp]
  have hr : inc E (n + 1) below d s o k = (some (E.toNum v + d), setData s o k (.num (E.toNum v + d))) := by
    unfold inc
    rw [hf]
    show (some (E.toNum v + d), afterInc E below _ (setData s o k _)) = _
    unfold afterInc
    have : (setData s o k (V.num (E.toNum v + d))).hget = none := hi.1
    rw [this]
  rw [hr]
  exact ⟨rfl, setData_only ..⟩

/-! ### Refuted -/

/-- **C208 refuted.** Once a property `x` with both was read, `++` on any other property, of any object, also calls the setter of `x`, with a wrong
`this`. -/
theorem C208_stale_refuted (E : Env) (n : Nat) (below : Option V) (d : Int) {st st1 : St} {a : Nat} {x : Key} {g s : Nat} {v : V}
    (hd : (st.objs a).data x = none) (hg : (st.objs a).getters x = some g) (hc : E.call g (.obj a) none st = (some v, st1)) (hv : v.isObj = false)
    (hs : ownSetter st1 a x = some s) {b : Nat} {y : Key} {w : V} (hb : (st1.objs b).data y = some w) :
    ∃ st2, OnlyAt st1 st2 b y (.num (E.toNum w + d)) ∧ (inc E (n + 1) below d (read E (n + 1) st a x).2 b y).2 =
      (E.call s (below.getD (.num (E.toNum w + d))) (some (.num (E.toNum w + d))) st2).2 := by
  have hf : find E (n + 1) st a x = (.got v, noteSetter st1 a x v) := by
    rw [find, hd]
    simp only [hg, hc, afterGet]
  have hn : noteSetter st1 a x v = { st1 with hget := some s } := by
    unfold noteSetter
    unfold ownSetter at hs
    cases h : (st1.objs a).setters with
    | none => rw [h] at hs; exact absurd hs (by simp)
    | some t =>
      rw [h] at hs
      have ht : t x = some s := hs
      simp only [hv, ht]
      rfl
  have hr : (read E (n + 1) st a x).2 = { st1 with hget := some s } := by
    unfold read
    rw [hf, hn]
  rw [hr]
  have hf2 : find E (n + 1) { st1 with hget := some s } b y = (.data b w, { st1 with hget := some s }) := by
    rw [find]
    simp only [hb]
  refine ⟨setData { st1 with hget := some s } b y (.num (E.toNum w + d)), setData_only { st1 with hget := some s } b y _, ?_⟩
  unfold inc
  rw [hf2]
  rfl

/-- **C208 refuted.** A getter of the prototype is called with the prototype as `this`; its setter is not called: a new property is made. -/
theorem C208_proto_refuted (E : Env) (n : Nat) {st : St} {o p : Nat} {k : Key} {g s : Nat} (ho : (st.objs o).data k = none)
    (hg : (st.objs o).getters k = none) (hs : (st.objs o).setters = none) (hf : (st.objs o).freeze = none) (hp : (st.objs o).proto = some p)
    (h : Pair st p k g s) (v : V) :
    find E (n + 2) st o k = afterGet p k (E.call g (.obj p) none st) ∧ OnlyAt st (assign E st o k v).2 o k v := by
  constructor
  · rw [find]
    simp only [ho, hg, hp]
    rw [find]
    simp only [h.1, h.2.1]
  · have hn : ownSetter st o k = none := by unfold ownSetter; rw [hs]; rfl
    exact (C208_plain E 0 v hn hf).2.1

/-- **C208 refuted.** The exception of a getter is lost: the property reads `undefined`. -/
theorem C208_throw_refuted (E : Env) (n : Nat) {st st1 : St} {o : Nat} {k : Key} {g : Nat} (hd : (st.objs o).data k = none)
    (hg : (st.objs o).getters k = some g) (hc : E.call g (.obj o) none st = (none, st1)) : read E (n + 1) st o k = (.undef, st1) := by
  have hf : find E (n + 1) st o k = (.missing, st1) := by
    rw [find, hd]
    simp only [hg, hc, afterGet]
  unfold read
  rw [hf]
  rfl

/-! ### A case -/

/-- An object with nothing. -/
def bare : Ob := ⟨fun _ => none, fun _ => none, none, none, none⟩

/-- `var a = {_x: 5, get x(){ return this._x; }, set x(v){ this._x = v; }}, b = {y: 1}, c`, whose prototype is `a`. -/
def st0 : St := ⟨fun o =>
    if o = 0 then { bare with data := upd bare.data (asc "_x") (some (.num 5)), getters := upd bare.getters (asc "x") (some 1), setters := some (upd bare.getters (asc "x") (some 2)) }
    else if o = 1 then { bare with data := upd bare.data (asc "y") (some (.num 1)) }
    else if o = 2 then { bare with proto := some 0 }
    else bare, none⟩

/-- Function 1 is the getter, 2 the setter, 3 throws; a `this` that is no object is object 9. -/
def env : Env where
  call f this a st :=
    let o := match this with | .obj o => o | _ => 9
    if f = 1 then ((some (((st.objs o).data (asc "_x")).getD .undef)), st)
    else if f = 2 then (some .undef, setData st o (asc "_x") (a.getD .undef))
    else (none, st)
  toNum v := match v with | .num n => n | _ => 0

/-- The hypotheses are met: `a.x` is 5; `a.x = 7` sets it; `a.x` and `b.y++` call the setter of `a` with the object below on the stack. -/
example : Pair st0 0 (asc "x") 1 2 ∧ env.call 1 (.obj 0) none st0 = (some (.num 5), st0) ∧ (read env 3 st0 0 (asc "x")).1 = .num 5 ∧
    (read env 3 (assign env st0 0 (asc "x") (.num 7)).2 0 (asc "x")).1 = .num 7 ∧
    ((inc env 3 (some (.obj 0)) 1 (read env 3 st0 0 (asc "x")).2 1 (asc "y")).2.objs 0).data (asc "_x") = some (.num 2) := by
  refine ⟨⟨by decide +kernel, by decide +kernel, by decide +kernel⟩, rfl, by decide +kernel, by decide +kernel, by decide +kernel⟩

/-- `++` on `a.x` does not change `a`. -/
theorem C208_this_refuted : (inc env 3 none 1 st0 0 (asc "x")).1 = some 6 ∧ ((inc env 3 none 1 st0 0 (asc "x")).2.objs 0).data (asc "_x") = some (.num 5) ∧
    (read env 3 st0 2 (asc "x")).1 = .num 5 := by
  refine ⟨by decide +kernel, by decide +kernel, by decide +kernel⟩

/-- Functions that define no setters. -/
example : Keeps { call := fun _ _ _ st => (none, st), toNum := env.toNum } ∧ NoSetters ⟨fun _ => bare, none⟩ :=
  ⟨fun _ _ _ _ h => h, rfl, fun _ => rfl⟩

end Verif.Obj.Access
