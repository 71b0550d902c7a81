import Verif.Basic
/-!
# The aliases of an interpreter (C198)

`InterpAliasCmd`, `jsi_AliasFree`, `jsi_AliasCreateCmd` (src/jsiInterp.c 377-545) and the commands they make and delete
(src/jsiCmds.c 3740-3794), for names without a dot, in one thread.  Not modelled: variables of the same name that scripts of the
interpreter make, memory.
-/
namespace Verif.Alias

/-! ## Model -/

/-- The second and the third argument. -/
inductive Arg where
  | null
  | func (k : Nat)
  | arr (k : Nat)
  | other (k : Nat)
  deriving DecidableEq, Repr

/-- `AliasCmd`: func, args, and whether intobj is NULL, which it is for an alias an interpreter gives itself.
src/jsiInterp.c:523-534. -/
structure Rec where
  func : Nat
  args : Option Nat
  own : Bool
  deriving DecidableEq, Repr

/-- What the name is in the interpreter: the command of an alias, that of an alias that was freed (reserved[2] NULL:
src/jsiInterp.c:389), or something else. -/
inductive Cmd where
  | alias (r : Rec)
  | dead
  | other (k : Nat)
  deriving DecidableEq, Repr

abbrev Name := List UInt8

/-- aliasHash, an entry with its value or NULL, and the commands. -/
structure St where
  tbl : List (Name × Option Rec)
  cmds : Name → Option Cmd

/-- `Jsi_HashEntryFind`, with the value. -/
def find (n : Name) : List (Name × Option Rec) → Option (Option Rec)
  | [] => none
  | (m, v) :: t => if m = n then some v else find n t

/-- `Jsi_HashEntryNew` and `Jsi_HashValueSet`. -/
def put (n : Name) (v : Option Rec) : List (Name × Option Rec) → List (Name × Option Rec)
  | [] => [(n, v)]
  | (m, w) :: t => if m = n then (n, v) :: t else (m, w) :: put n v t

/-- `Jsi_HashEntryDelete`. -/
def del (n : Name) : List (Name × Option Rec) → List (Name × Option Rec)
  | [] => []
  | (m, w) :: t => if m = n then t else (m, w) :: del n t

/-- A command in place of another. -/
def setCmd (c : Name → Option Cmd) (n : Name) (v : Option Cmd) : Name → Option Cmd := fun m => if m = n then v else c m

/-- `jsi_AliasFree`: the command is deleted, or left without its alias.  src/jsiInterp.c:377-400, src/jsiCmds.c:3740-3752. -/
def free (c : Name → Option Cmd) (n : Name) (r : Rec) : Name → Option Cmd :=
  setCmd c n (if r.own then some .dead else none)

/-- What `alias` gives: a value, undefined, an error with a message, or one without. -/
inductive Res where
  | undef
  | val (a : Arg)
  | error
  | silent
  deriving DecidableEq, Repr

/-- `alias(n, null, null)`.  src/jsiInterp.c:467-478. -/
def delete (n : Name) (s : St) : St × Res :=
  match find n s.tbl with
  | none => (s, .undef)
  | some none => (s, .silent)
  | some (some r) => (⟨del n s.tbl, free s.cmds n r⟩, .undef)

/-- `alias(n, v1, v2)`.  src/jsiInterp.c:461-505. -/
def set (own : Bool) (n : Name) (v1 v2 : Arg) (s : St) : St × Res :=
  if v1 = .null ∧ v2 = .null then delete n s
  else
    match v1, v2 with
    | .func f, .null => (make n ⟨f, none, own⟩ s, .undef)
    | .func f, .arr a => (make n ⟨f, some a, own⟩ s, .undef)
    | _, _ => (⟨ensure n s.tbl, s.cmds⟩, .error)
where
  /-- `Jsi_HashEntryNew` alone (line 483). -/
  ensure (n : Name) (t : List (Name × Option Rec)) : List (Name × Option Rec) :=
    match find n t with
    | none => t ++ [(n, none)]
    | some _ => t
  /-- Lines 490-505. -/
  make (n : Name) (r : Rec) (s : St) : St :=
    ⟨put n (some r) s.tbl,
     setCmd (match find n s.tbl with | some (some o) => free s.cmds n o | _ => s.cmds) n (some (.alias r))⟩

/-- `alias(n)`.  src/jsiInterp.c:436-445. -/
def funcOf (n : Name) (s : St) : Res :=
  match find n s.tbl with
  | none => .undef
  | some none => .silent
  | some (some r) => .val (.func r.func)

/-- `alias(n, v)`.  Without arguments args is NULL: undefined.  src/jsiInterp.c:447-459. -/
def argsOf (n : Name) (v : Arg) (s : St) : Res :=
  match find n s.tbl with
  | none => .undef
  | some e =>
    if v ≠ .null then .error
    else match e with
      | none => .silent
      | some r => match r.args with | none => .undef | some a => .val (.arr a)

/-- `alias()`, in some order.  src/jsiInterp.c:429. -/
def names (s : St) : List Name := s.tbl.map (·.1)

/-- A use of `alias` with three arguments: by whom, the name, the arguments. -/
structure Op where
  own : Bool
  name : Name
  func : Arg
  args : Arg

/-- A history of them. -/
def run (s : St) : List Op → St
  | [] => s
  | o :: os => run (set o.own o.name o.func o.args s).1 os

/-- Before the first. -/
def start (cmds : Name → Option Cmd) : St := ⟨[], cmds⟩

/-! ## What it should be -/

/-- The alias `n` is, if it was `cur`, after a use of `alias`. -/
def next (n : Name) (cur : Option Rec) (o : Op) : Option Rec :=
  if o.name ≠ n then cur
  else match o.func, o.args with
    | .null, .null => none
    | .func f, .null => some ⟨f, none, o.own⟩
    | .func f, .arr a => some ⟨f, some a, o.own⟩
    | _, _ => cur

/-- … after a history. -/
def last (n : Name) (os : List Op) : Option Rec := os.foldl (next n) none

/-- The arguments are a function, and an array or null; or twice null. -/
def Proper (o : Op) : Prop :=
  (o.func = .null ∧ o.args = .null) ∨ ∃ f, o.func = .func f ∧ (o.args = .null ∨ ∃ a, o.args = .arr a)

/-! ## Proofs -/

theorem find_put (n m : Name) (v : Option Rec) : ∀ t, find m (put n v t) = if n = m then some v else find m t
  | [] => by simp [put, find]
  | (k, w) :: t => by
    have ih := find_put n m v t
    unfold put
    by_cases hk : k = n
    · subst hk
      rw [if_pos rfl]
      unfold find
      by_cases hm : k = m
      · simp [hm]
      · simp [hm]
    · rw [if_neg hk]
      unfold find
      rw [ih]
      by_cases hm : k = m
      · subst hm
        rw [if_pos rfl, if_pos rfl, if_neg (fun h => hk h.symm)]
      · rw [if_neg hm, if_neg hm]

theorem find_none (n : Name) : ∀ t, find n t = none ↔ n ∉ t.map (·.1)
  | [] => by simp [find]
  | (k, w) :: t => by
    have ih := find_none n t
    unfold find
    by_cases hk : k = n
    · simp [hk]
    · rw [if_neg hk, ih]
      rw [List.map_cons, List.mem_cons]
      exact ⟨fun h hm => hm.elim (fun e => hk e.symm) h, fun h hm => h (Or.inr hm)⟩

theorem find_del_other (n m : Name) (h : n ≠ m) : ∀ t, find m (del n t) = find m t
  | [] => rfl
  | (k, w) :: t => by
    have ih := find_del_other n m h t
    unfold del
    by_cases hk : k = n
    · subst hk; rw [if_pos rfl]; conv => rhs; unfold find
      rw [if_neg h]
    · rw [if_neg hk]; unfold find; rw [ih]

theorem find_del (n : Name) : ∀ t : List (Name × Option Rec), (t.map (·.1)).Nodup → find n (del n t) = none
  | [], _ => rfl
  | (k, w) :: t, h => by
    have ih := find_del n t (List.nodup_cons.1 h).2
    unfold del
    by_cases hk : k = n
    · subst hk; rw [if_pos rfl]; exact (find_none k t).2 (List.nodup_cons.1 h).1
    · rw [if_neg hk]; unfold find; rw [if_neg hk]; exact ih

theorem keys_put (n : Name) (v : Option Rec) : ∀ t : List (Name × Option Rec),
    (put n v t).map (·.1) = if n ∈ t.map (·.1) then t.map (·.1) else t.map (·.1) ++ [n]
  | [] => by simp [put]
  | (k, w) :: t => by
    have ih := keys_put n v t
    unfold put
    by_cases hk : k = n
    · subst hk; simp
    · rw [if_neg hk, List.map_cons, ih]
      by_cases hn : n ∈ t.map (·.1)
      · rw [if_pos hn, List.map_cons, if_pos (List.mem_cons_of_mem _ hn)]
      · rw [if_neg hn, List.map_cons, if_neg]
        · rfl
        · intro h
          rcases List.mem_cons.1 h with h | h
          · exact hk h.symm
          · exact hn h

theorem mem_keys_del (n m : Name) : ∀ t : List (Name × Option Rec), m ∈ (del n t).map (·.1) → m ∈ t.map (·.1)
  | [], h => h
  | (k, w) :: t, h => by
    unfold del at h
    by_cases hk : k = n
    · rw [if_pos hk] at h; exact List.mem_cons_of_mem _ h
    · rw [if_neg hk] at h
      rcases List.mem_cons.1 h with h | h
      · exact List.mem_cons.2 (Or.inl h)
      · exact List.mem_cons_of_mem _ (mem_keys_del n m t h)

theorem nodup_del (n : Name) : ∀ t : List (Name × Option Rec), (t.map (·.1)).Nodup → ((del n t).map (·.1)).Nodup
  | [], h => h
  | (k, w) :: t, h => by
    obtain ⟨h1, h2⟩ := List.nodup_cons.1 h
    unfold del
    by_cases hk : k = n
    · rw [if_pos hk]; exact h2
    · rw [if_neg hk, List.map_cons]
      exact List.nodup_cons.2 ⟨fun hm => h1 (mem_keys_del n _ t hm), nodup_del n t h2⟩

theorem nodup_snoc {l : List Name} {n : Name} (h : l.Nodup) (hn : n ∉ l) : (l ++ [n]).Nodup := by
  rw [List.nodup_append]
  refine ⟨h, by simp, ?_⟩
  intro a ha b hb
  rw [List.mem_singleton] at hb
  subst hb
  intro he
  exact hn (he ▸ ha)

theorem nodup_put (n : Name) (v : Option Rec) (t : List (Name × Option Rec)) (h : (t.map (·.1)).Nodup) :
    ((put n v t).map (·.1)).Nodup := by
  rw [keys_put]
  by_cases hn : n ∈ t.map (·.1)
  · rw [if_pos hn]; exact h
  · rw [if_neg hn]; exact nodup_snoc h hn

theorem find_ensure (n m : Name) (t : List (Name × Option Rec)) :
    find m (set.ensure n t) = if n = m ∧ find n t = none then some none else find m t := by
  unfold set.ensure
  cases hf : find n t with
  | some w => simp
  | none =>
    dsimp only
    have happ : ∀ t : List (Name × Option Rec), find n t = none → find m (t ++ [(n, none)]) = if n = m then some none else find m t := by
      intro t
      induction t with
      | nil => intro _; simp [find]
      | cons e t ih =>
        obtain ⟨k, w⟩ := e
        intro h
        rw [find] at h
        by_cases hk : k = n
        · rw [if_pos hk] at h; cases h
        · rw [if_neg hk] at h
          rw [List.cons_append]
          rw [find]
          conv => rhs; rw [find]
          rw [ih h]
          by_cases hm : k = m
          · subst hm; rw [if_pos rfl, if_pos rfl, if_neg (fun h => hk h.symm)]
          · rw [if_neg hm, if_neg hm]
    rw [happ t hf]
    simp

theorem nodup_ensure (n : Name) (t : List (Name × Option Rec)) (h : (t.map (·.1)).Nodup) : ((set.ensure n t).map (·.1)).Nodup := by
  unfold set.ensure
  cases hf : find n t with
  | some w => exact h
  | none =>
    dsimp only
    rw [List.map_append]
    exact nodup_snoc h ((find_none n t).1 hf)

/-- A state agrees with what the alias `n` is. -/
structure Ok (n : Name) (cur : Option Rec) (s : St) : Prop where
  nodup : (names s).Nodup
  entry : (find n s.tbl).join = cur
  cmd : ∀ r, cur = some r → s.cmds n = some (.alias r)

theorem ok_make {n m : Name} {cur : Option Rec} {s : St} {r : Rec} (h : Ok n cur s) :
    Ok n (if m = n then some r else cur) (set.make m r s) := by
  refine ⟨nodup_put m _ _ h.nodup, ?_, ?_⟩
  · show (find n (put m (some r) s.tbl)).join = _
    rw [find_put]
    by_cases hm : m = n
    · rw [if_pos hm, if_pos hm]; rfl
    · rw [if_neg hm, if_neg hm]; exact h.entry
  · intro r' hr
    by_cases hm : m = n
    · rw [if_pos hm] at hr
      cases hr
      simp [set.make, setCmd, hm]
    · rw [if_neg hm] at hr
      have hn : ¬(n = m) := fun e => hm e.symm
      have := h.cmd r' hr
      unfold set.make setCmd
      dsimp only
      rw [if_neg hn]
      cases find m s.tbl with
      | none => exact this
      | some e => cases e with
        | none => exact this
        | some o => simp [free, setCmd, hn, this]

theorem ok_step {n : Name} {cur : Option Rec} {s : St} (o : Op) (h : Ok n cur s) :
    Ok n (next n cur o) (set o.own o.name o.func o.args s).1 := by
  obtain ⟨own, m, v1, v2⟩ := o
  have hbad : Ok n cur ⟨set.ensure m s.tbl, s.cmds⟩ := by
    refine ⟨nodup_ensure m _ h.nodup, ?_, h.cmd⟩
    show (find n (set.ensure m s.tbl)).join = cur
    rw [find_ensure]
    by_cases hc : m = n ∧ find m s.tbl = none
    · rw [if_pos hc]
      have := h.entry
      rw [← hc.1, hc.2] at this
      exact this
    · rw [if_neg hc]; exact h.entry
  by_cases hd : v1 = .null ∧ v2 = .null
  · obtain ⟨rfl, rfl⟩ := hd
    have e1 : (set own m .null .null s).1 = (delete m s).1 := by unfold set; rw [if_pos ⟨rfl, rfl⟩]
    have e2 : next n cur ⟨own, m, .null, .null⟩ = if m = n then none else cur := by
      by_cases hm : m = n <;> simp [next, hm]
    rw [e1, e2]
    unfold delete
    have same : (find m s.tbl).join = none → Ok n (if m = n then none else cur) s := by
      intro hj
      by_cases hm : m = n
      · rw [if_pos hm]
        exact ⟨h.nodup, by rw [← hm]; exact hj, fun r hr => by cases hr⟩
      · rw [if_neg hm]; exact h
    cases hf : find m s.tbl with
    | none => exact same (by rw [hf]; rfl)
    | some e => cases e with
      | none => exact same (by rw [hf]; rfl)
      | some r =>
        refine ⟨nodup_del m _ h.nodup, ?_, ?_⟩
        · show (find n (del m s.tbl)).join = _
          by_cases hm : m = n
          · rw [if_pos hm, ← hm, find_del m _ h.nodup]; rfl
          · rw [if_neg hm, find_del_other m n hm]; exact h.entry
        · intro r' hr
          by_cases hm : m = n
          · rw [if_pos hm] at hr; cases hr
          · rw [if_neg hm] at hr
            show free s.cmds m r n = _
            rw [free, setCmd, if_neg (fun e => hm e.symm)]
            exact h.cmd r' hr
  · have hnext : ∀ r, Ok n (if m ≠ n then cur else some r) (set.make m r s) := by
      intro r
      rw [show (if m ≠ n then cur else some r) = if m = n then some r else cur by by_cases hm : m = n <;> simp [hm]]
      exact ok_make h
    have hbad' : Ok n (if m ≠ n then cur else cur) ⟨set.ensure m s.tbl, s.cmds⟩ := by simpa using hbad
    unfold set
    rw [if_neg hd]
    cases v1 with
    | null => cases v2 with
      | null => exact absurd ⟨rfl, rfl⟩ hd
      | func k => exact hbad'
      | arr k => exact hbad'
      | other k => exact hbad'
    | func f => cases v2 with
      | null => exact hnext ⟨f, none, own⟩
      | arr a => exact hnext ⟨f, some a, own⟩
      | func k => exact hbad'
      | other k => exact hbad'
    | arr k => exact hbad'
    | other k => exact hbad'

theorem ok_run {n : Name} : ∀ (os : List Op) {cur : Option Rec} {s : St}, Ok n cur s → Ok n (os.foldl (next n) cur) (run s os)
  | [], _, _, h => h
  | o :: os, _, _, h => ok_run os (ok_step o h)

theorem ok_start (n : Name) (c : Name → Option Cmd) : Ok n none (start c) :=
  ⟨List.nodup_nil, rfl, fun _ h => by cases h⟩

/-! ## Theorems -/

/-- **C198.** Whatever else was done with `alias` before, by whom and under which names: if the last for `n` that was accepted gave it a
function and arguments, then the command `n` is the alias with them … -/
theorem C198_calls (c : Name → Option Cmd) (os : List Op) (n : Name) (r : Rec) (h : last n os = some r) :
    (run (start c) os).cmds n = some (.alias r) := (ok_run os (ok_start n c)).cmd r h

/-- … `alias(n)` is the function … -/
theorem C198_function (c : Name → Option Cmd) (os : List Op) (n : Name) (r : Rec) (h : last n os = some r) :
    funcOf n (run (start c) os) = .val (.func r.func) := by
  have e := (ok_run os (ok_start n c)).entry
  rw [show os.foldl (next n) none = some r from h] at e
  unfold funcOf
  cases hf : find n (run (start c) os).tbl with
  | none => rw [hf] at e; cases e
  | some v => cases v with
    | none => rw [hf] at e; cases e
    | some q => rw [hf] at e; cases e; rfl

/-- … and `alias(n, null)` the arguments. -/
theorem C198_arguments (c : Name → Option Cmd) (os : List Op) (n : Name) (r : Rec) (h : last n os = some r) :
    argsOf n .null (run (start c) os) = match r.args with | none => .undef | some a => .val (.arr a) := by
  have e := (ok_run os (ok_start n c)).entry
  rw [show os.foldl (next n) none = some r from h] at e
  unfold argsOf
  cases hf : find n (run (start c) os).tbl with
  | none => rw [hf] at e; cases e
  | some v => cases v with
    | none => rw [hf] at e; cases e
    | some q => rw [hf] at e; cases e; rfl

/-- **C198** … a name that was not used is what it was. -/
theorem C198_others : ∀ (os : List Op) (s : St) (n : Name) (_ : ∀ o ∈ os, o.name ≠ n),
    (run s os).cmds n = s.cmds n ∧ find n (run s os).tbl = find n s.tbl
  | [], _, _, _ => ⟨rfl, rfl⟩
  | o :: os, s, n, h => by
    obtain ⟨own, m, v1, v2⟩ := o
    have hm : m ≠ n := h _ (List.mem_cons_self ..)
    have hn : ¬(n = m) := fun e => hm e.symm
    obtain ⟨i1, i2⟩ := C198_others os (set own m v1 v2 s).1 n (fun o ho => h o (List.mem_cons_of_mem _ ho))
    have mk : ∀ r, (set.make m r s).cmds n = s.cmds n ∧ find n (set.make m r s).tbl = find n s.tbl := by
      intro r
      refine ⟨?_, ?_⟩
      · unfold set.make setCmd
        dsimp only
        rw [if_neg hn]
        cases find m s.tbl with
        | none => rfl
        | some e => cases e with
          | none => rfl
          | some o => simp [free, setCmd, hn]
      · show find n (put m (some r) s.tbl) = _
        rw [find_put, if_neg hm]
    have en : s.cmds n = s.cmds n ∧ find n (set.ensure m s.tbl) = find n s.tbl := by
      refine ⟨rfl, ?_⟩
      rw [find_ensure, if_neg (fun h => hm h.1)]
    have step : (set own m v1 v2 s).1.cmds n = s.cmds n ∧ find n (set own m v1 v2 s).1.tbl = find n s.tbl := by
      unfold set
      by_cases hd : v1 = .null ∧ v2 = .null
      · rw [if_pos hd]
        unfold delete
        cases find m s.tbl with
        | none => exact ⟨rfl, rfl⟩
        | some e => cases e with
          | none => exact ⟨rfl, rfl⟩
          | some r =>
            refine ⟨?_, find_del_other m n hm _⟩
            show free s.cmds m r n = _
            rw [free, setCmd, if_neg hn]
      · rw [if_neg hd]
        cases v1 with
        | null => cases v2 with
          | null => exact absurd ⟨rfl, rfl⟩ hd
          | func k => exact en
          | arr k => exact en
          | other k => exact en
        | func f => cases v2 with
          | null => exact mk _
          | arr a => exact mk _
          | func k => exact en
          | other k => exact en
        | arr k => exact en
        | other k => exact en
    exact ⟨i1.trans step.1, i2.trans step.2⟩

/-- **C198** … other arguments are refused, and no command and no alias changes. -/
theorem C198_refused (s : St) (o : Op) (h : ¬Proper o) :
    (set o.own o.name o.func o.args s).2 = .error ∧ (set o.own o.name o.func o.args s).1.cmds = s.cmds ∧
    ∀ n, (find n (set o.own o.name o.func o.args s).1.tbl).join = (find n s.tbl).join := by
  obtain ⟨own, m, v1, v2⟩ := o
  have hd : ¬(v1 = .null ∧ v2 = .null) := fun hd => h (Or.inl hd)
  have en : ∀ n, (find n (set.ensure m s.tbl)).join = (find n s.tbl).join := by
    intro n
    rw [find_ensure]
    by_cases hc : m = n ∧ find m s.tbl = none
    · rw [if_pos hc, ← hc.1, hc.2]; rfl
    · rw [if_neg hc]
  dsimp only
  unfold set
  rw [if_neg hd]
  cases v1 with
  | null => cases v2 with
    | null => exact absurd ⟨rfl, rfl⟩ hd
    | func k => exact ⟨rfl, rfl, en⟩
    | arr k => exact ⟨rfl, rfl, en⟩
    | other k => exact ⟨rfl, rfl, en⟩
  | func f => cases v2 with
    | null => exact absurd (Or.inr ⟨f, rfl, Or.inl rfl⟩) h
    | arr a => exact absurd (Or.inr ⟨f, rfl, Or.inr ⟨a, rfl⟩⟩) h
    | func k => exact ⟨rfl, rfl, en⟩
    | other k => exact ⟨rfl, rfl, en⟩
  | arr k => exact ⟨rfl, rfl, en⟩
  | other k => exact ⟨rfl, rfl, en⟩

/-- No entry without an alias. -/
def Full (s : St) : Prop := ∀ n, find n s.tbl ≠ some none

theorem full_step {s : St} {o : Op} (hp : Proper o) (h : Full s) (hn : (names s).Nodup) : Full (set o.own o.name o.func o.args s).1 := by
  obtain ⟨own, m, v1, v2⟩ := o
  have mk : ∀ r, Full (set.make m r s) := by
    intro r n
    show find n (put m (some r) s.tbl) ≠ _
    rw [find_put]
    by_cases hm : m = n
    · rw [if_pos hm]; simp
    · rw [if_neg hm]; exact h n
  rcases hp with ⟨h1, h2⟩ | ⟨f, h1, h2⟩
  · simp only at h1 h2
    subst h1 h2
    show Full (set own m .null .null s).1
    rw [show (set own m .null .null s) = delete m s by unfold set; rw [if_pos ⟨rfl, rfl⟩]]
    unfold delete
    cases hf : find m s.tbl with
    | none => exact h
    | some e => cases e with
      | none => exact h
      | some r =>
        intro n
        show find n (del m s.tbl) ≠ _
        by_cases hm : m = n
        · rw [← hm, find_del m _ hn]; simp
        · rw [find_del_other m n hm]; exact h n
  · simp only at h1 h2
    subst h1
    rcases h2 with h2 | ⟨a, h2⟩
    · subst h2; exact mk ⟨f, none, own⟩
    · subst h2; exact mk ⟨f, some a, own⟩

theorem full_run {n : Name} : ∀ (os : List Op) {cur : Option Rec} {s : St}, (∀ o ∈ os, Proper o) → Ok n cur s → Full s → Full (run s os)
  | [], _, _, _, _, h => h
  | o :: os, _, _, hp, hk, h =>
    full_run os (fun o' h' => hp o' (List.mem_cons_of_mem _ h')) (ok_step o hk) (full_step (hp o (List.mem_cons_self ..)) h hk.nodup)

theorem entry_of_full {c : Name → Option Cmd} {os : List Op} (n : Name) (hp : ∀ o ∈ os, Proper o) :
    find n (run (start c) os).tbl = (last n os).map some := by
  have e : (find n (run (start c) os).tbl).join = last n os := (ok_run os (ok_start n c)).entry
  have hf : Full (run (start c) os) := full_run os hp (ok_start n c) (fun n => by simp [start, find])
  cases h : find n (run (start c) os).tbl with
  | none => rw [h] at e; rw [← e]; rfl
  | some v => cases v with
    | none => exact absurd h (hf n)
    | some r => rw [h] at e; rw [← e]; rfl

/-- **C198 (part).** If nothing was refused, `alias()` gives the names of the aliases, each once, … -/
theorem C198_names_partial (c : Name → Option Cmd) (os : List Op) (hp : ∀ o ∈ os, Proper o) :
    (names (run (start c) os)).Nodup ∧ ∀ n, n ∈ names (run (start c) os) ↔ last n os ≠ none := by
  refine ⟨(ok_run os (ok_start [] c)).nodup, fun n => ?_⟩
  have h := entry_of_full (c := c) n hp
  have h2 := find_none n (run (start c) os).tbl
  rw [h] at h2
  unfold names
  constructor
  · intro hm hl
    rw [hl] at h2
    exact (h2.1 rfl) hm
  · intro hl
    by_cases hm : n ∈ (run (start c) os).tbl.map (·.1)
    · exact hm
    · have := h2.2 hm
      cases hq : last n os with
      | none => exact absurd hq hl
      | some r => rw [hq] at this; cases this

/-- … and for a name that is none `alias(n)` and `alias(n, v)` give undefined. -/
theorem C198_none_partial (c : Name → Option Cmd) (os : List Op) (n : Name) (v : Arg) (hp : ∀ o ∈ os, Proper o) (h : last n os = none) :
    funcOf n (run (start c) os) = .undef ∧ argsOf n v (run (start c) os) = .undef := by
  have e := entry_of_full (c := c) n hp
  rw [h] at e
  unfold funcOf argsOf
  rw [e]
  exact ⟨rfl, rfl⟩

/-- **C198 (part).** An alias made by another interpreter, deleted: there is no such command, and no such alias. -/
theorem C198_deleted_partial (c : Name → Option Cmd) (os : List Op) (n : Name) (own : Bool) (r : Rec) (h : last n os = some r) (ho : r.own = false) :
    (set own n .null .null (run (start c) os)).2 = .undef ∧
    (set own n .null .null (run (start c) os)).1.cmds n = none ∧
    n ∉ names (set own n .null .null (run (start c) os)).1 := by
  have k := ok_run os (ok_start n c)
  have e := k.entry
  rw [show os.foldl (next n) none = some r from h] at e
  have hf : find n (run (start c) os).tbl = some (some r) := by
    cases hf : find n (run (start c) os).tbl with
    | none => rw [hf] at e; cases e
    | some v => cases v with
      | none => rw [hf] at e; cases e
      | some q => rw [hf] at e; cases e; rfl
  rw [show set own n .null .null (run (start c) os) = delete n (run (start c) os) by unfold set; rw [if_pos ⟨rfl, rfl⟩]]
  unfold delete
  rw [hf]
  refine ⟨rfl, ?_, ?_⟩
  · show free _ n r n = none
    simp [free, setCmd, ho]
  · show n ∉ (del n _).map (·.1)
    rw [← find_none]
    exact find_del n _ k.nodup

/-! ## Where it is not so -/

/-- **C198 refuted.** `alias('x', 5, null)` is refused, but then `alias()` has the name x, `alias('x')` and `alias('x', null, null)`
are errors without a message, and x cannot be deleted. -/
theorem C198_names_refuted (c : Name → Option Cmd) :
    (set false (asc "x") (.other 5) .null (start c)).2 = .error ∧
    names (set false (asc "x") (.other 5) .null (start c)).1 = [asc "x"] ∧
    funcOf (asc "x") (set false (asc "x") (.other 5) .null (start c)).1 = .silent ∧
    (set false (asc "x") .null .null (set false (asc "x") (.other 5) .null (start c)).1).2 = .silent ∧
    names (set false (asc "x") .null .null (set false (asc "x") (.other 5) .null (start c)).1).1 = [asc "x"] :=
  ⟨rfl, rfl, rfl, rfl, rfl⟩

/-- **C198 refuted.** The command of a deleted alias that an interpreter gave itself is still there; to call it reads through a NULL
pointer (src/jsiInterp.c:281). -/
theorem C198_deleted_refuted (c : Name → Option Cmd) (f : Nat) :
    (run (start c) [⟨true, asc "x", .func f, .null⟩, ⟨true, asc "x", .null, .null⟩]).cmds (asc "x") = some .dead ∧
    last (asc "x") [⟨true, asc "x", .func f, .null⟩, ⟨true, asc "x", .null, .null⟩] = none := by
  constructor <;> rfl

/-! ## Cases -/

/-- Some uses of `alias`. -/
def hist : List Op := [⟨false, asc "x", .func 1, .null⟩, ⟨true, asc "y", .func 2, .arr 3⟩, ⟨false, asc "x", .func 4, .arr 5⟩,
  ⟨false, asc "y", .null, .null⟩]

example : last (asc "x") hist = some ⟨4, some 5, false⟩ ∧ last (asc "y") hist = none := by constructor <;> rfl

example : (run (start fun _ => none) hist).cmds (asc "x") = some (.alias ⟨4, some 5, false⟩) :=
  C198_calls _ hist _ _ rfl

example : ∀ o ∈ hist, Proper o := by
  intro o ho
  simp only [hist, List.mem_cons, List.mem_nil_iff, or_false] at ho
  rcases ho with rfl | rfl | rfl | rfl
  · exact Or.inr ⟨1, rfl, Or.inl rfl⟩
  · exact Or.inr ⟨2, rfl, Or.inr ⟨3, rfl⟩⟩
  · exact Or.inr ⟨4, rfl, Or.inr ⟨5, rfl⟩⟩
  · exact Or.inl ⟨rfl, rfl⟩

example : names (run (start fun _ => none) hist) = [asc "x"] := rfl

example : ¬Proper ⟨false, asc "x", .func 1, .other 2⟩ := by
  rintro (⟨h, _⟩ | ⟨f, _, h | ⟨a, h⟩⟩) <;> cases h

end Verif.Alias
