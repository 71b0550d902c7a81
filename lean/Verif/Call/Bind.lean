import Verif.Call.Model
/-!
# Parameters, and what calls share (C117, C118)
-/
namespace Verif.Call

/-! ## Specification -/

/-- The body is reached: there is a state in which it starts, whatever the body is, and what comes out is what
the body gives (up to the check of the value returned). -/
def Starts (call : Body → (Chk × Heap) × Option Val) (f : Fn) (o : Nat) (this : Val) (cons : Bool) (e : Chk × Heap) : Prop :=
  ∀ body, call body = checkRet f cons (body o this e)

/-- The call is refused: an exception, and the body plays no part. -/
def Refused (call : Body → (Chk × Heap) × Option Val) : Prop := ∃ e, ∀ body, call body = (e, none)

/-- The value of a variable of a scope. -/
def var (h : Heap) (o : Nat) (nm : Name) : Option Val := ((h.objs o).names nm).map h.val

/-- What a parameter is to be: the argument at its place, else its default, else undefined. -/
def expected (p : Param) (arg : Option Val) : Val :=
  match arg, p.dflt with
  | some v, _ => v
  | none, some d => d.val
  | none, none => .undef

/-- The cells of the arguments exist. -/
def CellsOk (h : Heap) (o : Nat) : Prop := ∀ c, some c ∈ (h.objs o).elems → c < h.next

/-! ## What does not change -/

/-- `h'` comes from `h` by making cells and giving names from `N` to cells, in the object `o`. -/
structure Ext (o : Nat) (N : Name → Prop) (h h' : Heap) : Prop where
  next : h.next ≤ h'.next
  nextObj : h'.nextObj = h.nextObj
  val : ∀ c, c < h.next → h'.val c = h.val c
  objs : ∀ k, k ≠ o → h'.objs k = h.objs k
  elems : (h'.objs o).elems = (h.objs o).elems
  names : ∀ n, ¬ N n → (h'.objs o).names n = (h.objs o).names n

theorem Ext.refl (o : Nat) (N : Name → Prop) (h : Heap) : Ext o N h h :=
  ⟨Nat.le_refl _, rfl, fun _ _ => rfl, fun _ _ => rfl, rfl, fun _ _ => rfl⟩

theorem Ext.trans {o : Nat} {N M : Name → Prop} {a b c : Heap} (h1 : Ext o N a b) (h2 : Ext o M b c) (hM : ∀ n, N n → M n) :
    Ext o M a c :=
  ⟨Nat.le_trans h1.next h2.next, h2.nextObj.trans h1.nextObj,
   fun k hk => (h2.val k (Nat.lt_of_lt_of_le hk h1.next)).trans (h1.val k hk),
   fun k hk => (h2.objs k hk).trans (h1.objs k hk), h2.elems.trans h1.elems,
   fun n hn => (h2.names n hn).trans (h1.names n (fun h => hn (hM n h)))⟩

theorem Ext.mono {o : Nat} {N M : Name → Prop} {a b : Heap} (h1 : Ext o N a b) (hM : ∀ n, N n → M n) : Ext o M a b :=
  h1.trans (Ext.refl o M b) hM

theorem insert_ext (h : Heap) (o : Nat) (nm : Name) (c : Nat) : Ext o (· = nm) h (insert h o nm c) := by
  refine ⟨Nat.le_refl _, rfl, fun _ _ => rfl, ?_, ?_, ?_⟩
  · intro k hk; simp [insert, hk]
  · simp [insert]
  · intro n hn; simp [insert, hn]

theorem insert_self (h : Heap) (o : Nat) (nm : Name) (c : Nat) : ((insert h o nm c).objs o).names nm = some c := by simp [insert]

theorem newCell_ext (h : Heap) (o : Nat) (v : Val) (N : Name → Prop) : Ext o N h (newCell h v).1 := by
  refine ⟨Nat.le_succ _, rfl, ?_, fun _ _ => rfl, rfl, fun _ _ => rfl⟩
  intro c hc; simp [newCell, Nat.ne_of_lt hc]

theorem insertNew_ext (h : Heap) (o : Nat) (nm : Name) (v : Val) : Ext o (· = nm) h (insertNew h o nm v) :=
  (newCell_ext h o v (· = nm)).trans (insert_ext _ o nm _) (fun _ h => h)

theorem insertNew_self (h : Heap) (o : Nat) (nm : Name) (v : Val) : ((insertNew h o nm v).objs o).names nm = some h.next := by
  simp [insertNew, insert_self, newCell]

theorem insertNew_val (h : Heap) (o : Nat) (nm : Name) (v : Val) : (insertNew h o nm v).val h.next = v := by
  simp [insertNew, insert, newCell]

theorem insertNew_next (h : Heap) (o : Nat) (nm : Name) (v : Val) : (insertNew h o nm v).next = h.next + 1 := rfl

/-- The memory part of one round. -/
def bindH (o i : Nat) (p : Param) (h : Heap) : Heap :=
  match argCell h o i with
  | some c => insert h o p.name c
  | none => insertNew h o p.name (expected p none)

theorem bindOne_heap (o i : Nat) (p : Param) (s : Chk × Bool × Heap) : (bindOne o i p s).2.2 = bindH o i p s.2.2 := by
  unfold bindOne bindH expected
  cases argCell s.2.2 o i with
  | some c => dsimp only; split <;> rfl
  | none => cases p.dflt with
    | none => rfl
    | some d => dsimp only; split <;> rfl

/-- The memory part of the loop. -/
def bindHs (o : Nat) : Nat → List Param → Heap → Heap
  | _, [], h => h
  | i, p :: ps, h => bindHs o (i + 1) ps (bindH o i p h)

theorem bindAll_heap (o : Nat) (ps : List Param) : ∀ (i : Nat) (s : Chk × Bool × Heap), (bindAll o i ps s).2.2 = bindHs o i ps s.2.2 := by
  induction ps with
  | nil => intro i s; rfl
  | cons p ps ih => intro i s; show (bindAll o (i + 1) ps (bindOne o i p s)).2.2 = _; rw [ih, bindOne_heap]; rfl

theorem bindH_ext (o i : Nat) (p : Param) (h : Heap) : Ext o (· = p.name) h (bindH o i p h) := by
  unfold bindH
  cases argCell h o i with
  | some c => exact insert_ext h o _ c
  | none => exact insertNew_ext h o _ _

theorem bindHs_ext (o : Nat) (ps : List Param) : ∀ (i : Nat) (h : Heap), Ext o (· ∈ ps.map (·.name)) h (bindHs o i ps h) := by
  induction ps with
  | nil => intro i h; exact (Ext.refl o _ h)
  | cons p ps ih =>
    intro i h
    exact ((bindH_ext o i p h).mono (M := (· ∈ (p :: ps).map (·.name))) (by intro n hn; simp [hn])).trans
      ((ih (i + 1) (bindH o i p h)).mono (M := (· ∈ (p :: ps).map (·.name))) (by intro n hn; simp at hn ⊢; exact Or.inr hn))
      (fun _ h => h)

theorem Ext.argCell {o : Nat} {N : Name → Prop} {h h' : Heap} (e : Ext o N h h') (i : Nat) : argCell h' o i = argCell h o i := by
  unfold Call.argCell; rw [e.elems]

theorem argCell_lt {h : Heap} {o i c : Nat} (hc : CellsOk h o) (e : argCell h o i = some c) : c < h.next := by
  apply hc
  unfold argCell at e
  cases hg : (h.objs o).elems[i]? with
  | none => rw [hg] at e; cases e
  | some x =>
    rw [hg] at e
    cases x with
    | none => cases e
    | some d =>
      have : d = c := by simpa using e
      subst this
      exact List.mem_of_getElem? hg

theorem Ext.cellsOk {o : Nat} {N : Name → Prop} {h h' : Heap} (e : Ext o N h h') (hc : CellsOk h o) : CellsOk h' o := by
  intro c hm; rw [e.elems] at hm; exact Nat.lt_of_lt_of_le (hc c hm) e.next

theorem Ext.argVal {o : Nat} {N : Name → Prop} {h h' : Heap} (e : Ext o N h h') (hc : CellsOk h o) (i : Nat) : argVal h' o i = argVal h o i := by
  unfold Call.argVal
  rw [e.argCell i]
  cases he : Call.argCell h o i with
  | none => rfl
  | some c => simp [e.val c (argCell_lt hc he)]

/-- One round gives the parameter its cell, and the cell exists. -/
theorem bindH_get (o i : Nat) (p : Param) (h : Heap) (hc : CellsOk h o) :
    ∃ c, ((bindH o i p h).objs o).names p.name = some c ∧ c < (bindH o i p h).next ∧ (bindH o i p h).val c = expected p (argVal h o i) := by
  unfold bindH argVal
  cases he : argCell h o i with
  | some c =>
    have hlt : c < h.next := argCell_lt hc he
    exact ⟨c, insert_self h o _ c, hlt, by simp [insert, expected]⟩
  | none => exact ⟨h.next, insertNew_self h o _ _, Nat.lt_succ_self _, insertNew_val h o _ _⟩

theorem bindHs_get (o : Nat) (ps : List Param) : ∀ (i : Nat) (h : Heap), CellsOk h o → (ps.map (·.name)).Nodup →
    ∀ j p, ps[j]? = some p → ∃ c, ((bindHs o i ps h).objs o).names p.name = some c ∧ c < (bindHs o i ps h).next
      ∧ (bindHs o i ps h).val c = expected p (argVal h o (i + j)) := by
  induction ps with
  | nil => intro i h _ _ j p e; simp at e
  | cons q ps ih =>
    intro i h hc hn j p e
    have hn' := List.nodup_cons.mp (by simpa using hn : (q.name :: ps.map (·.name)).Nodup)
    have hx := bindHs_ext o ps (i + 1) (bindH o i q h)
    cases j with
    | zero =>
      have : q = p := by simpa using e
      subst this
      obtain ⟨c, h1, h2, h3⟩ := bindH_get o i q h hc
      refine ⟨c, ?_, Nat.lt_of_lt_of_le h2 hx.next, (hx.val c h2).trans h3⟩
      show ((bindHs o (i + 1) ps (bindH o i q h)).objs o).names q.name = some c
      rw [hx.names q.name hn'.1, h1]
    | succ j =>
      have hb := bindH_ext o i q h
      obtain ⟨c, h1, h2, h3⟩ := ih (i + 1) (bindH o i q h) (hb.cellsOk hc) hn'.2 j p (by simpa using e)
      refine ⟨c, h1, h2, ?_⟩
      rw [hb.argVal hc] at h3
      have : i + 1 + j = i + (j + 1) := by omega
      rw [this] at h3
      exact h3

theorem initLocals_ext (o : Nat) (ns : List Name) : ∀ h, Ext o (· ∈ ns) h (initLocals o ns h) := by
  induction ns with
  | nil => intro h; exact Ext.refl o _ h
  | cons n ns ih =>
    intro h
    exact ((insertNew_ext h o n .undef).mono (M := (· ∈ n :: ns)) (by intro m hm; simp [hm])).trans
      ((ih (insertNew h o n .undef)).mono (M := (· ∈ n :: ns)) (by intro m hm; simp [hm])) (fun _ h => h)

theorem initLocals_get (o : Nat) (ns : List Name) : ∀ h, ∀ n ∈ ns, ∃ c, ((initLocals o ns h).objs o).names n = some c
    ∧ c < (initLocals o ns h).next ∧ (initLocals o ns h).val c = .undef := by
  induction ns with
  | nil => intro h n hn; simp at hn
  | cons m ns ih =>
    intro h n hn
    by_cases hm : n ∈ ns
    · exact ih (insertNew h o m .undef) n hm
    · have : n = m := by simpa [hm] using hn
      subst this
      have hx := initLocals_ext o ns (insertNew h o n .undef)
      refine ⟨h.next, ?_, Nat.lt_of_lt_of_le (Nat.lt_succ_self _) hx.next, ?_⟩
      · show ((initLocals o ns (insertNew h o n .undef)).objs o).names n = _
        rw [hx.names n hm, insertNew_self]
      · show (initLocals o ns (insertNew h o n .undef)).val h.next = _
        rw [hx.val h.next (Nat.lt_succ_self _), insertNew_val]

/-- The memory in which the body starts. -/
def entry (f : Fn) (o : Nat) (h : Heap) : Heap := initLocals o f.locals (bindHs o 0 f.ps.args h)

theorem share_heap (f : Fn) (o : Nat) (s : Chk × Heap) : (share f o s).2.2 = bindHs o 0 f.ps.args s.2 := bindAll_heap o _ 0 _

theorem callSub_cases (f : Fn) (o : Nat) (this : Val) (cons : Bool) (s : Chk × Heap) :
    ((share f o s).2.1 = true ∧ Starts (callSub f · o this cons s) f o this cons ((share f o s).1, entry f o s.2))
    ∨ ((share f o s).2.1 = false ∧ Refused (callSub f · o this cons s)) := by
  cases hs : (share f o s).2.1 with
  | true =>
    refine Or.inl ⟨rfl, fun body => ?_⟩
    show callSub f body o this cons s = _
    unfold callSub entry
    rw [if_pos hs, share_heap]
  | false =>
    refine Or.inr ⟨rfl, ((share f o s).1, (share f o s).2.2), fun body => ?_⟩
    show callSub f body o this cons s = _
    unfold callSub
    rw [if_neg (by simp [hs])]

theorem entry_ext (f : Fn) (o : Nat) (h : Heap) : Ext o (fun n => n ∈ f.ps.args.map (·.name) ∨ n ∈ f.locals) h (entry f o h) :=
  ((bindHs_ext o f.ps.args 0 h).mono (fun _ hn => Or.inl hn)).trans
    ((initLocals_ext o f.locals _).mono (fun _ hn => Or.inr hn)) (fun _ h => h)

/-- **C117.** A call by any means (`o` is the array of its arguments) is either refused, its body playing no part,
or its body starts in a memory where every parameter has the value of the argument at its place, or its
default when there is none, or undefined; every local variable is undefined; names that are neither were not
touched, and the array still has its elements with their values.  Parameters and local variables have different
names (the parser sees to that unless `noCheck` is set, src/jsiFunc.c:518-550). -/
theorem C117_parameters (f : Fn) (o : Nat) (this : Val) (cons : Bool) (s : Chk × Heap) (hc : CellsOk s.2 o)
    (hn : (f.ps.args.map (·.name)).Nodup) (hl : ∀ n ∈ f.locals, n ∉ f.ps.args.map (·.name)) :
    Refused (callSub f · o this cons s) ∨ ∃ c' h', Starts (callSub f · o this cons s) f o this cons (c', h')
      ∧ (∀ i p, f.ps.args[i]? = some p → var h' o p.name = some (expected p (argVal s.2 o i)))
      ∧ (∀ n ∈ f.locals, var h' o n = some .undef)
      ∧ (∀ n, n ∉ f.ps.args.map (·.name) → n ∉ f.locals → (h'.objs o).names n = (s.2.objs o).names n)
      ∧ (h'.objs o).elems = (s.2.objs o).elems ∧ (∀ i, argVal h' o i = argVal s.2 o i) := by
  rcases callSub_cases f o this cons s with ⟨_, h⟩ | ⟨_, h⟩
  · refine Or.inr ⟨_, _, h, ?_, ?_, ?_, (entry_ext f o s.2).elems, (entry_ext f o s.2).argVal hc⟩
    · intro i p hp
      obtain ⟨c, h1, h2, h3⟩ := bindHs_get o f.ps.args 0 s.2 hc hn i p hp
      have hx := initLocals_ext o f.locals (bindHs o 0 f.ps.args s.2)
      have hnl : p.name ∉ f.locals := fun hm => hl _ hm (List.mem_map.mpr ⟨p, List.mem_of_getElem? hp, rfl⟩)
      unfold var entry
      rw [hx.names _ hnl, h1]
      simp only [Option.map_some, hx.val c h2, h3, Nat.zero_add]
    · intro n hm
      obtain ⟨c, h1, _, h3⟩ := initLocals_get o f.locals (bindHs o 0 f.ps.args s.2) n hm
      unfold var entry
      rw [h1]; simp [h3]
    · intro n h1 h2
      exact (entry_ext f o s.2).names n (by rintro (h | h); exact h1 h; exact h2 h)
  · exact Or.inl h

/-! ## What calls share (C118) -/

/-- Cells made for values are new ones. -/
theorem newCells_spec (vs : List Val) : ∀ h : Heap, h.next ≤ (newCells vs h).1.next ∧ (newCells vs h).1.nextObj = h.nextObj
    ∧ (newCells vs h).1.objs = h.objs ∧ (∀ c, c < h.next → (newCells vs h).1.val c = h.val c)
    ∧ (∀ c, some c ∈ (newCells vs h).2 → h.next ≤ c ∧ c < (newCells vs h).1.next)
    ∧ (newCells vs h).2.length = vs.length
    ∧ (∀ i : Nat, (((newCells vs h).2[i]?).join).map (newCells vs h).1.val = vs[i]?) := by
  induction vs with
  | nil => intro h; refine ⟨Nat.le_refl _, rfl, rfl, fun _ _ => rfl, ?_, rfl, ?_⟩
           · intro c hc; simp [newCells] at hc
           · intro i; simp [newCells]
  | cons v vs ih =>
    intro h
    obtain ⟨a1, a2, a3, a4, a5, a6, a7⟩ := ih (newCell h v).1
    have hnx : (newCell h v).1.next = h.next + 1 := rfl
    refine ⟨?_, a2, a3, ?_, ?_, by simp [newCells, a6], ?_⟩
    · show h.next ≤ (newCells vs (newCell h v).1).1.next; omega
    · intro c hc
      show (newCells vs (newCell h v).1).1.val c = _
      rw [a4 c (by omega)]; simp [newCell, Nat.ne_of_lt hc]
    · intro c hc
      show h.next ≤ c ∧ c < (newCells vs (newCell h v).1).1.next
      have hc : some c = some (newCell h v).2 ∨ some c ∈ (newCells vs (newCell h v).1).2 := by simpa [newCells] using hc
      rcases hc with hc | hc
      · have : c = h.next := Option.some.inj hc
        omega
      · have := a5 c hc; omega
    · intro i
      cases i with
      | zero =>
        show some ((newCells vs (newCell h v).1).1.val (newCell h v).2) = some v
        rw [show (newCell h v).2 = h.next from rfl, a4 h.next (by omega)]
        simp [newCell]
      | succ i =>
        have := a7 i
        simpa [newCells] using this

theorem argArr_objs (h : Heap) (vs : List Val) (k : Nat) (hk : k ≠ h.nextObj) : (argArr h vs).1.objs k = h.objs k := by
  have hs := newCells_spec vs h
  unfold argArr newArr
  rw [hs.2.1, hs.2.2.1]
  simp [hk]

theorem argArr_spec (h : Heap) (vs : List Val) : (argArr h vs).2 = h.nextObj ∧ h.next ≤ (argArr h vs).1.next
    ∧ (argArr h vs).1.nextObj = h.nextObj + 1 ∧ (∀ c, c < h.next → (argArr h vs).1.val c = h.val c)
    ∧ (∀ k, k ≠ h.nextObj → (argArr h vs).1.objs k = h.objs k)
    ∧ ((argArr h vs).1.objs h.nextObj).names = (fun _ => none)
    ∧ (∀ c, some c ∈ ((argArr h vs).1.objs h.nextObj).elems → h.next ≤ c ∧ c < (argArr h vs).1.next)
    ∧ ((argArr h vs).1.objs h.nextObj).elems.length = vs.length
    ∧ (∀ i : Nat, argVal (argArr h vs).1 h.nextObj i = vs[i]?) := by
  obtain ⟨a1, a2, a3, a4, a5, a6, a7⟩ := newCells_spec vs h
  have ho : (argArr h vs).1.objs h.nextObj = ⟨(newCells vs h).2, fun _ => none⟩ := by
    unfold argArr newArr; rw [a2]; simp
  refine ⟨a2, a1, ?_, a4, argArr_objs h vs, by rw [ho], ?_, by rw [ho]; exact a6, ?_⟩
  · show (newCells vs h).1.nextObj + 1 = _; rw [a2]
  · rw [ho]; exact a5
  · intro i
    unfold argVal argCell; rw [ho]; exact a7 i

/-- All variables of the scope live in cells from `b` on. -/
def Above (h : Heap) (o b : Nat) : Prop := (∀ n c, (h.objs o).names n = some c → b ≤ c) ∧ (∀ c, some c ∈ (h.objs o).elems → b ≤ c)

theorem insert_above {h : Heap} {o b : Nat} (ha : Above h o b) (nm : Name) {c : Nat} (hc : b ≤ c) : Above (insert h o nm c) o b := by
  refine ⟨?_, ?_⟩
  · intro n d hd
    simp only [insert, if_true] at hd
    split at hd
    · cases hd; exact hc
    · exact ha.1 n d hd
  · intro d hd
    have := (insert_ext h o nm c).elems
    rw [this] at hd
    exact ha.2 d hd

theorem insertNew_above {h : Heap} {o b : Nat} (ha : Above h o b) (nm : Name) (v : Val) (hb : b ≤ h.next) : Above (insertNew h o nm v) o b :=
  insert_above (h := (newCell h v).1) ha nm (c := (newCell h v).2) hb

theorem argCell_mem {h : Heap} {o i c : Nat} (e : argCell h o i = some c) : some c ∈ (h.objs o).elems := by
  unfold argCell at e
  cases hg : (h.objs o).elems[i]? with
  | none => rw [hg] at e; cases e
  | some x =>
    rw [hg] at e
    have : x = some c := by simpa using e
    subst this
    exact List.mem_of_getElem? hg

theorem bindH_above {h : Heap} {o b : Nat} (ha : Above h o b) (i : Nat) (p : Param) (hb : b ≤ h.next) : Above (bindH o i p h) o b := by
  unfold bindH
  cases he : argCell h o i with
  | some c => exact insert_above ha _ (ha.2 c (argCell_mem he))
  | none => exact insertNew_above ha _ _ hb

theorem bindHs_above (o b : Nat) (ps : List Param) : ∀ (i : Nat) (h : Heap), Above h o b → b ≤ h.next → Above (bindHs o i ps h) o b := by
  induction ps with
  | nil => intro i h ha _; exact ha
  | cons p ps ih => intro i h ha hb; exact ih (i + 1) _ (bindH_above ha i p hb) (Nat.le_trans hb (bindH_ext o i p h).next)

theorem initLocals_above (o b : Nat) (ns : List Name) : ∀ h, Above h o b → b ≤ h.next → Above (initLocals o ns h) o b := by
  induction ns with
  | nil => intro h ha _; exact ha
  | cons n ns ih => intro h ha hb; exact ih _ (insertNew_above ha n .undef hb) (Nat.le_trans hb (insertNew_ext h o n .undef).next)

theorem entry_above {f : Fn} {o b : Nat} {h : Heap} (ha : Above h o b) (hb : b ≤ h.next) : Above (entry f o h) o b :=
  initLocals_above o b f.locals _ (bindHs_above o b f.ps.args 0 h ha hb) (Nat.le_trans hb (bindHs_ext o f.ps.args 0 h).next)

/-- Assignments to the variables of a scope. -/
def assigns (h : Heap) (o : Nat) (ws : List (Name × Val)) : Heap := ws.foldl (fun g w => assign g o w) h

theorem assign_objs (h : Heap) (o : Nat) (w : Name × Val) : (assign h o w).objs = h.objs := by
  unfold assign; cases (h.objs o).names w.1 <;> rfl

theorem assigns_objs (o : Nat) (ws : List (Name × Val)) : ∀ h, (assigns h o ws).objs = h.objs := by
  induction ws with
  | nil => intro h; rfl
  | cons w ws ih => intro h; exact (ih (assign h o w)).trans (assign_objs h o w)

theorem assign_val {h : Heap} {o b c : Nat} (w : Name × Val) (ha : Above h o b) (hc : c < b) : (assign h o w).val c = h.val c := by
  unfold assign
  cases he : (h.objs o).names w.1 with
  | none => rfl
  | some d =>
    have := ha.1 w.1 d he
    have hcd : c ≠ d := by omega
    simp [hcd]

theorem assigns_val {o b c : Nat} (ws : List (Name × Val)) (hc : c < b) : ∀ h, Above h o b → (assigns h o ws).val c = h.val c := by
  induction ws with
  | nil => intro h _; rfl
  | cons w ws ih =>
    intro h ha
    have ha' : Above (assign h o w) o b := by unfold Above; rw [assign_objs]; exact ha
    exact (ih (assign h o w) ha').trans (assign_val w ha hc)

/-- The callee has its own variables: whatever it assigns to its parameters and local variables, every cell and
every array there was before the call is as it was. -/
def Own (h : Heap) (o : Nat) (h' : Heap) : Prop :=
  h.nextObj ≤ o ∧ (∀ c, c < h.next → h'.val c = h.val c) ∧ (∀ k, k < h.nextObj → h'.objs k = h.objs k)
  ∧ ∀ ws, (∀ c, c < h.next → (assigns h' o ws).val c = h.val c) ∧ (∀ k, k < h.nextObj → (assigns h' o ws).objs k = h.objs k)

theorem own_of {f : Fn} {h g : Heap} {o : Nat} (ho : h.nextObj ≤ o) (hn : h.next ≤ g.next) (hv : ∀ c, c < h.next → g.val c = h.val c)
    (hk : ∀ k, k < h.nextObj → g.objs k = h.objs k) (ha : Above g o h.next) : Own h o (entry f o g) := by
  have hx := entry_ext f o g
  have hA := entry_above (f := f) ha hn
  have hv' : ∀ c, c < h.next → (entry f o g).val c = h.val c := fun c hc => (hx.val c (by omega)).trans (hv c hc)
  have hk' : ∀ k, k < h.nextObj → (entry f o g).objs k = h.objs k := fun k hc => (hx.objs k (by omega)).trans (hk k hc)
  refine ⟨ho, hv', hk', fun ws => ⟨fun c hc => (assigns_val ws hc _ hA).trans (hv' c hc), fun k hc => ?_⟩⟩
  rw [assigns_objs]; exact hk' k hc

theorem argArr_above (h : Heap) (vs : List Val) : Above (argArr h vs).1 h.nextObj h.next := by
  have hs := argArr_spec h vs
  refine ⟨?_, fun c hc => (hs.2.2.2.2.2.2.1 c hc).1⟩
  intro n c hc; rw [hs.2.2.2.2.2.1] at hc; cases hc

/-- **C118.** A direct call is by value: it is refused, or its body starts with variables of its own; whatever it
assigns to them changes no variable and no array element its caller had.  The parameters have the values of the
arguments, copied. -/
theorem C118_direct_partial (f : Fn) (vs : List Val) (this : Val) (cons : Bool) (s : Chk × Heap) :
    Refused (fun body => direct f body vs this cons s) ∨ ∃ o c' h',
      Starts (fun body => direct f body vs this cons s) f o this cons (c', h') ∧ Own s.2 o h'
      ∧ (h'.objs o).elems.length = vs.length ∧ ∀ i, argVal h' o i = vs[i]? := by
  have hs := argArr_spec s.2 vs
  have hc : CellsOk (argArr s.2 vs).1 (argArr s.2 vs).2 := by rw [hs.1]; exact fun c hc => (hs.2.2.2.2.2.2.1 c hc).2
  rcases callSub_cases f (argArr s.2 vs).2 this cons (s.1, (argArr s.2 vs).1) with ⟨_, h⟩ | ⟨_, h⟩
  · refine Or.inr ⟨(argArr s.2 vs).2, _, _, h, ?_, ?_, ?_⟩
    · have ha := argArr_above s.2 vs
      rw [hs.1]
      exact own_of (Nat.le_refl _) hs.2.1 hs.2.2.2.1 (fun k hk => hs.2.2.2.2.1 k (by omega)) ha
    · rw [(entry_ext f _ _).elems, hs.1]; exact hs.2.2.2.2.2.2.2.1
    · intro i
      rw [(entry_ext f _ _).argVal hc, hs.1]; exact hs.2.2.2.2.2.2.2.2 i
  · exact Or.inl h

/-- The same for `f.call(th, vs…)`. -/
theorem C118_call_partial (toObj : Val → Val) (top : Val) (f : Fn) (vs : List Val) (s : Chk × Heap) :
    Refused (fun body => viaCall toObj top f body vs s) ∨ ∃ o this c' h',
      Starts (fun body => viaCall toObj top f body vs s) f o this false (c', h') ∧ Own s.2 o h' := by
  have hs := argArr_spec s.2 vs
  rcases callSub_cases f (argArr s.2 vs).2 (pickThis toObj top (argVal (argArr s.2 vs).1 (argArr s.2 vs).2 0)) false
    (s.1, shift (argArr s.2 vs).1 (argArr s.2 vs).2) with ⟨_, h⟩ | ⟨_, h⟩
  · refine Or.inr ⟨(argArr s.2 vs).2, _, _, _, h, ?_⟩
    have ha := argArr_above s.2 vs
    rw [hs.1]
    refine own_of (Nat.le_refl _) hs.2.1 hs.2.2.2.1 ?_ ?_
    · intro k hk
      have : k ≠ s.2.nextObj := by omega
      simp only [shift, this, if_false]
      exact hs.2.2.2.2.1 k this
    · refine ⟨?_, ?_⟩
      · intro n c hc; simp only [shift, if_true] at hc; exact ha.1 n c hc
      · intro c hc; simp only [shift, if_true] at hc; exact ha.2 c (List.mem_of_mem_drop hc)
  · exact Or.inl h

end Verif.Call
