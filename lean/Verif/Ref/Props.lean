import Verif.Ref.Copy
import Mathlib.Data.Fintype.EquivFin
/-!
C40: reference counts equal the number of references.
-/
namespace Verif.Ref

/-- An allowed call does its work and keeps the invariant. -/
theorem exec_ok {s : State} (hs : Ok s) (op : Op) (ha : Allowed s op) : ∃ s', exec s op = some s' ∧ Ok s' := by
  cases op with
  | new =>
    exact ⟨_, rfl, ok_new hs 0 .undef (by intro b; rfl) _ _ (by intro b; simp) (by simp)⟩
  | new1 =>
    refine ⟨_, rfl, ok_new hs 1 .undef (by intro b; rfl) _ _ ?_ (by simp)⟩
    intro b
    simp only [List.count_cons, beq_iff_eq]
    by_cases e : s.heap.length = b
    · subst e; simp
    · have e' : ¬ b = s.heap.length := fun h => e h.symm
      simp [e, e']
  | newObj =>
    exact ⟨_, rfl, ok_new hs 0 (.object [] []) (by intro b; simp [refsIn]) _ _ (by intro b; simp) (by simp)⟩
  | incr a => exact exec_incr hs ha
  | decr a => exact exec_decr hs ha
  | reset v => exact exec_reset hs ha
  | makePrim v n => exact exec_makePrim hs ha
  | makeObject v o => exact exec_makeObject hs ha
  | copy t f => exact exec_copy hs ha
  | move t f => exact exec_move hs ha
  | replace old f => exact exec_replace hs ha
  | pushVar dv v => exact exec_pushVar hs ha
  | arrayAdd o v => exact exec_arrayAdd hs ha
  | arraySet o v n => exact exec_arraySet hs ha
  | insert o key v => exact exec_insert hs ha

theorem reach_ok {s : State} (h : Reach s) : Ok s := by
  induction h with
  | init => 
    refine ⟨?_, ?_, ?_, ?_⟩
    · intro a c hg; simp [get] at hg
    · intro a _; exact ⟨by simp [refsW, total], by simp⟩
    · intro a c hg; simp [get] at hg
    · intro a ha; simp at ha
  | step s s' op _ ha he ih =>
    obtain ⟨t, ht, hok⟩ := exec_ok ih op ha
    rw [ht] at he
    cases he
    exact hok

/-- **C40 (counts, for programs that keep the rules `Allowed`).**  After any such history the count of each value and
object that is alive is the number of references to it.  (Without the rules this is false: see below.) -/
theorem C40_count_is_references_partial {s : State} (h : Reach s) {a : Nat} {c : Cell} (hg : get s.heap a = some c) :
    c.rc = refs s a := by
  rcases (reach_ok h).cnt a c hg with ⟨hc, _⟩ | ⟨_, _, hf⟩
  · rw [hc]; simp [refsW, refs, total]
  · simp at hf

/-- **C40 (no dangling reference).**  What is referred to, by the program or by a cell, has not been freed. -/
theorem C40_referenced_is_live_partial {s : State} (h : Reach s) {a : Nat} (hr : 0 < refs s a) : Live s a := by
  cases hg : get s.heap a with
  | some c => exact ⟨c, hg⟩
  | none =>
    have := ((reach_ok h).dead a hg).1
    simp [refsW, refs, total] at this hr
    omega

/-- **C40 (nothing unreferenced is kept).**  A value or object that nothing refers to has been freed, unless it has been
made and never counted. -/
theorem C40_unreferenced_is_freed_partial {s : State} (h : Reach s) {a : Nat} (hr : refs s a = 0) (hn : a ∉ s.fresh) :
    ¬ Live s a := by
  rintro ⟨c, hg⟩
  have h1 := C40_count_is_references_partial h hg
  exact hn ((reach_ok h).zero a c hg (by rw [h1, hr]; rfl))

/-- **C40 (safe).**  An allowed call uses no freed memory, fails no assertion, and ends. -/
theorem C40_allowed_call_is_safe_partial {s : State} (h : Reach s) (op : Op) (ha : Allowed s op) :
    ∃ s', exec s op = some s' ∧ Reach s' := by
  obtain ⟨t, ht, _⟩ := exec_ok (reach_ok h) op ha
  exact ⟨t, ht, .step s t op h ha ht⟩

/-- **C40 (fresh).**  The count of a cell is zero exactly as long as nobody has counted it. -/
theorem C40_fresh_iff_zero_partial {s : State} (h : Reach s) {a : Nat} : 
    a ∈ s.fresh ↔ ∃ c, get s.heap a = some c ∧ c.rc = 0 := by
  refine ⟨(reach_ok h).fr a, ?_⟩
  rintro ⟨c, hg, h0⟩
  exact (reach_ok h).zero a c hg h0

theorem edge_of_total {h : Heap} {b : Nat} (ht : 0 < total h b) : ∃ a, Edge h a b := by
  unfold total at ht
  have : ∃ x ∈ h.map (cellRefs b), 0 < x := by
    apply Classical.byContradiction
    intro hn
    have hz : ∀ x ∈ h.map (cellRefs b), x = 0 := fun x hx => by
      apply Classical.byContradiction
      intro h0
      exact hn ⟨x, hx, by omega⟩
    have : ∀ l : List Nat, (∀ x ∈ l, x = 0) → l.sum = 0 := by
      intro l
      induction l with
      | nil => intro _; rfl
      | cons y l ih => intro hl; rw [List.sum_cons, hl y List.mem_cons_self, ih fun x hx => hl x (List.mem_cons_of_mem _ hx)]
    have := this _ hz
    omega
  obtain ⟨x, hx, hp⟩ := this
  obtain ⟨c, hc, rfl⟩ := List.mem_map.1 hx
  obtain ⟨i, hi, hi'⟩ := List.getElem_of_mem hc
  cases c with
  | none => simp [cellRefs] at hp
  | some c => exact ⟨i, c, by simp [get, List.getElem?_eq_getElem hi, hi'], hp⟩

/-- **C40 (giving back).**  Giving back the only reference to a value frees it; otherwise it stays alive. -/
theorem C40_decr_frees_last_partial {s s' : State} (h : Reach s) {a : Nat} (ha : a ∈ s.held) (he : exec s (.decr a) = some s') :
    Live s' a ↔ 1 < refs s a := by
  have hs := reach_ok h
  obtain ⟨h', r1, r2, r3, _⟩ := release_inv hs ha
  have e : s' = ⟨h', s.held.erase a, s.fresh⟩ := by
    simp only [exec, r1, Option.map_some] at he
    injection he with he
    exact he.symm
  subst e
  have hpos : 0 < s.held.count a := List.count_pos_iff.2 ha
  have hec := erase_count ha a
  simp only [if_true] at hec
  constructor
  · rintro ⟨c, hg⟩
    have hg' : get h' a = some c := hg
    apply Classical.byContradiction
    intro h1
    have h1' : refs s a = 1 := by unfold refs at h1 ⊢; omega
    have ht : total s.heap a = 0 := by unfold refs at h1'; unfold total; omega
    have hz : ¬ 0 < total h' a := by
      intro hp
      obtain ⟨b, d, hd, hr⟩ := edge_of_total hp
      obtain ⟨d0, hd0, hx⟩ := r3 b d hd
      rcases hx with hx | ⟨hx, _⟩
      · exact rc_ne r2 hd hx
      · have := edge_total (h := s.heap) (a := b) (b := a) ⟨d0, hd0, by rw [← hx]; exact hr⟩
        omega
    rcases r2.cnt a c hg' with ⟨hc, _⟩ | ⟨_, _, hf⟩
    · have hf := r2.zero a c hg' (by
        rw [hc]; unfold refs at h1'; unfold refsW
        have : (s.held.erase a).count a = 0 := by omega
        rw [this]; simp; omega)
      obtain ⟨d, hd, h0⟩ := hs.fr a hf
      have := C40_count_is_references_partial h hd
      omega
    · simp at hf
  · intro h1
    have : 0 < refsW h' (s.held.erase a) [] a := by
      by_cases h2 : 1 < s.held.count a
      · unfold refsW; omega
      · -- the other reference is in a cell, and no cell is touched
        obtain ⟨c, hc⟩ := C40_referenced_is_live_partial h (a := a) (by omega)
        have hrc := C40_count_is_references_partial h hc
        have : h' = put s.heap a ⟨c.rc - 1, c.content⟩ := by
          have hr : run s.heap [.dec a] = some h' := r1
          unfold run enough at hr
          simp only [List.length_cons, List.length_nil, Nat.zero_add] at hr
          rw [drain] at hr
          simp only [step, hc] at hr
          rw [if_neg (by omega), if_neg (by omega)] at hr
          simp only [List.nil_append] at hr
          cases hw : (s.heap.map weight).sum with
          | zero => rw [hw] at hr; simpa [drain] using hr.symm
          | succ n => rw [hw] at hr; simpa [drain] using hr.symm
        have ht := total_put ⟨c.rc - 1, c.content⟩ hc a
        rw [← this] at ht
        simp only [] at ht
        unfold refs at h1
        have : total s.heap a = (s.heap.map (cellRefs a)).sum := rfl
        unfold refsW; omega
    cases hg : get h' a with
    | some c => exact ⟨c, hg⟩
    | none => have := (r2.dead a hg).1; omega

/-- **C40 (nothing in use is touched).**  Giving back a reference changes no value that can still be reached. -/
theorem C40_decr_keeps_reachable_partial {s s' : State} (h : Reach s) {a x : Nat} (ha : a ∈ s.held) (he : exec s (.decr a) = some s')
    (hx : Reachable ⟨s.heap, s.held.erase a, s.fresh⟩ x) :
    ∃ c c', get s.heap x = some c ∧ get s'.heap x = some c' ∧ c'.content = c.content := by
  have hs := reach_ok h
  obtain ⟨h', r1, r2, r3, _⟩ := release_inv hs ha
  have e : s' = ⟨h', s.held.erase a, s.fresh⟩ := by
    simp only [exec, r1, Option.map_some] at he
    injection he with he
    exact he.symm
  subst e
  exact survive r2 r3 hx

theorem Path.trans {h : Heap} {a b c : Nat} (p : Path h a b) (q : Path h b c) : Path h a c := by
  induction q with
  | one c e => exact .more _ _ p e
  | more c d _ e ih => exact .more _ _ ih e

/-- **C40 (no leak without a cycle).**  When the program has given back all its references, everything it
ever made has been freed, unless cells refer to each other in a circle. -/
theorem C40_no_leak_partial {s : State} (h : Reach s) (hh : s.held = []) (hf : s.fresh = []) (hc : ∀ a, ¬ Path s.heap a a) (a : Nat) :
    ¬ Live s a := by
  intro hl
  have wf : WellFounded (fun x y : Fin s.heap.length => Path s.heap x y) := by
    haveI : IsTrans (Fin s.heap.length) (fun x y => Path s.heap x y) := ⟨fun _ _ _ p q => p.trans q⟩
    haveI : Std.Irrefl (fun x y : Fin s.heap.length => Path s.heap x y) := ⟨fun x => hc x⟩
    exact Finite.wellFounded_of_trans_of_irrefl _
  have key : ∀ x : Fin s.heap.length, ¬ Live s x := by
    intro x
    induction x using wf.induction with
    | _ x ih =>
      intro hx
      have hpos : 0 < refs s x := by
        apply Nat.pos_of_ne_zero
        intro h0
        exact C40_unreferenced_is_freed_partial h h0 (by rw [hf]; simp) hx
      obtain ⟨b, hb⟩ := edge_of_total (h := s.heap) (b := x) (by unfold refs at hpos; rw [hh] at hpos; simpa [total] using hpos)
      have hb' := hb
      obtain ⟨d, hd, _⟩ := hb
      exact ih ⟨b, get_lt hd⟩ (.one _ hb') ⟨d, hd⟩
  obtain ⟨c, hg⟩ := hl
  exact key ⟨a, get_lt hg⟩ ⟨c, hg⟩

/-! ### The hypotheses can be met, and the rules are needed -/

/-- The calls of a program, one after the other. -/
def runOps : State → List Op → Option State
  | s, [] => some s
  | s, op :: l => (exec s op).bind fun s' => runOps s' l

/-- The number of references is the count, for all cells. -/
def countsRight (s : State) : Bool :=
  (List.range s.heap.length).all fun a => match get s.heap a with
    | none => refs s a = 0
    | some c => c.rc = refs s a

/-- An object in a property of another, in a value, copied into a second value, overwritten. -/
def exHistory : List Op :=
  [.new1, .newObj, .makeObject 0 1, .new, .makePrim 2 7, .insert 1 (asc "x") 2, .new, .newObj, .makeObject 3 4, .arraySet 1 3 2,
   .new1, .copy 5 0, .decr 0, .new1, .pushVar 6 3, .copy 5 6]

example : (runOps ⟨[], [], []⟩ exHistory).isSome = true := by decide +kernel
example : ((runOps ⟨[], [], []⟩ exHistory).map countsRight) = some true := by decide +kernel

/-- A history that keeps the rules: the hypotheses of the theorems can be met. -/
example : ∃ s, Reach s ∧ get s.heap 1 = some ⟨1, .object [] [some 2]⟩ ∧ get s.heap 2 = some ⟨1, .undef⟩ ∧ 0 ∈ s.held ∧ refs s 1 = 1 := by
  have r0 := Reach.init
  have r1 := Reach.step _ _ .new1 r0 trivial rfl
  have r2 := Reach.step _ _ .newObj r1 trivial rfl
  have r3 := Reach.step _ _ (.makeObject 0 1) r2 ⟨⟨_, rfl⟩, ⟨_, rfl⟩, Or.inr ⟨.own 0 (Or.inl (by decide)), .own 1 (Or.inr (by decide))⟩⟩ rfl
  have r4 := Reach.step _ _ .new r3 trivial rfl
  have r5 := Reach.step _ _ (.arrayAdd 1 2) r4 ⟨⟨_, rfl⟩, _, _, _, rfl, rfl⟩ rfl
  exact ⟨_, r5, by decide, by decide, by decide, by decide⟩

/-- The same, given back: all is freed. -/
example : ∃ s, Reach s ∧ s.held = [] ∧ s.fresh = [] ∧ s.heap = [none, none] := by
  have r0 := Reach.init
  have r1 := Reach.step _ _ .new1 r0 trivial rfl
  have r2 := Reach.step _ _ .newObj r1 trivial rfl
  have r3 := Reach.step _ _ (.makeObject 0 1) r2 ⟨⟨_, rfl⟩, ⟨_, rfl⟩, Or.inr ⟨.own 0 (Or.inl (by decide)), .own 1 (Or.inr (by decide))⟩⟩ rfl
  have r4 := Reach.step _ _ (.decr 0) r3 (by show 0 ∈ [0]; decide) rfl
  exact ⟨_, r4, rfl, rfl, rfl⟩

/-- **C40 fails: a copy of a value that was never counted.**  `Jsi_ValueCopy` from a new value (count 0) that holds an
object does not count the second reference (src/jsiValue.c:261): giving back the copy frees the object
the first value still refers to. -/
theorem C40_copy_of_uncounted_refuted :
    ∃ s, runOps ⟨[], [], []⟩ [.newObj, .new, .makeObject 1 0, .new1, .copy 2 1, .decr 2] = some s ∧
      ¬ Live s 0 ∧ refs s 0 = 1 ∧ Live s 1 ∧ exec s (.reset 1) = none := by
  refine ⟨_, rfl, ?_, by decide, ⟨_, rfl⟩, by decide⟩
  rintro ⟨c, hc⟩
  revert hc
  rw [show get _ 0 = none from by decide]
  intro hc; cases hc

/-- **C40 fails: a value overwritten by a part of itself.**  `Jsi_ValueCopy(v, e)`, where `e` is an element of the array that
only `v` holds, reads `e` after it was freed: the target is emptied first (src/jsiValue.c:253-257). -/
theorem C40_copy_of_own_element_refuted :
    ∃ s, runOps ⟨[], [], []⟩ [.new1, .newObj, .makeObject 0 1, .new, .arrayAdd 1 2] = some s ∧
      Live s 2 ∧ Live s 0 ∧ countsRight s = true ∧ exec s (.copy 0 2) = none := by
  exact ⟨_, rfl, ⟨_, rfl⟩, ⟨_, rfl⟩, by decide, by decide⟩

/-- **C40 fails: `Jsi_ValueReplace` by a part of itself.**  The old value is dropped before the new one is counted
(src/jsiValue.c:230-234). -/
theorem C40_replace_by_own_element_refuted :
    ∃ s, runOps ⟨[], [], []⟩ [.new1, .newObj, .makeObject 0 1, .new, .arrayAdd 1 2] = some s ∧
      Live s 2 ∧ 0 ∈ s.held ∧ countsRight s = true ∧ exec s (.replace 0 2) = none := by
  exact ⟨_, rfl, ⟨_, rfl⟩, by decide, by decide, by decide⟩

/-- **C40 fails: an array element or property replaced by a part of itself**: `a[0] = a[0][0]` with `Jsi_ObjArraySet`
(src/jsiObj.c:409-413). -/
theorem C40_arraySet_of_own_element_refuted :
    ∃ s, runOps ⟨[], [], []⟩ [.new1, .newObj, .makeObject 0 1, .new, .newObj, .makeObject 2 3, .arrayAdd 1 2, .new, .arrayAdd 3 4] = some s ∧
      Live s 4 ∧ countsRight s = true ∧ exec s (.arraySet 1 4 0) = none := by
  exact ⟨_, rfl, ⟨_, rfl⟩, by decide, by decide⟩

/-- **C40 fails: a copy over a value that is in its own array.**  The saved count (src/jsiValue.c:248, 280) is put back,
although a reference has gone: the count is too high, and the value is never freed. -/
theorem C40_copy_over_cycle_refuted :
    ∃ s, runOps ⟨[], [], []⟩ [.new1, .newObj, .makeObject 0 1, .arrayAdd 1 0, .new1, .copy 0 2] = some s ∧
      refs s 0 = 1 ∧ (get s.heap 0).map (·.rc) = some 2 ∧
      ∃ s', exec s (.decr 0) = some s' ∧ refs s' 0 = 0 ∧ Live s' 0 ∧ 0 ∉ s'.fresh := by
  exact ⟨_, rfl, by decide, by decide, _, rfl, by decide, ⟨_, rfl⟩, by decide⟩

/-- **C40 fails: the same variable pushed twice into one place.**  `jsiPushVar` counts the variable before it sees that the
place holds it already (src/jsiEval.c:897-900).  (`jsiPop` empties a place, so that a script does not get there.) -/
theorem C40_pushVar_twice_refuted :
    ∃ s, runOps ⟨[], [], []⟩ [.new1, .new1, .pushVar 0 1, .pushVar 0 1] = some s ∧
      refs s 1 = 2 ∧ (get s.heap 1).map (·.rc) = some 3 := by
  exact ⟨_, rfl, by decide, by decide⟩

/-- **C40 fails for circles.**  A program that keeps the rules and gives back all its references leaves an array that
contains itself. -/
theorem C40_cycle_leaks_refuted : ∃ s, Reach s ∧ s.held = [] ∧ s.fresh = [] ∧ Live s 0 ∧ Live s 1 := by
  have r0 := Reach.init
  have r1 := Reach.step _ _ .new1 r0 trivial rfl
  have r2 := Reach.step _ _ .newObj r1 trivial rfl
  have r3 := Reach.step _ _ (.makeObject 0 1) r2 ⟨⟨_, rfl⟩, ⟨_, rfl⟩, Or.inr ⟨.own 0 (Or.inl (by decide)), .own 1 (Or.inr (by decide))⟩⟩ rfl
  have r4 := Reach.step _ _ (.arrayAdd 1 0) r3 ⟨⟨_, rfl⟩, _, _, _, rfl, rfl⟩ rfl
  have r5 := Reach.step _ _ (.decr 0) r4 (by show 0 ∈ [0]; decide) rfl
  exact ⟨_, r5, rfl, rfl, ⟨_, rfl⟩, ⟨_, rfl⟩⟩

end Verif.Ref
