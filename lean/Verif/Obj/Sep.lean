import Verif.Obj.Proto

/-! Which pointers are whose: variables, properties, elements. -/

namespace Verif.Obj

variable {E : Env} {s : St}

/-- The value of a named property. -/
def TCell (s : St) (c : Nat) : Prop := ∃ (o : Nat) (ob : Ob) (e : Ent), s.objs[o]? = some ob ∧ e ∈ ob.tree ∧ e.cell = c

/-- The value of an element. -/
def ACell (s : St) (c : Nat) : Prop := ∃ (o : Nat) (ob : Ob) (a : List (Option Nat)), s.objs[o]? = some ob ∧ ob.arr = some a ∧ some c ∈ a

/-- The variables of a running function. -/
def Frame (s : St) (w : List Nat) : Prop := w = s.vars ∨ w ∈ s.saved

/-- `true`: variables have values of their own.  `false`: named properties have values that are no elements and no variables. -/
structure Sep (j : Bool) (s : St) : Prop where
  tr : ∀ c, TCell s c → c < s.cells.length
  ar : ∀ c, ACell s c → c < s.cells.length
  vr : ∀ w, Frame s w → ∀ c ∈ w, c < s.cells.length
  nd : j = true → ∀ w, Frame s w → w.Nodup
  tv : ∀ c, TCell s c → ∀ w, Frame s w → c ∉ w
  av : j = true → ∀ c, ACell s c → ∀ w, Frame s w → c ∉ w
  ta : j = false → ∀ c, TCell s c → ¬ ACell s c

def Kind.ok (j : Bool) : Kind → Bool
  | .each => !j
  | .values => j
  | .apply => false
  | _ => true

theorem Sep.mono {j s s'} (h : Sep j s) (hl : s.cells.length ≤ s'.cells.length) (hv : s'.vars = s.vars) (hs : s'.saved = s.saved)
    (hT : ∀ c, TCell s' c → TCell s c ∨ (s.cells.length ≤ c ∧ c < s'.cells.length))
    (hA : ∀ c, ACell s' c → ACell s c ∨ (s.cells.length ≤ c ∧ c < s'.cells.length) ∨ (j = true ∧ TCell s c))
    (hn : (∀ c, s.cells.length ≤ c → ¬ TCell s' c) ∨ (∀ c, s.cells.length ≤ c → ¬ ACell s' c)) : Sep j s' := by
  have hf : ∀ w, Frame s' w → Frame s w := fun w hw => by rw [Frame, hv, hs] at hw; exact hw
  refine ⟨?_, ?_, ?_, ?_, ?_, ?_, ?_⟩
  · intro c hc
    rcases hT c hc with h' | h'
    · exact Nat.lt_of_lt_of_le (h.tr c h') hl
    · exact h'.2
  · intro c hc
    rcases hA c hc with h' | h' | h'
    · exact Nat.lt_of_lt_of_le (h.ar c h') hl
    · exact h'.2
    · exact Nat.lt_of_lt_of_le (h.tr c h'.2) hl
  · intro w hw c hc; exact Nat.lt_of_lt_of_le (h.vr w (hf w hw) c hc) hl
  · intro hj w hw; exact h.nd hj w (hf w hw)
  · intro c hc w hw hcw
    have := h.vr w (hf w hw) c hcw
    rcases hT c hc with h' | h'
    · exact h.tv c h' w (hf w hw) hcw
    · omega
  · intro hj c hc w hw hcw
    have := h.vr w (hf w hw) c hcw
    rcases hA c hc with h' | h' | h'
    · exact h.av hj c h' w (hf w hw) hcw
    · omega
    · exact h.tv c h'.2 w (hf w hw) hcw
  · intro hj c ht ha
    rcases hT c ht with h1 | h1
    · rcases hA c ha with h2 | h2 | h2
      · exact h.ta hj c h1 h2
      · have := h.tr c h1; omega
      · rw [hj] at h2; cases h2.1
    · rcases hn with hn | hn
      · exact hn c h1.1 ht
      · exact hn c h1.1 ha

/-- Only values change. -/
theorem Sep.same {j s s'} (h : Sep j s) (hl : s.cells.length ≤ s'.cells.length) (hv : s'.vars = s.vars) (hs : s'.saved = s.saved)
    (ho : s'.objs = s.objs) : Sep j s' := by
  have hT : ∀ c, TCell s' c → TCell s c := fun c hc => by rw [TCell, ho] at hc; exact hc
  have hA : ∀ c, ACell s' c → ACell s c := fun c hc => by rw [ACell, ho] at hc; exact hc
  exact h.mono hl hv hs (fun c hc => Or.inl (hT c hc)) (fun c hc => Or.inl (hA c hc))
    (Or.inl fun c hlt hc => by have := h.tr c (hT c hc); omega)

theorem getElem?_set' {l : List Ob} {o o' : Nat} {ob' b : Ob} (h : (l.set o ob')[o']? = some b) : b = ob' ∨ l[o']? = some b := by
  rw [List.getElem?_set] at h
  split at h
  · split at h
    · cases h; exact Or.inl rfl
    · cases h
  · exact Or.inr h

theorem getElem?_push {l : List Ob} {o' : Nat} {ob' b : Ob} (h : (l ++ [ob'])[o']? = some b) : b = ob' ∨ l[o']? = some b := by
  rw [List.getElem?_append] at h
  split at h
  · exact Or.inr h
  · left
    cases e : o' - l.length with
    | zero => rw [e] at h; simp at h; exact h.symm
    | succ n => rw [e] at h; simp at h

/-- The objects are the old ones but one. -/
def OneNew (s s' : St) (ob' : Ob) : Prop := ∀ (o : Nat) b, s'.objs[o]? = some b → b = ob' ∨ s.objs[o]? = some b

theorem TCell.one {s s' : St} {ob'} (h : OneNew s s' ob') {c} (hc : TCell s' c) : TCell s c ∨ ∃ e ∈ ob'.tree, e.cell = c := by
  obtain ⟨o, b, e, ho, he, hc⟩ := hc
  rcases h o b ho with h' | h'
  · subst h'; exact Or.inr ⟨e, he, hc⟩
  · exact Or.inl ⟨o, b, e, h', he, hc⟩

theorem ACell.one {s s' : St} {ob'} (h : OneNew s s' ob') {c} (hc : ACell s' c) : ACell s c ∨ ∃ a, ob'.arr = some a ∧ some c ∈ a := by
  obtain ⟨o, b, a, ho, ha, hc⟩ := hc
  rcases h o b ho with h' | h'
  · subst h'; exact Or.inr ⟨a, ha, hc⟩
  · exact Or.inl ⟨o, b, a, h', ha, hc⟩

/-- An object is changed so that it has no more pointers, or none but old ones. -/
theorem Sep.one {j s s'} {ob' : Ob} (h : Sep j s) (hl : s.cells.length ≤ s'.cells.length) (hv : s'.vars = s.vars) (hs : s'.saved = s.saved)
    (ho : OneNew s s' ob')
    (hT : ∀ e ∈ ob'.tree, TCell s e.cell ∨ (s.cells.length ≤ e.cell ∧ e.cell < s'.cells.length))
    (hA : ∀ a c, ob'.arr = some a → some c ∈ a → ACell s c ∨ (s.cells.length ≤ c ∧ c < s'.cells.length) ∨ (j = true ∧ TCell s c))
    (hn : (∀ e ∈ ob'.tree, TCell s e.cell) ∨ (∀ a c, ob'.arr = some a → some c ∈ a → ACell s c)) : Sep j s' := by
  refine h.mono hl hv hs ?_ ?_ ?_
  · intro c hc
    rcases hc.one ho with h' | ⟨e, he, h'⟩
    · exact Or.inl h'
    · subst h'; exact hT e he
  · intro c hc
    rcases hc.one ho with h' | ⟨a, ha, h'⟩
    · exact Or.inl h'
    · exact hA a c ha h'
  · rcases hn with hn | hn
    · left; intro c hlt hc
      rcases hc.one ho with h' | ⟨e, he, h'⟩
      · have := h.tr c h'; omega
      · subst h'; have := h.tr _ (hn e he); omega
    · right; intro c hlt hc
      rcases hc.one ho with h' | ⟨a, ha, h'⟩
      · have := h.ar c h'; omega
      · have := h.ar c (hn a c ha h'); omega

theorem oneNew_set {s s' : St} {o ob'} (e : s'.objs = s.objs.set o ob') : OneNew s s' ob' := by
  intro o' b hb; rw [e] at hb; exact getElem?_set' hb

theorem oneNew_push {s s' : St} {ob'} (e : s'.objs = s.objs ++ [ob']) : OneNew s s' ob' := by
  intro o' b hb; rw [e] at hb; exact getElem?_push hb

theorem Sep.insert {j : Bool} {s s' : St} (h : Sep j s) {o k c} (e : insert s o k c false = some s')
    (hc : TCell s c) : Sep j s' := by
  obtain ⟨ob, ho, e', _⟩ := insert_form e
  subst e'
  refine h.one (ob' := { ob with tree := treeSet k c false ob.tree }) (Nat.le_refl _) rfl rfl (oneNew_set rfl) ?_ ?_ ?_
  · intro d hd
    rcases treeSet_mem hd with h' | h'
    · rw [h'.2]; exact Or.inl hc
    · exact Or.inl ⟨o, ob, d, ho, h', rfl⟩
  · intro a c ha hm; exact Or.inl ⟨o, ob, a, ho, ha, hm⟩
  · right; intro a c ha hm; exact ⟨o, ob, a, ho, ha, hm⟩

theorem sep_share {j : Bool} {s : St} (h : Sep j s) {q p : Nat} {pb : Ob} (hp : s.objs[p]? = some pb) : Sep j (copyTree s q pb.tree).2 := by
  have hP : ∀ e ∈ pb.tree, TCell s e.cell := fun e he => ⟨p, pb, e, hp, he, rfl⟩
  -- in the course of the copy the properties have no other values than before
  have := copyTree_keeps (q := q) (P := fun _ c => TCell s c)
    (J := fun s' => Sep j s' ∧ s'.cells = s.cells ∧ s'.vars = s.vars ∧ s'.saved = s.saved ∧ (∀ c, TCell s' c → TCell s c) ∧ (∀ c, ACell s' c → ACell s c))
    (by
      intro s1 k c s2 ⟨h1, hc, hv, hs, hT, hA⟩ hcT e
      obtain ⟨ob, ho, e', _⟩ := insert_form e
      subst e'
      have hn : OneNew s1 { s1 with objs := s1.objs.set q { ob with tree := treeSet k c false ob.tree }, cells := s1.cells } _ := oneNew_set rfl
      have hT2 : ∀ d, TCell { s1 with objs := s1.objs.set q { ob with tree := treeSet k c false ob.tree }, cells := s1.cells } d → TCell s d := by
        intro d hd
        rcases hd.one hn with h' | ⟨e, he, h'⟩
        · exact hT d h'
        · rcases treeSet_mem he with h2 | h2
          · rw [← h', h2.2]; exact hcT
          · exact hT d ⟨q, ob, e, ho, h2, h'⟩
      have hA2 : ∀ d, ACell { s1 with objs := s1.objs.set q { ob with tree := treeSet k c false ob.tree }, cells := s1.cells } d → ACell s d := by
        intro d hd
        rcases hd.one hn with h' | ⟨a, ha, h'⟩
        · exact hA d h'
        · exact hA d ⟨q, ob, a, ho, ha, h'⟩
      refine ⟨?_, hc, hv, hs, hT2, hA2⟩
      refine h.mono (by show s.cells.length ≤ s1.cells.length; rw [hc]; exact Nat.le_refl _) hv hs (fun d hd => Or.inl (hT2 d hd)) (fun d hd => Or.inl (hA2 d hd))
        (Or.inl fun d hlt hd => by have := h.tr d (hT2 d hd); omega))
    pb.tree hP ⟨h, rfl, rfl, rfl, fun _ h => h, fun _ h => h⟩
  exact this.1

theorem setSlot_mem {a : List (Option Nat)} {n c d} (h : some d ∈ setSlot a n c) : d = c ∨ some d ∈ a := by
  rw [setSlot] at h
  rcases List.mem_or_eq_of_mem_set h with h | h
  · rcases List.mem_append.1 h with h | h
    · exact Or.inr h
    · have := (List.mem_replicate.1 h).2; cases this
  · cases h; exact Or.inl rfl

theorem getD_mem {a : List (Option Nat)} {i c : Nat} (h : (a[i]?).getD none = some c) : some c ∈ a := by
  cases e : a[i]? with
  | none => rw [e] at h; cases h
  | some w => rw [e] at h; simp only [Option.getD_some] at h; subst h; exact List.mem_of_getElem? e

theorem acell_of {o : Nat} {ob : Ob} {i c : Nat} (ho : s.objs[o]? = some ob) (h : ((ob.arr.getD [])[i]?).getD none = some c) : ACell s c := by
  cases e : ob.arr with
  | none => rw [e] at h; cases h
  | some a => rw [e] at h; exact ⟨o, ob, a, ho, e, getD_mem h⟩

theorem setFrozen_length (b : Bool) : ∀ (cs : List Nat) (l : List FV), (setFrozen b cs l).length = l.length
  | [], l => rfl
  | c :: cs, l => by rw [setFrozen, List.foldl_cons, ← setFrozen, setFrozen_length b cs, List.length_modify]

theorem sep_atom {j k s s'} (h : Sep j s) (hk : k.ok j = true) (a : Atom E k s s') : Sep j s' := by
  cases a with
  | setv _ hv => exact h.same (by simp [St.wr]) rfl rfl rfl
  | incr _ => exact h.same (by simp [St.wr]) rfl rfl rfl
  | elem _ _ _ hv => exact h.same (by simp [St.wr]) rfl rfl rfl
  | @cnt _ o ob n ho =>
    refine h.one (ob' := { ob with cnt := n }) (Nat.le_refl _) rfl rfl (oneNew_set rfl) ?_ ?_ ?_
    · intro e he; exact Or.inl ⟨o, ob, e, ho, he, rfl⟩
    · intro a c ha hm; exact Or.inl ⟨o, ob, a, ho, ha, hm⟩
    · left; intro e he; exact ⟨o, ob, e, ho, he, rfl⟩
  | @slot _ o ob a n v k ho ha hv =>
    refine h.one (ob' := { ob with cnt := k, arr := some (setSlot a n s.cells.length) }) (by simp [St.alloc]) rfl rfl (oneNew_set rfl) ?_ ?_ ?_
    · intro e he; exact Or.inl ⟨o, ob, e, ho, he, rfl⟩
    · intro b c hb hm
      cases hb
      rcases setSlot_mem hm with e | e
      · subst e; exact Or.inr (Or.inl ⟨Nat.le_refl _, by simp [St.alloc]⟩)
      · exact Or.inl ⟨o, ob, a, ho, ha, e⟩
    · left; intro e he; exact ⟨o, ob, e, ho, he, rfl⟩
  | alloc hv => exact h.same (by simp [St.alloc]) rfl rfl rfl
  | @ins _ o k v _ e hv =>
    obtain ⟨ob, ho, e', _⟩ := insert_form e
    subst e'
    refine h.one (ob' := { ob with tree := treeSet k s.cells.length false ob.tree }) (by simp [St.alloc]) rfl rfl (oneNew_set rfl) ?_ ?_ ?_
    · intro d hd
      rcases treeSet_mem hd with h' | h'
      · rw [h'.2]; exact Or.inr ⟨Nat.le_refl _, by simp [St.alloc]⟩
      · exact Or.inl ⟨o, ob, d, ho, h', rfl⟩
    · intro a c ha hm; exact Or.inl ⟨o, ob, a, ho, ha, hm⟩
    · right; intro a c ha hm; exact ⟨o, ob, a, ho, ha, hm⟩
  | share hp => exact sep_share h hp
  | @del _ o ob k ho _ =>
    refine h.one (ob' := { ob with tree := treeDel ob.tree k }) (Nat.le_refl _) rfl rfl (oneNew_set rfl) ?_ ?_ ?_
    · intro e he; exact Or.inl ⟨o, ob, e, ho, (List.mem_filter.1 he).1, rfl⟩
    · intro a c ha hm; exact Or.inl ⟨o, ob, a, ho, ha, hm⟩
    · right; intro a c ha hm; exact ⟨o, ob, a, ho, ha, hm⟩
  | @newPlain _ p _ =>
    refine h.one (ob' := { proto := some p }) (Nat.le_refl _) rfl rfl (oneNew_push rfl) ?_ ?_ ?_
    · intro e he; cases he
    · intro a c ha; cases ha
    · left; intro e he; cases he
  | @newArr _ vs hv =>
    refine h.one (ob' := { isarr := true, arr := some ((List.range vs.length).map (fun i => some (s.cells.length + i))), cnt := vs.length, proto := some arrProto })
      (by simp [arrayLit, newObj]) rfl rfl (oneNew_push rfl) ?_ ?_ ?_
    · intro e he; cases he
    · intro a c ha hm
      cases ha
      obtain ⟨i, hi, e⟩ := List.mem_map.1 hm
      cases e
      have := List.mem_range.1 hi
      exact Or.inr (Or.inl ⟨by omega, by simp [arrayLit, newObj]; exact this⟩)
    · left; intro e he; cases he
  | @newFilter _ o ob cs ho hcs =>
    have hA : ∀ a c, some (cs.map some) = some a → some c ∈ a → ACell s c := by
      intro a c ha hm
      cases ha
      obtain ⟨d, hd, e⟩ := List.mem_map.1 hm
      cases e
      obtain ⟨i, hi⟩ := hcs c hd
      exact acell_of ho hi
    refine h.one (ob' := { isarr := true, proto := some arrProto, cnt := cs.length, arr := some (cs.map some) }) (Nat.le_refl _) rfl rfl (oneNew_push rfl) ?_ ?_ ?_
    · intro e he; cases he
    · intro a c ha hm; exact Or.inl (hA a c ha hm)
    · left; intro e he; cases he
  | @call _ vs hv =>
    have hT : ∀ c, TCell (call s vs) c → TCell s c := fun c hc => hc
    have hA : ∀ c, ACell (call s vs) c → ACell s c := fun c hc => hc
    have hlen : (call s vs).cells.length = s.cells.length + vs.length := by simp [call]
    have hvars : (call s vs).vars = (List.range vs.length).map (s.cells.length + ·) ++ s.vars := rfl
    have hF : ∀ w, Frame (call s vs) w → w = (List.range vs.length).map (s.cells.length + ·) ++ s.vars ∨ Frame s w := by
      intro w hw
      rcases hw with e | e
      · left; rw [e, hvars]
      · have e' : w ∈ s.vars :: s.saved := e
        rcases List.mem_cons.1 e' with e | e
        · exact Or.inr (Or.inl e)
        · exact Or.inr (Or.inr e)
    have hnew : ∀ c ∈ (List.range vs.length).map (s.cells.length + ·), s.cells.length ≤ c ∧ c < s.cells.length + vs.length := by
      intro c hc
      obtain ⟨i, hi, e⟩ := List.mem_map.1 hc
      have := List.mem_range.1 hi
      omega
    have hself : Frame s s.vars := Or.inl rfl
    refine ⟨?_, ?_, ?_, ?_, ?_, ?_, ?_⟩
    · intro c hc; have := h.tr c (hT c hc); omega
    · intro c hc; have := h.ar c (hA c hc); omega
    · intro w hw c hc
      rcases hF w hw with e | e
      · subst e
        rcases List.mem_append.1 hc with e | e
        · have := hnew c e; omega
        · have := h.vr _ hself c e; omega
      · have := h.vr w e c hc; omega
    · intro hj w hw
      rcases hF w hw with e | e
      · subst e
        rw [List.nodup_append]
        refine ⟨?_, h.nd hj _ hself, ?_⟩
        · rw [List.Nodup, List.pairwise_map]
          exact List.Pairwise.imp (fun h e => h (by omega)) (List.nodup_range)
        · intro a ha b hb e
          have h1 := hnew a ha
          have h2 := h.vr _ hself b hb
          omega
      · exact h.nd hj w e
    · intro c hc w hw hcw
      have hlt := h.tr c (hT c hc)
      rcases hF w hw with e | e
      · subst e
        rcases List.mem_append.1 hcw with e | e
        · have := hnew c e; omega
        · exact h.tv c (hT c hc) _ hself e
      · exact h.tv c (hT c hc) w e hcw
    · intro hj c hc w hw hcw
      have hlt := h.ar c (hA c hc)
      rcases hF w hw with e | e
      · subst e
        rcases List.mem_append.1 hcw with e | e
        · have := hnew c e; omega
        · exact h.av hj c (hA c hc) _ hself e
      · exact h.av hj c (hA c hc) w e hcw
    · intro hj c ht ha; exact h.ta hj c (hT c ht) (hA c ha)
  | @ret _ v r hs =>
    have hF : ∀ w, Frame { s with vars := v, saved := r } w → Frame s w := by
      intro w hw
      rcases hw with e | e
      · right; rw [hs, e]; exact List.mem_cons_self
      · right; rw [hs]; exact List.mem_cons_of_mem _ e
    exact ⟨h.tr, h.ar, fun w hw => h.vr w (hF w hw), fun hj w hw => h.nd hj w (hF w hw), fun c hc w hw => h.tv c hc w (hF w hw),
      fun hj c hc w hw => h.av hj c hc w (hF w hw), h.ta⟩
  | @values _ o ob ho =>
    have hj : j = true := hk
    refine h.one (ob' := valuesOb ob) (Nat.le_refl _) rfl rfl (oneNew_push rfl) ?_ ?_ ?_
    · intro e he; cases he
    · intro a c ha hm
      rw [valuesOb] at ha
      simp only at ha
      split at ha
      · cases ha
      · cases ha
        obtain ⟨e, he, hc⟩ := List.mem_map.1 hm
        cases hc
        exact Or.inr (Or.inr ⟨hj, o, ob, e, ho, he, rfl⟩)
    · left; intro e he; cases he
  | setvO _ ho => exact h.same (by simp [St.wr]) rfl rfl rfl
  | @each _ o i c ob ho hc =>
    have hj : j = false := by cases j with | false => rfl | true => cases hk
    have hac := acell_of ho hc
    have hself : Frame s s.vars := Or.inl rfl
    generalize hs' : ({ s with cells := s.cells.modify c (fun v => { v with dontenum := true }), vars := c :: s.vars, saved := s.vars :: s.saved } : St) = s'
    have hobjs : s'.objs = s.objs := by rw [← hs']
    have hlen : s'.cells.length = s.cells.length := by rw [← hs']; simp
    have hT : ∀ d, TCell s' d → TCell s d := fun d hd => by rw [TCell, hobjs] at hd; exact hd
    have hA : ∀ d, ACell s' d → ACell s d := fun d hd => by rw [ACell, hobjs] at hd; exact hd
    have hF : ∀ w, Frame s' w → w = c :: s.vars ∨ Frame s w := by
      intro w hw
      rw [← hs'] at hw
      rcases hw with e | e
      · exact Or.inl e
      · rcases List.mem_cons.1 e with e | e
        · exact Or.inr (Or.inl e)
        · exact Or.inr (Or.inr e)
    refine ⟨?_, ?_, ?_, ?_, ?_, ?_, ?_⟩
    · intro d hd; rw [hlen]; exact h.tr d (hT d hd)
    · intro d hd; rw [hlen]; exact h.ar d (hA d hd)
    · intro w hw d hd
      rw [hlen]
      rcases hF w hw with e | e
      · subst e
        rcases List.mem_cons.1 hd with e | e
        · subst e; exact h.ar d hac
        · exact h.vr _ hself d e
      · exact h.vr w e d hd
    · intro e; rw [hj] at e; cases e
    · intro d hd w hw hdw
      rcases hF w hw with e | e
      · subst e
        rcases List.mem_cons.1 hdw with e | e
        · subst e; exact h.ta hj d (hT d hd) hac
        · exact h.tv d (hT d hd) _ hself e
      · exact h.tv d (hT d hd) w e hdw
    · intro e; rw [hj] at e; cases e
    · intro hj d ht ha; exact h.ta hj d (hT d ht) (hA d ha)
  | applied _ => cases hk
  | @setProto _ o ob p ho =>
    refine h.one (ob' := { ob with proto := p }) (Nat.le_refl _) rfl rfl (oneNew_set rfl) ?_ ?_ ?_
    · intro e he; exact Or.inl ⟨o, ob, e, ho, he, rfl⟩
    · intro a c ha hm; exact Or.inl ⟨o, ob, a, ho, ha, hm⟩
    · left; intro e he; exact ⟨o, ob, e, ho, he, rfl⟩
  | @freeze _ o ob f m r ho =>
    refine h.one (ob' := { ob with freeze := f, noMod := !m, readChk := r }) ?_ rfl rfl (oneNew_set rfl) ?_ ?_ ?_
    · show s.cells.length ≤ List.length (if _ then _ else _)
      split
      · rw [setFrozen_length]; exact Nat.le_refl _
      · exact Nat.le_refl _
    · intro e he; exact Or.inl ⟨o, ob, e, ho, he, rfl⟩
    · intro a c ha hm; exact Or.inl ⟨o, ob, a, ho, ha, hm⟩
    · left; intro e he; exact ⟨o, ob, e, ho, he, rfl⟩

theorem start_objs {n : Nat} {o : Nat} {ob : Ob} (h : (start n).objs[o]? = some ob) : ob.tree = [] ∧ ob.arr = none := by
  rcases o with _ | _ | o
  · simp [start] at h; subst h; exact ⟨rfl, rfl⟩
  · simp [start] at h; subst h; exact ⟨rfl, rfl⟩
  · simp [start] at h

theorem start_sep (j n) : Sep j (start n) := by
  have hT : ∀ c, ¬ TCell (start n) c := by
    rintro c ⟨o, ob, e, ho, he, _⟩
    rw [(start_objs ho).1] at he; cases he
  have hA : ∀ c, ¬ ACell (start n) c := by
    rintro c ⟨o, ob, a, ho, ha, _⟩
    rw [(start_objs ho).2] at ha; cases ha
  have hF : ∀ w, Frame (start n) w → w = (List.range n).map (· + 1) := by
    intro w hw
    rcases hw with e | e
    · exact e
    · cases e
  refine ⟨fun c h => absurd h (hT c), fun c h => absurd h (hA c), ?_, ?_, fun c h => absurd h (hT c), fun _ c h => absurd h (hA c), fun _ c h => absurd h (hT c)⟩
  · intro w hw c hc
    rw [hF w hw] at hc
    obtain ⟨i, hi, e⟩ := List.mem_map.1 hc
    have := List.mem_range.1 hi
    show c < (List.replicate (n + 1) _).length
    rw [List.length_replicate]; omega
  · intro _ w hw
    rw [hF w hw, List.Nodup, List.pairwise_map]
    exact List.Pairwise.imp (fun h e => h (by omega)) (List.nodup_range)

end Verif.Obj
