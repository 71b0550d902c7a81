import Verif.Obj.KeysModel
import Verif.Obj.Props

/-!
C79: loops over keys.  C80: `in`, `hasOwnProperty`, `Object.keys`.
-/

namespace Verif.Obj

variable {m : Bool} {E : Env}

/-! ### The collected names -/

theorem addKeys_mem (d : Nat) (k : Bytes) : ∀ (t : List Ent) (ks : List Bytes),
    k ∈ addKeys d ks t ↔ k ∈ ks ∨ ∃ e ∈ t, e.hid = false ∧ e.key = k
  | [], ks => by simp [addKeys]
  | e :: t, ks => by
    have ih := addKeys_mem d k t
    have hadd : k ∈ addKey d ks e.key ↔ k ∈ ks ∨ k = e.key := by
      rw [addKey]; split
      · next h => exact ⟨Or.inl, fun h' => h'.elim id (fun e' => e' ▸ h.2)⟩
      · simp
    cases hh : e.hid with
    | true =>
      have : addKeys d ks (e :: t) = addKeys d ks t := by simp [addKeys, hh]
      rw [this, ih]
      constructor
      · rintro (h | ⟨e', he, h⟩)
        · exact Or.inl h
        · exact Or.inr ⟨e', List.mem_cons_of_mem _ he, h⟩
      · rintro (h | ⟨e', he, h⟩)
        · exact Or.inl h
        · rcases List.mem_cons.1 he with rfl | he
          · rw [hh] at h; cases h.1
          · exact Or.inr ⟨e', he, h⟩
    | false =>
      have : addKeys d ks (e :: t) = addKeys d (addKey d ks e.key) t := by simp [addKeys, hh]
      rw [this, ih, hadd]
      constructor
      · rintro ((h | h) | ⟨e', he, h⟩)
        · exact Or.inl h
        · exact Or.inr ⟨e, List.mem_cons_self, hh, h.symm⟩
        · exact Or.inr ⟨e', List.mem_cons_of_mem _ he, h⟩
      · rintro (h | ⟨e', he, h⟩)
        · exact Or.inl (Or.inl h)
        · rcases List.mem_cons.1 he with rfl | he
          · exact Or.inl (Or.inr h.2.symm)
          · exact Or.inr ⟨e', he, h⟩

theorem addKeys_nodup (d : Nat) : ∀ (t : List Ent) (ks : List Bytes), Sorted t → ks.Nodup →
    (d = 0 → ∀ e ∈ t, e.key ∉ ks) → (addKeys d ks t).Nodup
  | [], ks, _, hn, _ => by simpa [addKeys] using hn
  | e :: t, ks, hs, hn, h0 => by
    have hs' : Sorted t := hs.of_cons
    have hlt : ∀ e' ∈ t, before e.key e'.key = true := (List.pairwise_cons.1 hs).1
    cases hh : e.hid with
    | true =>
      have : addKeys d ks (e :: t) = addKeys d ks t := by simp [addKeys, hh]
      rw [this]
      exact addKeys_nodup d t ks hs' hn (fun hd e' he => h0 hd e' (List.mem_cons_of_mem _ he))
    | false =>
      have : addKeys d ks (e :: t) = addKeys d (addKey d ks e.key) t := by simp [addKeys, hh]
      rw [this]
      refine addKeys_nodup d t _ hs' ?_ ?_
      · rw [addKey]; split
        · exact hn
        · next hc =>
          have hnk : e.key ∉ ks := by
            by_cases hd : d = 0
            · exact h0 hd e List.mem_cons_self
            · exact fun hm => hc ⟨hd, hm⟩
          rw [List.nodup_append]
          refine ⟨hn, by simp, ?_⟩
          intro a ha b hb
          rw [List.mem_singleton] at hb
          exact fun e' => hnk (by rw [← hb, ← e']; exact ha)
      · intro hd e' he
        rw [addKey, if_neg (fun h => h.1 hd)]
        intro hm
        rcases List.mem_append.1 hm with hm | hm
        · exact h0 hd e' (List.mem_cons_of_mem _ he) hm
        · rw [List.mem_singleton] at hm
          exact before_ne (hlt e' he) hm.symm

/-- All trees are sorted. -/
def SortedAll (s : St) : Prop := ∀ (o : Nat) ob, s.objs[o]? = some ob → Sorted ob.tree

theorem iterKeys_nodup {s : St} (hs : SortedAll s) : ∀ fuel d o ks l, ks.Nodup → (d = 0 → ks = []) →
    iterKeys s fuel d o ks = some l → l.Nodup
  | 0, _, _, _, _, _, _, h => by cases h
  | fuel + 1, d, o, ks, l, hn, h0, h => by
    rw [iterKeys] at h
    cases ho : s.objs[o]? with
    | none => rw [ho] at h; cases h; exact hn
    | some ob =>
      rw [ho] at h
      have hk := addKeys_nodup d ob.tree ks (hs o ob ho) hn (fun hd e _ => by rw [h0 hd]; simp)
      cases hp : ob.proto with
      | none => simp only [hp] at h; cases h; exact hk
      | some p =>
        simp only [hp] at h
        exact iterKeys_nodup hs fuel (d + 1) p _ l hk (fun e => by cases e) h

/-! ### Sorted trees and hidden entries in all histories -/

/-- No entry is hidden. -/
def NoHid (s : St) : Prop := ∀ (o : Nat) ob, s.objs[o]? = some ob → ∀ e ∈ ob.tree, e.hid = false

/-- Every tree of an object of the new state is a tree of an old one (of the same number), changed by insertions and
deletions, or empty. -/
def TreesFrom (P : List Ent → Prop) (s s' : St) : Prop :=
  (∀ (o : Nat) ob, s.objs[o]? = some ob → P ob.tree) → ∀ (o : Nat) ob, s'.objs[o]? = some ob → P ob.tree

theorem trees_set {P : List Ent → Prop} {s : St} {o : Nat} {ob' : Ob} {s' : St} (e : s'.objs = s.objs.set o ob')
    (h : (∀ (o : Nat) ob, s.objs[o]? = some ob → P ob.tree) → P ob'.tree) : TreesFrom P s s' := by
  intro hs o' b hb
  rw [e, List.getElem?_set] at hb
  split at hb
  · split at hb
    · cases hb; exact h hs
    · cases hb
  · exact hs o' b hb

theorem trees_keep {P : List Ent → Prop} {s : St} {o : Nat} {ob ob' : Ob} {s' : St} (ho : s.objs[o]? = some ob)
    (e : s'.objs = s.objs.set o ob') (ht : ob'.tree = ob.tree) : TreesFrom P s s' :=
  trees_set e (fun hs => ht ▸ hs o ob ho)

theorem trees_push {P : List Ent → Prop} {s : St} {ob' : Ob} {s' : St} (e : s'.objs = s.objs ++ [ob']) (h : P ob'.tree) : TreesFrom P s s' := by
  intro hs o' b hb
  rw [e, List.getElem?_append] at hb
  split at hb
  · exact hs o' b hb
  · cases e' : o' - s.objs.length with
    | zero => rw [e'] at hb; simp at hb; subst hb; exact h
    | succ n => rw [e'] at hb; simp at hb

theorem trees_same {P : List Ent → Prop} {s s' : St} (e : s'.objs = s.objs) : TreesFrom P s s' := by
  intro hs o b hb; rw [e] at hb; exact hs o b hb

theorem trees_insert {P : List Ent → Prop} {s s' : St} {o k c hid} (hP : ∀ t, P t → P (treeSet k c hid t))
    (e : insert s o k c hid = some s') : TreesFrom P s s' := by
  obtain ⟨ob, ho, e', _⟩ := insert_form e
  exact trees_set (by rw [e']) (fun hs => hP _ (hs o ob ho))

/-- A property of trees that insertion (of hidden entries only for `apply`), deletion and emptiness have is kept. -/
theorem trees_atom {P : List Ent → Prop} {k : Kind} {s s' : St} (h0 : P []) (hi : ∀ k c t, P t → P (treeSet k c false t))
    (hh : k = .apply → ∀ k c t, P t → P (treeSet k c true t)) (hd : ∀ k t, P t → P (treeDel t k)) (a : Atom E k s s') : TreesFrom P s s' := by
  cases a with
  | setv _ _ => exact trees_same rfl
  | incr _ => exact trees_same rfl
  | elem _ _ _ _ => exact trees_same rfl
  | cnt ho => exact trees_keep ho rfl rfl
  | slot ho _ _ => exact trees_keep ho rfl rfl
  | alloc _ => exact trees_same rfl
  | ins e _ => exact trees_insert (s := St.alloc s _) (hi _ _) e
  | share _ =>
    intro hs
    refine copyTree_keeps (J := fun s1 => ∀ (o : Nat) ob, s1.objs[o]? = some ob → P ob.tree) (P := fun _ _ => True) ?_ _ (fun _ _ => trivial) hs
    intro s1 k c s2 h1 _ e
    exact trees_insert (hi _ _) e h1
  | del ho _ => exact trees_set rfl (fun hs => hd _ _ (hs _ _ ho))
  | newPlain _ => exact trees_push rfl h0
  | newArr _ => exact trees_push rfl h0
  | newFilter _ _ => exact trees_push rfl h0
  | call _ => exact trees_same rfl
  | ret _ => exact trees_same rfl
  | values _ => exact trees_push rfl h0
  | setvO _ _ => exact trees_same rfl
  | each _ _ => exact trees_same rfl
  | @applied _ o ps _ e =>
    intro hs
    rw [apply] at e
    split at e
    · cases e
    · next ob _ =>
      split at e
      · cases e
        exact bindParams_keeps (o := o) (J := fun s1 => ∀ (o : Nat) ob, s1.objs[o]? = some ob → P ob.tree)
          (fun s k c s' h e => trees_insert (hh rfl _ _) e h) (fun s h => h) (ob.arr.getD []) ob.cnt ps 0 [] hs
      · cases e
  | setProto ho => exact trees_keep ho rfl rfl
  | freeze ho => exact trees_keep ho rfl rfl

theorem start_tree {n o : Nat} {ob : Ob} (h : (start n).objs[o]? = some ob) : ob.tree = [] := by
  rcases o with _ | _ | o
  · simp [start] at h; subst h; rfl
  · simp [start] at h; subst h; rfl
  · simp [start] at h

theorem run_sorted (hE : SpecialOk E) {n : Nat} {h : List Op} {s : St} {bs : List Bool} (hr : run E (start n) h = some (s, bs)) :
    SortedAll s :=
  (run_keeps hE (I := SortedAll) (P := fun _ => True)
    (fun _ _ _ _ _ hi a => trees_atom (P := Sorted) List.Pairwise.nil (fun _ _ _ h => sorted_set h) (fun _ _ _ _ h => sorted_set h)
      (fun k _ h => sorted_del k h) a hi) h (fun _ _ => trivial) (start_refs n)
    (fun o ob ho => by rw [start_tree ho]; exact List.Pairwise.nil) s bs hr).2

theorem hid_set (k c) : ∀ (t : List Ent), (∀ e ∈ t, e.hid = false) → ∀ e ∈ treeSet k c false t, e.hid = false
  | [], _, e, he => by rw [treeSet, List.mem_singleton] at he; subst he; rfl
  | d :: t, h, e, he => by
    have hd := h d List.mem_cons_self
    have ht : ∀ e ∈ t, e.hid = false := fun e he => h e (List.mem_cons_of_mem _ he)
    rw [treeSet] at he
    split at he
    · rcases List.mem_cons.1 he with rfl | he
      · simp [hd]
      · exact ht e he
    · split at he
      · rcases List.mem_cons.1 he with rfl | he
        · rfl
        · exact h e he
      · rcases List.mem_cons.1 he with rfl | he
        · exact hd
        · exact hid_set k c t ht e he

theorem run_noHid (hE : SpecialOk E) {h : List Op} {s0 s : St} {bs : List Bool} (ha : ∀ op ∈ h, op.kind ≠ .apply) (hf : Refs s0)
    (h0 : NoHid s0) (hr : run E s0 h = some (s, bs)) : NoHid s :=
  (run_keeps hE (I := NoHid) (P := fun op => op.kind ≠ .apply)
    (fun op hop _ _ _ hi a => trees_atom (P := fun t => ∀ e ∈ t, e.hid = false) (fun _ h => by cases h) (fun k c t h => hid_set k c t h)
      (fun e => absurd e hop) (fun k t h e he => h e (List.mem_filter.1 he).1) a hi) h ha hf h0 s bs hr).2

theorem start_noHid (n) : NoHid (start n) := fun o ob ho => by rw [start_tree ho]; intro e he; cases he

/-! ### Names and presence -/

theorem iterKeys_mem {s : St} (hn : NoHid s) (k : Bytes) : ∀ fuel d o ks l, iterKeys s fuel d o ks = some l →
    ∃ b, present s k fuel o = some b ∧ (k ∈ l ↔ k ∈ ks ∨ b = true)
  | 0, _, _, _, _, h => by cases h
  | fuel + 1, d, o, ks, l, h => by
    rw [iterKeys] at h
    rw [present]
    cases ho : s.objs[o]? with
    | none => rw [ho] at h; cases h; exact ⟨false, rfl, by simp⟩
    | some ob =>
      rw [ho] at h
      simp only
      have hmem : (∃ e ∈ ob.tree, e.hid = false ∧ e.key = k) ↔ (treeGet ob.tree k).isSome = true := by
        constructor
        · rintro ⟨e, he, _, hk⟩
          cases hg : treeGet ob.tree k with
          | some c => rfl
          | none => exact absurd hk (treeGet_none.1 hg e he)
        · intro hg
          obtain ⟨c, hc⟩ := Option.isSome_iff_exists.1 hg
          obtain ⟨e, he, hk, _⟩ := treeGet_mem hc
          exact ⟨e, he, hn o ob ho e he, hk⟩
      cases hp : ob.proto with
      | none =>
        simp only [hp] at h ⊢
        cases h
        rw [addKeys_mem, hmem]
        cases (treeGet ob.tree k).isSome with
        | true => exact ⟨true, by simp, by simp⟩
        | false => exact ⟨false, by simp, by simp⟩
      | some p =>
        simp only [hp] at h ⊢
        obtain ⟨b, h1, h2⟩ := iterKeys_mem hn k fuel (d + 1) p _ l h
        rw [addKeys_mem, hmem] at h2
        cases hg : (treeGet ob.tree k).isSome with
        | true => exact ⟨true, by simp, by rw [h2, hg]; simp⟩
        | false => exact ⟨b, by simpa using h1, by rw [h2, hg]; simp⟩

theorem iterKeys_some {s : St} (hd : Down s) : ∀ fuel d o ks, o < fuel → ∃ l, iterKeys s fuel d o ks = some l
  | 0, _, _, _, h => by omega
  | fuel + 1, d, o, ks, h => by
    rw [iterKeys]
    cases ho : s.objs[o]? with
    | none => exact ⟨ks, rfl⟩
    | some ob =>
      simp only
      cases hp : ob.proto with
      | none => exact ⟨_, rfl⟩
      | some p => exact iterKeys_some hd fuel (d + 1) p _ (by have := hd o ob p ho hp; omega)

theorem present_some {s : St} (hd : Down s) (k) : ∀ fuel o, o < fuel → ∃ b, present s k fuel o = some b
  | 0, _, h => by omega
  | fuel + 1, o, h => by
    rw [present]
    cases ho : s.objs[o]? with
    | none => exact ⟨_, rfl⟩
    | some ob =>
      simp only
      split
      · exact ⟨_, rfl⟩
      · cases hp : ob.proto with
        | none => exact ⟨_, rfl⟩
        | some p => exact present_some hd k fuel p (by have := hd o ob p ho hp; omega)

/-! ### Loops over names -/

theorem turn_vis {α : Type} {x v} {body : St → List Op} {s : St} {vis : List α} {next : St → Loop α} {P : List α → Prop}
    (h0 : P vis) (hn : ∀ s2, P (next s2).vis) : P (turn E x v body s vis next).vis := by
  rw [turn]
  split
  · split
    · exact hn _
    · exact h0
  · exact h0
  · exact h0

theorem forNames_sub (x o : Nat) (body : St → List Op) : ∀ (ks : List Bytes) (s : St) (vis : List Bytes),
    ∃ u, (forNames E x o body ks s vis).vis = vis ++ u ∧ u.Sublist ks
  | [], s, vis => ⟨[], by simp [forNames, Loop.vis], List.Sublist.refl _⟩
  | k :: r, s, vis => by
    rw [forNames]
    cases present s k (s.objs.length + 1) o with
    | none => exact ⟨[], by simp [Loop.vis], List.nil_sublist _⟩
    | some b =>
      cases b with
      | false =>
        obtain ⟨u, h1, h2⟩ := forNames_sub x o body r s vis
        exact ⟨u, h1, h2.cons k⟩
      | true =>
        refine turn_vis (P := fun l => ∃ u, l = vis ++ u ∧ u.Sublist (k :: r)) ?_ ?_
        · exact ⟨[k], rfl, by simp⟩
        · intro s2
          obtain ⟨u, h1, h2⟩ := forNames_sub x o body r s2 (vis ++ [k])
          exact ⟨k :: u, by rw [h1]; simp, h2.cons_cons k⟩

/-- C79: in every state a script can make, whatever the body of the loop does: `for (x in o)` takes each name at most once,
only names that were there at the beginning, and in the order `Object.keys` gives. -/
theorem C79_once (hE : SpecialOk E) (n : Nat) (h : List Op) {s : St} {bs : List Bool} (hr : run E (start n) h = some (s, bs))
    (o x : Nat) (body : St → List Op) {ks : List Bytes} (hk : namesOf s o = some ks) :
    (forNames E x o body ks s []).vis.Sublist ks ∧ (forNames E x o body ks s []).vis.Nodup := by
  obtain ⟨u, h1, h2⟩ := forNames_sub (E := E) x o body ks s []
  rw [List.nil_append] at h1
  rw [h1]
  exact ⟨h2, h2.nodup (iterKeys_nodup (run_sorted hE hr) _ 0 o [] ks List.nodup_nil (fun _ => rfl) hk)⟩

/-! ### Loops end, and reach everything -/

theorem run_lit {x v} {s s1 s2 : St} {B : List Op} {bs} (h1 : setVar s x ⟨v, false, false⟩ = .ok s1) (hv : isPrim v = true)
    (h2 : run E s1 B = some (s2, bs)) : run E s (.lit x v :: B) = some (s2, true :: bs) := by
  rw [run, step, if_pos hv, h1]
  simp [h2]

theorem setVar_crash {s x v} : setVar s x v ≠ .crash := by
  rw [setVar]; split <;> exact fun e => by cases e

/-- No `Object.setPrototypeOf`. -/
def noSet (h : List Op) : Prop := ∀ op ∈ h, ∀ o p, op ≠ .setProto o p

theorem kind_noSet {op : Op} (h : ∀ o p, op ≠ .setProto o p) : op.kind ≠ .setProto := by
  intro e
  cases op <;> simp [Op.kind] at e
  exact h _ _ rfl

theorem run_down (hE : SpecialOk E) {h : List Op} {s s' : St} {bs} (hp : noSet h) (hr : Refs s) (hd : Down s)
    (e : run E s h = some (s', bs)) : Refs s' ∧ Down s' :=
  run_keeps hE (I := Down) (P := fun op => ∀ o p, op ≠ .setProto o p)
    (fun op hop s1 s2 hr hi a => down_atom hr hi (kind_noSet hop) a) h hp hr hd s' bs e

theorem noSet_lit {x v} {B : List Op} (h : noSet B) : noSet (.lit x v :: B) := by
  intro op hop
  rcases List.mem_cons.1 hop with rfl | hop
  · exact fun o p e => by cases e
  · exact h op hop

/-- Keys only get more, prototypes stay. -/
def KeepsKeys (s s' : St) : Prop := ∀ (q : Nat) ob, s.objs[q]? = some ob → ∃ ob', s'.objs[q]? = some ob' ∧ ob'.proto = ob.proto ∧
  ∀ k, (treeGet ob.tree k).isSome = true → (treeGet ob'.tree k).isSome = true

theorem KeepsKeys.refl (s) : KeepsKeys s s := fun _ ob h => ⟨ob, h, rfl, fun _ h => h⟩

theorem KeepsKeys.trans {a b c} (h : KeepsKeys a b) (h' : KeepsKeys b c) : KeepsKeys a c := by
  intro q ob ho
  obtain ⟨ob1, h1, h2, h3⟩ := h q ob ho
  obtain ⟨ob2, g1, g2, g3⟩ := h' q ob1 h1
  exact ⟨ob2, g1, g2.trans h2, fun k hk => g3 k (h3 k hk)⟩

theorem keeps_same {s s' : St} (e : s'.objs = s.objs) : KeepsKeys s s' := by
  intro q ob ho; exact ⟨ob, by rw [e]; exact ho, rfl, fun _ h => h⟩

theorem keeps_set {s s' : St} {o : Nat} {ob ob' : Ob} (ho : s.objs[o]? = some ob) (e : s'.objs = s.objs.set o ob') (hp : ob'.proto = ob.proto)
    (hk : ∀ k, (treeGet ob.tree k).isSome = true → (treeGet ob'.tree k).isSome = true) : KeepsKeys s s' := by
  intro q b hb
  by_cases eq : o = q
  · subst eq
    rw [ho] at hb; cases hb
    refine ⟨ob', ?_, hp, hk⟩
    rw [e, List.getElem?_set, if_pos rfl, if_pos (List.getElem?_eq_some_iff.1 ho).1]
  · exact ⟨b, by rw [e, List.getElem?_set, if_neg eq]; exact hb, rfl, fun _ h => h⟩

theorem keeps_push {s s' : St} {ob : Ob} (e : s'.objs = s.objs ++ [ob]) : KeepsKeys s s' := by
  intro q b hb
  refine ⟨b, ?_, rfl, fun _ h => h⟩
  rw [e, List.getElem?_append_left (List.getElem?_eq_some_iff.1 hb).1]; exact hb

theorem keeps_insert {s s' : St} {o k c hid} (e : insert s o k c hid = some s') : KeepsKeys s s' := by
  obtain ⟨ob, ho, e', _⟩ := insert_form e
  refine keeps_set (ob' := { ob with tree := treeSet k c hid ob.tree }) ho (by rw [e']) rfl ?_
  intro k' h
  show (treeGet (treeSet k c hid ob.tree) k').isSome = true
  rw [treeGet_set]
  split
  · rfl
  · exact h

theorem keeps_atom {k : Kind} {s s' : St} (h1 : k ≠ .del) (h2 : k ≠ .setProto) (a : Atom E k s s') : KeepsKeys s s' := by
  cases a with
  | setv _ _ => exact keeps_same rfl
  | incr _ => exact keeps_same rfl
  | elem _ _ _ _ => exact keeps_same rfl
  | cnt ho => exact keeps_set ho rfl rfl (fun _ h => h)
  | slot ho _ _ => exact keeps_set ho rfl rfl (fun _ h => h)
  | alloc _ => exact keeps_same rfl
  | ins e _ => exact (keeps_same (s' := s.alloc _) rfl).trans (keeps_insert e)
  | share _ =>
    exact copyTree_keeps (J := KeepsKeys s) (P := fun _ _ => True) (fun s1 k c s2 h _ e => h.trans (keeps_insert e)) _ (fun _ _ => trivial) (.refl s)
  | del _ _ => exact absurd rfl h1
  | newPlain _ => exact keeps_push rfl
  | newArr _ => exact keeps_push rfl
  | newFilter _ _ => exact keeps_push rfl
  | call _ => exact keeps_same rfl
  | ret _ => exact keeps_same rfl
  | values _ => exact keeps_push rfl
  | setvO _ _ => exact keeps_same rfl
  | each _ _ => exact keeps_same rfl
  | @applied _ o ps _ e =>
    rw [apply] at e
    split at e
    · cases e
    · next ob _ =>
      split at e
      · cases e
        exact (bindParams_keeps (o := o) (J := KeepsKeys s) (fun s1 k c s2 h e => h.trans (keeps_insert e))
          (fun s1 h => h.trans (keeps_same rfl)) (ob.arr.getD []) ob.cnt ps 0 [] (.refl s)).trans (keeps_same rfl)
      · cases e
  | setProto _ => exact absurd rfl h2
  | freeze ho => exact keeps_set ho rfl rfl (fun _ h => h)

/-- Neither `delete` nor `Object.setPrototypeOf`. -/
def noLoss (h : List Op) : Prop := ∀ op ∈ h, op.kind ≠ .del ∧ op.kind ≠ .setProto

theorem run_keepsKeys (hE : SpecialOk E) {h : List Op} {s s' : St} {bs} (hp : noLoss h) (hr : Refs s) (e : run E s h = some (s', bs)) :
    KeepsKeys s s' :=
  (run_keeps hE (I := KeepsKeys s) (P := fun op => op.kind ≠ .del ∧ op.kind ≠ .setProto)
    (fun op hop s1 s2 _ hi a => hi.trans (keeps_atom hop.1 hop.2 a)) h hp hr (.refl s) s' bs e).2

theorem present_keeps {s s' : St} (hk : KeepsKeys s s') (hd : Down s') (k) : ∀ fuel o fuel', present s k fuel o = some true → o < fuel' →
    present s' k fuel' o = some true
  | 0, _, _, h, _ => by cases h
  | fuel + 1, o, 0, _, h => by omega
  | fuel + 1, o, fuel' + 1, h, hl => by
    rw [present] at h ⊢
    cases ho : s.objs[o]? with
    | none => rw [ho] at h; cases h
    | some ob =>
      obtain ⟨ob', ho', hp, hkk⟩ := hk o ob ho
      rw [ho] at h
      rw [ho']
      simp only at h ⊢
      split at h
      · next hg => rw [if_pos (hkk k hg)]
      · split
        · rfl
        · rw [hp]
          cases ep : ob.proto with
          | none => rw [ep] at h; cases h
          | some p =>
            rw [ep] at h
            exact present_keeps hk hd k fuel p fuel' h (by have := hd o ob' p ho' (by rw [hp, ep]); omega)

theorem run_len (hE : SpecialOk E) : ∀ {h : List Op} {s s' : St} {bs}, Refs s → run E s h = some (s', bs) → s.objs.length ≤ s'.objs.length := by
  intro h s s' bs hr e
  refine (run_keeps hE (I := fun s1 => s.objs.length ≤ s1.objs.length) (P := fun _ => True) ?_ h (fun _ _ => trivial) hr (Nat.le_refl _) s' bs e).2
  intro op _ s1 s2 _ hi a
  refine Nat.le_trans hi ?_
  by_cases h1 : op.kind = .del
  · rw [h1] at a; cases a; simp
  · by_cases h2 : op.kind = .setProto
    · rw [h2] at a; cases a; simp
    · have hk := keeps_atom h1 h2 a
      refine Nat.le_of_not_lt fun hlt => ?_
      obtain ⟨ob', h', _⟩ := hk s2.objs.length _ (List.getElem?_eq_getElem hlt)
      rw [List.getElem?_eq_none (Nat.le_refl _)] at h'; cases h'

/-- Loops whose bodies do not use `Object.setPrototypeOf` end. -/
theorem forNames_ends (hE : SpecialOk E) (x o : Nat) (body : St → List Op) (hb : ∀ s, noSet (body s)) :
    ∀ (ks : List Bytes) (s : St) (vis : List Bytes), Refs s → Down s → o < s.objs.length → ∀ v, forNames E x o body ks s vis ≠ .crash v
  | [], s, vis, _, _, _, v => fun e => by cases e
  | k :: r, s, vis, hr, hd, ho, v => by
    rw [forNames]
    obtain ⟨b, hb'⟩ := present_some hd k (s.objs.length + 1) o (by omega)
    rw [hb']
    cases b with
    | false => exact forNames_ends hE x o body hb r s vis hr hd ho v
    | true =>
      simp only
      rw [turn]
      cases e : setVar s x ⟨.str k, false, false⟩ with
      | crash => exact absurd e setVar_crash
      | err s1 => exact fun e => by cases e
      | ok s1 =>
        simp only
        have h1 : run E s [.lit x (.str k)] = some (s1, [true]) := run_lit e rfl rfl
        have hk1 := run_down hE (noSet_lit (fun _ h => by cases h)) hr hd h1
        have := run_ends hE (body s1) (hb s1) hk1.1 hk1.2
        obtain ⟨⟨s2, bs⟩, e2⟩ := Option.isSome_iff_exists.1 this
        rw [e2]
        have hk2 := run_down hE (hb s1) hk1.1 hk1.2 e2
        refine forNames_ends hE x o body hb r s2 _ hk2.1 hk2.2 ?_ v
        have l1 : s1.objs = s.objs := by
          rw [setVar] at e
          split at e
          · cases e; rfl
          · cases e
        have l2 := run_len hE hk1.1 e2
        rw [l1] at l2
        omega

theorem noLoss_noSet {h : List Op} (hl : noLoss h) : noSet h := fun op hop o p e => (hl op hop).2 (by rw [e]; rfl)

theorem forNames_all (hE : SpecialOk E) (x o : Nat) (body : St → List Op) (hb : ∀ s, noLoss (body s)) :
    ∀ (ks : List Bytes) (s s' : St) (vis vis' : List Bytes), Refs s → Down s → o < s.objs.length →
    (∀ k ∈ ks, present s k (s.objs.length + 1) o = some true) → forNames E x o body ks s vis = .done s' vis' → vis' = vis ++ ks
  | [], s, s', vis, vis', _, _, _, _, e => by
    rw [forNames] at e; cases e; simp
  | k :: r, s, s', vis, vis', hr, hd, ho, hp, e => by
    rw [forNames, hp k List.mem_cons_self] at e
    simp only at e
    rw [turn] at e
    cases e1 : setVar s x ⟨.str k, false, false⟩ with
    | crash => exact absurd e1 setVar_crash
    | err s1 => rw [e1] at e; cases e
    | ok s1 =>
      rw [e1] at e
      simp only at e
      cases e2 : run E s1 (body s1) with
      | none => rw [e2] at e; cases e
      | some p2 =>
        obtain ⟨s2, bs⟩ := p2
        rw [e2] at e
        simp only at e
        have hns : noSet (.lit x (.str k) :: body s1) := noSet_lit (noLoss_noSet (hb s1))
        have hall := run_lit (E := E) e1 rfl e2
        have hk2 := run_down hE hns hr hd hall
        have hkk : KeepsKeys s s2 := run_keepsKeys hE (by
          intro op hop
          rcases List.mem_cons.1 hop with rfl | hop
          · exact ⟨(fun e => by cases e), (fun e => by cases e)⟩
          · exact hb s1 op hop) hr hall
        have hlen := run_len hE hr hall
        have := forNames_all hE x o body hb r s2 s' (vis ++ [k]) vis' hk2.1 hk2.2 (by omega)
          (fun k' hk' => present_keeps hkk hk2.2 k' _ o _ (hp k' (List.mem_cons_of_mem _ hk')) (by omega)) e
        rw [this]; simp

/-- C79: without `Object.setPrototypeOf`, before the loop and in its body, every `for (x in o)` ends. -/
theorem C79_ends_partial (hE : SpecialOk E) (n : Nat) (h : List Op) {s : St} {bs : List Bool} (hr : run E (start n) h = some (s, bs))
    (hh : noSet h) (o x : Nat) (ho : o < s.objs.length) (body : St → List Op) (hb : ∀ s, noSet (body s)) :
    ∃ ks, namesOf s o = some ks ∧ ∀ vis, forNames E x o body ks s [] ≠ .crash vis := by
  have hd := run_down hE hh (start_refs n) (start_down n) hr
  obtain ⟨ks, hk⟩ := iterKeys_some hd.2 (s.objs.length + 1) 0 o [] (by omega)
  exact ⟨ks, hk, forNames_ends hE x o body hb ks s [] hd.1 hd.2 ho⟩

/-- C79: if neither the script before the loop uses `Object.setPrototypeOf` or `apply` nor the body `delete` or
`Object.setPrototypeOf`, the body is run for every name there was at the beginning. -/
theorem C79_all_partial (hE : SpecialOk E) (n : Nat) (h : List Op) {s s' : St} {bs : List Bool} (hr : run E (start n) h = some (s, bs))
    (hh : ∀ op ∈ h, op.kind ≠ .setProto ∧ op.kind ≠ .apply) (o x : Nat) (ho : o < s.objs.length) (body : St → List Op)
    (hb : ∀ s, noLoss (body s)) {ks vis : List Bytes} (hk : namesOf s o = some ks) (hl : forNames E x o body ks s [] = .done s' vis) :
    vis = ks := by
  have hns : noSet h := fun op hop o p e => (hh op hop).1 (by rw [e]; rfl)
  have hd := run_down hE hns (start_refs n) (start_down n) hr
  have hnh := run_noHid hE (fun op hop => (hh op hop).2) (start_refs n) (start_noHid n) hr
  have := forNames_all hE x o body hb ks s s' [] vis hd.1 hd.2 ho (fun k hk' => by
    obtain ⟨b, h1, h2⟩ := iterKeys_mem hnh k _ 0 o [] ks hk
    have := h2.1 hk'
    rcases this with h3 | h3
    · cases h3
    · rw [← h3]; exact h1) hl
  rw [this, List.nil_append]

/-! ### The names are those ECMAScript knows -/

theorem fine_kind {t : SSt} {op : Op} (h : fine m E t op = true) : op.kind ≠ .setProto ∧ op.kind ≠ .apply := by
  cases op <;> first | cases h; done | exact ⟨(fun e => by cases e), (fun e => by cases e)⟩

theorem fineRun_kind : ∀ (h : List Op) {t : SSt}, fineRun m E t h = true → ∀ op ∈ h, op.kind ≠ .setProto ∧ op.kind ≠ .apply
  | op :: h, t, hf, op', hop => by
    rw [fineRun, Bool.and_eq_true] at hf
    rcases List.mem_cons.1 hop with rfl | hop
    · exact fine_kind hf.1
    · have hf2 := hf.2
      revert hf2
      cases sstep E t op with
      | none => intro h; cases h
      | some p => intro hf2; exact fineRun_kind h hf2 op' hop

theorem present_look {s : St} {t : SSt} (h : R m E s t) (k : Bytes) : ∀ fuel o, t.len o = none →
    present s k fuel o = none ∨ present s k fuel o = some (t.lookIn k fuel o).isSome
  | 0, _, _ => Or.inl rfl
  | fuel + 1, o, hl => by
    rw [present, SSt.lookIn]
    cases ho : s.objs[o]? with
    | none =>
      right
      have h1 : t.own o k = none := by rw [h.own, ownCell, ho]; rfl
      have h2 : t.proto o = none := by rw [h.proto, ho]; rfl
      rw [h1, h2]; rfl
    | some ob =>
      have hia : ob.isarr = false := by
        have := h.len o
        rw [hl, ho] at this
        simp only [Option.bind_some, obLen] at this
        cases hx : ob.isarr with
        | false => rfl
        | true => rw [hx] at this; cases this
      have h1 : t.own o k = (treeGet ob.tree k).map s.val := by
        rw [h.own, ownCell_ob ho, Ob.own, if_neg (by rw [hia]; simp)]
      have h2 : t.proto o = ob.proto := by rw [h.proto, ho]; rfl
      simp only
      rw [h1, h2]
      cases hg : treeGet ob.tree k with
      | some c => right; rfl
      | none =>
        simp only [Option.isSome_none, Option.map_none]
        cases hp : ob.proto with
        | none => right; rfl
        | some p => exact present_look h k fuel p (h.pr o p (by rw [h2, hp])).2

/-- C79: after the histories of C75, the names for `for (x in o)`, with `o` no array, are exactly the properties of `o` that
can be read, own and inherited, each once. -/
theorem C79_names_partial (hE : SpecialOk E) (hmax : E.maxList ≤ 2 ^ 31) (n : Nat) (h : List Op) {s : St} {bs : List Bool} {q : Nat}
    (hf : fineRun m E (sstart n) h = true) (hr : run E (start n) h = some (s, bs)) (hq : q < s.objs.length) (hl : lenOf s q = none) :
    ∃ t bs' ks, srun E (sstart n) h = some (t, bs') ∧ namesOf s q = some ks ∧ ks.Nodup ∧ ∀ k, k ∈ ks ↔ (t.get q k).isSome = true := by
  obtain ⟨s1, t, bs1, g1, g2, g3⟩ := run_agree hmax h (start_R m E n) hf
  rw [hr] at g1; cases g1
  have hkd := fineRun_kind h hf
  have hns : noSet h := fun op hop o p e => (hkd op hop).1 (by rw [e]; rfl)
  have hd := run_down hE hns (start_refs n) (start_down n) hr
  have hnh := run_noHid hE (fun op hop => (hkd op hop).2) (start_refs n) (start_noHid n) hr
  obtain ⟨ks, hk⟩ := iterKeys_some hd.2 (s.objs.length + 1) 0 q [] (by omega)
  have htl : t.len q = none := by rw [g3.len]; exact hl
  refine ⟨t, bs, ks, g2, hk, iterKeys_nodup (run_sorted hE hr) _ 0 q [] ks List.nodup_nil (fun _ => rfl) hk, fun k => ?_⟩
  obtain ⟨b, h1, h2⟩ := iterKeys_mem hnh k _ 0 q [] ks hk
  rw [h2, SSt.get, if_neg (by rw [htl]; simp), g3.n]
  rcases present_look g3 k (s.objs.length + 1) q htl with h3 | h3
  · rw [h3] at h1; cases h1
  · rw [h3] at h1; cases h1; simp

/-! ### Loops over arrays -/

theorem indices_mem (ob : Ob) (i : Nat) : i ∈ indices ob ↔ (ob.elem i).isSome = true := by
  rw [indices, List.mem_filter, List.mem_range, Ob.elem]
  split
  · next h => exact ⟨fun h' => h'.2, fun h' => ⟨h, h'⟩⟩
  · next h => exact ⟨fun h' => absurd h'.1 h, fun h' => by cases h'⟩

theorem indices_sorted (ob : Ob) : (indices ob).Pairwise (· < ·) := List.Pairwise.filter _ List.pairwise_lt_range

/-- C79: `for (x in a)` and `for (x of a)` take positions in ascending order, each at most once, and make no more turns than
the array was long at the beginning, in every state and whatever the body does. -/
theorem C79_elements_once (E : Env) (x o : Nat) (isof : Bool) (body : St → List Op) : ∀ (n cur : Nat) (s : St) (vis : List Nat),
    ∃ u, (forElems E x o isof body n cur s vis).vis = vis ++ u ∧ u.Pairwise (· < ·) ∧ (∀ i ∈ u, cur ≤ i) ∧ u.length ≤ n
  | 0, cur, s, vis => ⟨[], by simp [forElems, Loop.vis], .nil, (fun i h => by cases h), Nat.le_refl _⟩
  | n + 1, cur, s, vis => by
    have hnil : ∃ u, vis = vis ++ u ∧ u.Pairwise (· < ·) ∧ (∀ i ∈ u, cur ≤ i) ∧ u.length ≤ n + 1 :=
      ⟨[], by simp, .nil, (fun i h => by cases h), Nat.zero_le _⟩
    rw [forElems]
    cases ho : s.objs[o]? with
    | none => exact hnil
    | some ob =>
      simp only
      cases hn : nextElem ob cur with
      | none => exact hnil
      | some i =>
        simp only
        have hi : cur ≤ i := by
          rw [nextElem] at hn
          have := List.find?_some hn
          simpa using this
        refine turn_vis (P := fun l => ∃ u, l = vis ++ u ∧ u.Pairwise (· < ·) ∧ (∀ i ∈ u, cur ≤ i) ∧ u.length ≤ n + 1) ?_ ?_
        · exact ⟨[i], rfl, List.pairwise_singleton _ _, (fun j hj => by rw [List.mem_singleton] at hj; omega), by simp⟩
        · intro s2
          obtain ⟨u, h1, h2, h3, h4⟩ := C79_elements_once E x o isof body n (i + 1) s2 (vis ++ [i])
          refine ⟨i :: u, by rw [h1]; simp, List.pairwise_cons.2 ⟨fun j hj => h3 j hj, h2⟩, ?_, by simpa using h4⟩
          intro j hj
          rcases List.mem_cons.1 hj with rfl | hj
          · exact hi
          · have := h3 j hj; omega

theorem find_ge : ∀ (l : List Nat), l.Pairwise (· < ·) → ∀ cur, l.filter (fun i => decide (cur ≤ i)) =
    match l.find? (fun i => decide (cur ≤ i)) with
    | none => []
    | some i => i :: l.filter (fun j => decide (i + 1 ≤ j))
  | [], _, cur => rfl
  | a :: l, hs, cur => by
    have hs' := List.pairwise_cons.1 hs
    by_cases h : cur ≤ a
    · rw [List.find?_cons_of_pos (by simpa using h), List.filter_cons_of_pos (by simpa using h)]
      simp only
      rw [List.filter_cons_of_neg (by simp)]
      congr 1
      apply List.filter_congr
      intro b hb
      have := hs'.1 b hb
      have h1 : cur ≤ b := by omega
      have h2 : a + 1 ≤ b := by omega
      simp [h1, h2]
    · rw [List.find?_cons_of_neg (by simpa using h), List.filter_cons_of_neg (by simpa using h), find_ge l hs'.2 cur]
      cases hf : l.find? (fun i => decide (cur ≤ i)) with
      | none => rfl
      | some i =>
        have hi : cur ≤ i := by have := List.find?_some hf; simpa using this
        simp only
        rw [List.filter_cons_of_neg (by simp; omega)]

/-- C79: if the body leaves the array alone, `for (x in a)` takes exactly the positions that hold an element. -/
theorem C79_elements_partial (E : Env) (x o : Nat) (isof : Bool) (body : St → List Op) {ob : Ob}
    (hb : ∀ s s' bs, run E s (body s) = some (s', bs) → s'.objs[o]? = s.objs[o]?) :
    ∀ (n cur : Nat) (s s' : St) (vis vis' : List Nat), s.objs[o]? = some ob → ((indices ob).filter (fun i => decide (cur ≤ i))).length ≤ n →
    forElems E x o isof body n cur s vis = .done s' vis' → vis' = vis ++ (indices ob).filter (fun i => decide (cur ≤ i))
  | 0, cur, s, s', vis, vis', ho, hl, e => by
    rw [forElems] at e; cases e
    rw [List.length_eq_zero_iff.1 (Nat.le_zero.1 hl), List.append_nil]
  | n + 1, cur, s, s', vis, vis', ho, hl, e => by
    rw [forElems, ho] at e
    simp only at e
    have hfg := find_ge (indices ob) (indices_sorted ob) cur
    rw [nextElem] at e
    cases hn : (indices ob).find? (fun i => decide (cur ≤ i)) with
    | none =>
      rw [hn] at e hfg
      rw [hfg]
      cases e; simp
    | some i =>
      rw [hn] at e hfg
      simp only at e hfg
      rw [hfg] at hl ⊢
      rw [turn] at e
      cases e1 : setVar s x (elemVal s ob isof i) with
      | crash => exact absurd e1 setVar_crash
      | err s1 => rw [e1] at e; cases e
      | ok s1 =>
        rw [e1] at e
        simp only at e
        cases e2 : run E s1 (body s1) with
        | none => rw [e2] at e; cases e
        | some p2 =>
          obtain ⟨s2, bs⟩ := p2
          rw [e2] at e
          simp only at e
          have l1 : s1.objs = s.objs := by
            rw [setVar] at e1
            split at e1
            · cases e1; rfl
            · cases e1
          have := C79_elements_partial E x o isof body hb n (i + 1) s2 s' (vis ++ [i]) vis' (by rw [hb s1 s2 bs e2, l1, ho])
            (by simpa using hl) e
          rw [this]; simp

/-! ### C80 -/

/-- C80: after the histories of C75, `o.hasOwnProperty(k)` says whether `k` is an own property. -/
theorem C80_hasOwn_partial (hmax : E.maxList ≤ 2 ^ 31) (n : Nat) (h : List Op) {s : St} {bs : List Bool} (q : Nat) (k : Key)
    (hf : fineRun m E (sstart n) h = true) (hr : run E (start n) h = some (s, bs)) (hk : plainKey k.name = true) :
    ∃ t bs', srun E (sstart n) h = some (t, bs') ∧ hasOwn s q k = (t.own q k.name).isSome := by
  obtain ⟨s1, t, bs1, g1, g2, g3⟩ := run_agree hmax h (start_R m E n) hf
  rw [hr] at g1; cases g1
  refine ⟨t, bs, g2, ?_⟩
  rw [← prop_own g3 hk, hasOwn, propOf]
  cases lookOwn s q k.name <;> rfl

/-- C80: after the histories of C75, `k in o` says whether `o[k]` can be read, if `k` is not inherited and, for an array, is
a position. -/
theorem C80_in_partial (hmax : E.maxList ≤ 2 ^ 31) (n : Nat) (h : List Op) {s : St} {bs : List Bool} (q : Nat) (k : Key)
    (hf : fineRun m E (sstart n) h = true) (hr : run E (start n) h = some (s, bs)) (hn : inName k = k.name)
    (ha : (lenOf s q).isSome = true → canon k.name = true) :
    ∃ t bs', srun E (sstart n) h = some (t, bs') ∧ (ownOrNone t q k.name = true → inOp s q k = (t.get q k.name).isSome) := by
  obtain ⟨s1, t, bs1, g1, g2, g3⟩ := run_agree hmax h (start_R m E n) hf
  rw [hr] at g1; cases g1
  refine ⟨t, bs, g2, fun ho => ?_⟩
  have hlen : t.len q = lenOf s q := g3.len q
  have hget : (t.get q k.name).isSome = (t.own q k.name).isSome := by
    rw [ownOrNone, Bool.or_eq_true] at ho
    cases e : t.own q k.name with
    | none => rw [e] at ho; simp at ho; simp [ho]
    | some v =>
      rw [SSt.get]
      split
      · next hc =>
        obtain ⟨len, hln⟩ := Option.isSome_iff_exists.1 hc.2
        rw [hln]; rfl
      · rw [SSt.lookIn, e]
  rw [hget, inOp, g3.own, ownCell, hn]
  cases eo : s.objs[q]? with
  | none => rfl
  | some ob =>
    simp only [Option.bind_some]
    have hok := g3.ok q ob eo
    rw [Option.isSome_map]
    cases hi : ob.isarr with
    | false =>
      rw [hok.plain hi, Ob.own, hi]; rfl
    | true =>
      obtain ⟨a, haa, _⟩ := hok.arr hi
      have hc := ha (by rw [lenOf, eo]; simp [obLen, hi])
      obtain ⟨i, hi1, hi2⟩ := canon_some hc
      have hik := indexKey_some hi1
      rw [haa, Ob.own, hi, hi1, hik, arrLookup_index haa hi2]; rfl

/-- C80: after the histories of C75, `Object.keys(a)` of an array gives the positions of its elements in ascending order. -/
theorem C80_array_keys_partial (hmax : E.maxList ≤ 2 ^ 31) (n : Nat) (h : List Op) {s : St} {bs : List Bool} (q : Nat)
    (hf : fineRun m E (sstart n) h = true) (hr : run E (start n) h = some (s, bs)) (ha : (lenOf s q).isSome = true) :
    ∃ t bs' l, srun E (sstart n) h = some (t, bs') ∧ keysOf s q = .nums l ∧ l.Pairwise (· < ·) ∧
      ∀ i, i ∈ l ↔ (t.own q (Json.decNat i)).isSome = true := by
  obtain ⟨s1, t, bs1, g1, g2, g3⟩ := run_agree hmax h (start_R m E n) hf
  rw [hr] at g1; cases g1
  cases eo : s.objs[q]? with
  | none => rw [lenOf, eo] at ha; cases ha
  | some ob =>
    have hi : ob.isarr = true := by
      rw [lenOf, eo] at ha
      simp only [Option.bind_some, obLen] at ha
      cases hx : ob.isarr with
      | true => rfl
      | false => rw [hx] at ha; cases ha
    obtain ⟨a, haa, _⟩ := (g3.ok q ob eo).arr hi
    refine ⟨t, bs, indices ob, g2, ?_, indices_sorted ob, fun i => ?_⟩
    · rw [keysOf, eo]; simp only; rw [haa]; rfl
    · rw [indices_mem, g3.own, ownCell_ob eo, Option.isSome_map, Ob.own, hi, indexKey_dec]; rfl

/-- C80: after the histories of C75, `Object.keys(o)` of an object that inherits nothing gives its own properties, each
once. -/
theorem C80_keys_partial (hE : SpecialOk E) (hmax : E.maxList ≤ 2 ^ 31) (n : Nat) (h : List Op) {s : St} {bs : List Bool} (q : Nat)
    (hf : fineRun m E (sstart n) h = true) (hr : run E (start n) h = some (s, bs)) (hq : q < s.objs.length) (hl : lenOf s q = none) :
    ∃ t bs' l, srun E (sstart n) h = some (t, bs') ∧ keysOf s q = .names l ∧ l.Nodup ∧
      ((∀ k, ownOrNone t q k = true) → ∀ k, k ∈ l ↔ (t.own q k).isSome = true) := by
  obtain ⟨t, bs', ks, g2, hk, hnd, hmem⟩ := C79_names_partial hE hmax n h hf hr hq hl
  obtain ⟨s1, t1, bs1, g1, g2', g3⟩ := run_agree hmax h (start_R m E n) hf
  rw [hr] at g1; cases g1
  rw [g2] at g2'; cases g2'
  refine ⟨t, bs, ks, g2, ?_, hnd, fun ho k => ?_⟩
  · cases eo : s.objs[q]? with
    | none => rw [List.getElem?_eq_none_iff] at eo; omega
    | some ob =>
      have hi : ob.isarr = false := by
        rw [lenOf, eo] at hl
        simp only [Option.bind_some, obLen] at hl
        cases hx : ob.isarr with
        | false => rfl
        | true => rw [hx] at hl; cases hl
      rw [keysOf, eo]
      simp only [(g3.ok q ob eo).plain hi, hk]
      rfl
  · rw [hmem]
    have h1 := ho k
    rw [ownOrNone, Bool.or_eq_true] at h1
    cases e : t.own q k with
    | none => rw [e] at h1; simp at h1; simp [h1]
    | some v =>
      have hlen : t.len q = none := by rw [g3.len]; exact hl
      rw [SSt.get, if_neg (by rw [hlen]; simp), SSt.lookIn, e]

end Verif.Obj
