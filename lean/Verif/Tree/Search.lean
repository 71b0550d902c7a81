import Verif.Tree.Orders

/-! C46: iterators (`Jsi_TreeSearchFirst`, `Jsi_TreeSearchNext`).  The tree does not change during the
search (`epoch` stays the same).  A stack or queue of node pointers is a list. -/

namespace Verif.Tree

open Hash (Op specStep specRun)

variable {K V : Type}

/-- Address of a node; `none` for NULL. -/
def T.addr : T K V → Option Nat
  | .nil => none
  | .node _ _ e _ => some e.id

/-! ### In order -/

/-- `searchAdd`, `JSI_TREE_ORDER_IN` (src/jsiTree.c:711-724): `current`, then the stack, top first; the
entry returned and the state after. -/
def inNext : T K V → List (T K V) → Option (Entry K V × T K V × List (T K V))
  | .node c l e r, st => inNext r (.node c l e r :: st)
  | .nil, .node _ l e _ :: st => some (e, l, st)
  | .nil, _ => none

/-- Repeat until NULL, at most `n` times. -/
def inAll : Nat → T K V → List (T K V) → List (Entry K V)
  | 0, _, _ => []
  | n + 1, cur, st =>
    match inNext cur st with
    | none => []
    | some (e, cur', st') => e :: inAll n cur' st'

/-- A complete search in order: `current` starts at the root (src/jsiTree.c:741-761). -/
def searchIn (t : Tree K V) : List (Entry K V) := inAll (t.numEntries + 1) t.root []

/-- The largest number of pointers on the stack during `inNext`. -/
def inDepth : T K V → List (T K V) → Nat
  | .node c l e r, st => inDepth r (.node c l e r :: st)
  | .nil, st => st.length

/-! ### Post order -/

/-- `searchAdd`, `JSI_TREE_ORDER_POST` (src/jsiTree.c:681-701): `current` (an address), the top of the
stack and the rest of it. -/
def postLoop (cur : Nat) : T K V → List (T K V) → Option (Entry K V × List (T K V))
  | .nil, _ => none
  | .node c l e r, st =>
    if r.addr = some cur ∨ l.addr = some cur ∨ (l.addr = none ∧ r.addr = none) then some (e, st)
    else match r, l with
      | .node rc rl re rr, .nil => postLoop cur (.node rc rl re rr) (.node c .nil e (.node rc rl re rr) :: st)
      | .node rc rl re rr, .node lc ll le lr =>
        postLoop cur (.node rc rl re rr)
          (.node lc ll le lr :: .node c (.node lc ll le lr) e (.node rc rl re rr) :: st)
      | .nil, .node lc ll le lr => postLoop cur (.node lc ll le lr) (.node c (.node lc ll le lr) e .nil :: st)
      | .nil, .nil => none

/-- Repeat until the stack is empty, at most `n` times. -/
def postAll : Nat → Nat → List (T K V) → List (Entry K V)
  | 0, _, _ => []
  | _, _, [] => []
  | n + 1, cur, t :: st =>
    match postLoop cur t st with
    | none => []
    | some (e, st') => e :: postAll n e.id st'

/-- A complete search in post order: the root is pushed and is `current`. -/
def searchPost (t : Tree K V) : List (Entry K V) :=
  match t.root with
  | .nil => []
  | .node c l e r => postAll (t.numEntries + 1) e.id [.node c l e r]

/-! ### Pre order -/

/-- Push a child unless it is NULL. -/
def pushNode : T K V → List (T K V) → List (T K V)
  | .nil, st => st
  | .node c l e r, st => .node c l e r :: st

/-- `searchAdd`, `JSI_TREE_ORDER_PRE` (src/jsiTree.c:703-710, 733), once the node `h` is chosen. -/
def preStep (h : T K V) (st : List (T K V)) : Option (Entry K V × List (T K V)) :=
  match h with
  | .nil => none
  | .node c l e r =>
    match pushNode r (pushNode l (.node c l e r :: st)) with
    | .node _ _ e' _ :: st' => some (e', st')
    | _ => none

/-- The following calls. -/
def preAll : Nat → List (T K V) → List (Entry K V)
  | 0, _ => []
  | _, [] => []
  | n + 1, h :: st =>
    match preStep h st with
    | none => []
    | some (e, st') => e :: preAll n st'

/-- The first `n` results of a search in pre order. -/
def searchPre (n : Nat) (t : T K V) : List (Entry K V) := preAll n [t]

/-! ### Level order -/

/-- The queue and its capacity; `fixed` while it is the array inside the search record. -/
structure LQ (K V : Type) where
  q : List (T K V)
  max : Nat
  fixed : Bool

/-- `searchSpace(searchPtr, 2)` (src/jsiTree.c:642-656): the first time the array grows its contents are
not copied (all pointers NULL). -/
def searchSpace (s : LQ K V) : LQ K V :=
  if s.max ≤ s.q.length + 2 then
    ⟨if s.fixed then s.q.map (fun _ => .nil) else s.q, s.max * 2, false⟩
  else s

/-- `searchAdd`, `JSI_TREE_ORDER_LEVEL` (src/jsiTree.c:661-680), calls after the first.  `none`: a NULL
pointer is dereferenced; `some none`: the search ends. -/
def levelNext (s : LQ K V) : Option (Option (Entry K V × LQ K V)) :=
  match (searchSpace s).q with
  | [] => some none
  | .nil :: _ => none
  | .node _ l e r :: q =>
    some (some (e, { searchSpace s with q := q ++ pushNode r [] ++ pushNode l [] }))

/-- Repeat, at most `n` times; `none` is a crash. -/
def levelAll : Nat → LQ K V → Option (List (Entry K V))
  | 0, _ => some []
  | n + 1, s =>
    match levelNext s with
    | none => none
    | some none => some []
    | some (some (e, s')) => (levelAll n s').map (e :: ·)

/-- A complete search by level: the static array has 200 places (src/jsi.h:800). -/
def searchLevel (t : Tree K V) : Option (List (Entry K V)) :=
  match t.root with
  | .nil => some []
  | .node _ l e r =>
    (levelAll (t.numEntries + 1) ⟨pushNode r [] ++ pushNode l [], 200, true⟩).map (e :: ·)

/-! ### Proofs -/

theorem inNext_spec : ∀ (cur : T K V) (st : List (T K V)) (w : List (Entry K V)),
    (∀ x ∈ st, x ≠ .nil) →
    w = cur.walk ++ st.flatMap (fun x => match x with | .nil => [] | .node _ l e _ => e :: l.walk) →
    match inNext cur st with
    | none => w = []
    | some (e, cur', st') => (∀ x ∈ st', x ≠ .nil) ∧ w = e :: (cur'.walk ++
        st'.flatMap (fun x => match x with | .nil => [] | .node _ l e _ => e :: l.walk))
  | .node c l e r, st, w, hst, hw => by
    simp only [inNext]
    refine inNext_spec r (.node c l e r :: st) w ?_ ?_
    · intro x hx
      rcases List.mem_cons.1 hx with rfl | hx
      · simp
      · exact hst x hx
    · rw [hw]; simp [T.walk]
  | .nil, [], w, hst, hw => by simpa [inNext, T.walk] using hw
  | .nil, .nil :: st, w, hst, hw => absurd rfl (hst .nil (by simp))
  | .nil, .node c l e r :: st, w, hst, hw => by
    simp only [inNext]
    exact ⟨fun x hx => hst x (by simp [hx]), by rw [hw]; simp [T.walk]⟩

theorem inAll_spec : ∀ (n : Nat) (cur : T K V) (st : List (T K V)) (w : List (Entry K V)),
    (∀ x ∈ st, x ≠ .nil) →
    w = cur.walk ++ st.flatMap (fun x => match x with | .nil => [] | .node _ l e _ => e :: l.walk) →
    w.length < n → inAll n cur st = w := by
  intro n
  induction n with
  | zero => intro cur st w _ _ h; omega
  | succ n ih =>
    intro cur st w hst hw hlt
    have h := inNext_spec cur st w hst hw
    simp only [inAll]
    cases hn : inNext cur st with
    | none => rw [hn] at h; exact h.symm
    | some p =>
      obtain ⟨e, cur', st'⟩ := p
      rw [hn] at h
      simp only at h ⊢
      rw [h.2]
      rw [h.2, List.length_cons] at hlt
      rw [ih cur' st' _ h.1 rfl (by omega)]

/-- **C46**: after any history on a word, shared-string or string keyed tree (with an order), an
in-order search returns exactly what the in-order walk visits — by C16 every live key once, in
ascending order. -/
theorem C46_in_order [DecidableEq K] {cmp : K → K → Int} (ho : IsOrder cmp) (kind : Kind)
    (hk : kind ≠ .struct) (z : V) (ops : List (Op K V)) (t : Tree K V)
    (h : run cmp kind z new ops = some t) : searchIn t = t.root.walk := by
  obtain ⟨h3, _⟩ := run_inv ho hk z ops new t (fun _ => none) (inv_new cmp)
    (by intro k v; simp [new, T.walk]) h
  exact inAll_spec _ _ _ _ (by simp) (by simp) (by rw [h3.cnt]; omega)

theorem inDepth_le : ∀ (cur : T K V) (st : List (T K V)), inDepth cur st ≤ cur.height + st.length
  | .nil, st => by simp [inDepth, T.height]
  | .node c l e r, st => by
    simp only [inDepth, T.height]
    have := inDepth_le r (.node c l e r :: st)
    simp only [List.length_cons] at this
    omega

/-- The in-order search state keeps its stack within the height of the tree. -/
theorem inNext_depth : ∀ (cur : T K V) (st : List (T K V)) (hgt : Nat),
    (∀ i (h : i < st.length), (match st[i] with | .nil => 0 | .node _ l _ _ => l.height) + (st.length - i - 1) ≤ hgt - 1) →
    cur.height + st.length ≤ hgt →
    match inNext cur st with
    | none => True
    | some (_, cur', st') => cur'.height + st'.length ≤ hgt ∧
      (∀ i (h : i < st'.length), (match st'[i] with | .nil => 0 | .node _ l _ _ => l.height) + (st'.length - i - 1) ≤ hgt - 1)
  | .node c l e r, st, hgt, h1, h2 => by
    simp only [inNext]
    simp only [T.height] at h2
    refine inNext_depth r (.node c l e r :: st) hgt ?_ ?_
    · intro i hi
      cases i with
      | zero => simp; omega
      | succ i =>
        have := h1 i (by simpa using hi)
        simp only [List.getElem_cons_succ, List.length_cons]
        omega
    · simp only [List.length_cons]; omega
  | .nil, [], hgt, h1, h2 => by simp [inNext]
  | .nil, .nil :: st, hgt, h1, h2 => by simp [inNext]
  | .nil, .node c l e r :: st, hgt, h1, h2 => by
    simp only [inNext]
    simp only [List.length_cons, T.height] at h2
    refine ⟨?_, ?_⟩
    · have := h1 0 (by simp)
      simp only [List.getElem_cons_zero, List.length_cons] at this
      omega
    · intro i hi
      have := h1 (i + 1) (by simpa using hi)
      simp only [List.getElem_cons_succ, List.length_cons] at this
      omega

/-- States of an in-order search. -/
inductive InReach (t : T K V) : T K V → List (T K V) → Prop
  | start : InReach t t []
  | step {cur st e cur' st'} : InReach t cur st → inNext cur st = some (e, cur', st') → InReach t cur' st'

/-- **C46**: during an in-order search of a tree reached by any history, with fewer than `2^32`
entries (`numEntries` is 32 bits), the stack never holds more than 64 pointers, so the 200 places in
the search record suffice and `searchSpace` never grows it. -/
theorem C46_in_order_space (cmp : K → K → Int) (kind : Kind) (hk : kind ≠ .struct) (z : V)
    (ops : List (Op K V)) (t : Tree K V) (h : run cmp kind z new ops = some t)
    (hn : t.root.count + 1 < 2 ^ 33) (cur : T K V) (st : List (T K V)) (hr : InReach t.root cur st) :
    inDepth cur st ≤ 64 := by
  have hh := C17_height cmp kind hk z ops t h
  have hlog : Nat.log 2 (t.root.count + 1) < 33 := Nat.log_lt_of_lt_pow (by omega) hn
  have key : cur.height + st.length ≤ t.root.height ∧
      (∀ i (h : i < st.length), (match st[i] with | .nil => 0 | .node _ l _ _ => l.height) + (st.length - i - 1) ≤ t.root.height - 1) := by
    induction hr with
    | start => exact ⟨by simp, by intro i h; simp at h⟩
    | step _ hs ih =>
      have := inNext_depth _ _ _ ih.2 ih.1
      rw [hs] at this
      exact this
  have := inDepth_le cur st
  omega

/-! Post order. -/

/-- The addresses in a tree. -/
def T.ids (t : T K V) : List Nat := t.walk.map (·.id)

theorem addr_mem {t : T K V} {a : Nat} (h : t.addr = some a) : a ∈ t.ids := by
  cases t with
  | nil => cases h
  | node c l e r => simp only [T.addr, Option.some.injEq] at h; simp [T.ids, T.walk, h]

/-- Running a subtree on top of the stack: its post-order, then the rest. -/
theorem post_sub : ∀ (t : T K V) (a : Nat), t.addr = some a → t.ids.Nodup → ∀ (cur : Nat),
    (cur ∉ t.ids ∨ cur = a) → ∀ (st : List (T K V)) (n : Nat),
    postAll (t.count + n) cur (t :: st) = t.walkPost ++ postAll n a st
  | .nil, a, ha, _, _, _, _, _ => by cases ha
  | .node c .nil e .nil, a, ha, _, cur, _, st, n => by
    simp only [T.addr, Option.some.injEq] at ha
    subst ha
    simp only [T.count]
    rw [show 0 + 0 + 1 + n = n + 1 by omega]
    simp [postAll, postLoop, T.addr, T.walkPost]
  | .node c .nil e (.node rc rl re rr), a, ha, hnd, cur, hcur, st, n => by
    simp only [T.addr, Option.some.injEq] at ha
    subst ha
    have hnd1 : (T.node rc rl re rr).ids.Nodup ∧ e.id ∉ (T.node rc rl re rr).ids := by
      simp only [T.ids, T.walk, List.map_append, List.map_cons, List.map_nil] at hnd ⊢
      rw [List.nodup_append] at hnd
      exact ⟨hnd.1, fun h => hnd.2.2 _ h _ (by simp) rfl⟩
    have hcr : cur ∉ (T.node rc rl re rr).ids := by
      rcases hcur with h | rfl
      · intro h'; apply h; simp only [T.ids, T.walk, List.map_append] at h' ⊢
        simp only [List.mem_append] at h' ⊢; exact Or.inl h'
      · exact hnd1.2
    have hne : re.id ≠ cur := fun h => hcr (h ▸ addr_mem rfl)
    have ih := post_sub (.node rc rl re rr) re.id rfl hnd1.1 cur (Or.inl hcr)
      (.node c .nil e (.node rc rl re rr) :: st) (n + 1)
    have e1 : (T.node c .nil e (.node rc rl re rr)).count + n = (T.node rc rl re rr).count + (n + 1) := by
      simp only [T.count]; omega
    have e2 : ∀ k, postAll (k + 1) cur (T.node c .nil e (.node rc rl re rr) :: st) =
        postAll (k + 1) cur (T.node rc rl re rr :: T.node c .nil e (.node rc rl re rr) :: st) := by
      intro k
      simp only [postAll]
      have : postLoop cur (T.node c .nil e (.node rc rl re rr)) st =
          postLoop cur (T.node rc rl re rr) (T.node c .nil e (.node rc rl re rr) :: st) := by
        rw [postLoop]
        simp [T.addr, hne]
      rw [this]
    rw [e1]
    obtain ⟨k, hk⟩ : ∃ k, (T.node rc rl re rr).count + (n + 1) = k + 1 := ⟨_, rfl⟩
    rw [hk, e2 k, ← hk, ih]
    simp [T.walkPost, postAll, postLoop, T.addr]
  | .node c (.node lc ll le lr) e .nil, a, ha, hnd, cur, hcur, st, n => by
    simp only [T.addr, Option.some.injEq] at ha
    subst ha
    have hnd1 : (T.node lc ll le lr).ids.Nodup ∧ e.id ∉ (T.node lc ll le lr).ids := by
      simp only [T.ids, T.walk, List.map_append, List.map_cons, List.nil_append, List.map_nil] at hnd ⊢
      rw [List.nodup_cons] at hnd
      exact ⟨hnd.2, hnd.1⟩
    have hcr : cur ∉ (T.node lc ll le lr).ids := by
      rcases hcur with h | rfl
      · intro h'; apply h
        simp only [T.ids, T.walk, List.nil_append, List.map_cons] at h' ⊢
        exact List.mem_cons_of_mem _ h'
      · exact hnd1.2
    have hne : le.id ≠ cur := fun h => hcr (h ▸ addr_mem rfl)
    have ih := post_sub (.node lc ll le lr) le.id rfl hnd1.1 cur (Or.inl hcr)
      (.node c (.node lc ll le lr) e .nil :: st) (n + 1)
    have e1 : (T.node c (.node lc ll le lr) e .nil).count + n = (T.node lc ll le lr).count + (n + 1) := by
      simp only [T.count]; omega
    have e2 : ∀ k, postAll (k + 1) cur (T.node c (.node lc ll le lr) e .nil :: st) =
        postAll (k + 1) cur (T.node lc ll le lr :: T.node c (.node lc ll le lr) e .nil :: st) := by
      intro k
      simp only [postAll]
      have : postLoop cur (T.node c (.node lc ll le lr) e .nil) st =
          postLoop cur (T.node lc ll le lr) (T.node c (.node lc ll le lr) e .nil :: st) := by
        rw [postLoop]
        simp [T.addr, hne]
      rw [this]
    rw [e1]
    obtain ⟨k, hk⟩ : ∃ k, (T.node lc ll le lr).count + (n + 1) = k + 1 := ⟨_, rfl⟩
    rw [hk, e2 k, ← hk, ih]
    simp [T.walkPost, postAll, postLoop, T.addr]
  | .node c (.node lc ll le lr) e (.node rc rl re rr), a, ha, hnd, cur, hcur, st, n => by
    simp only [T.addr, Option.some.injEq] at ha
    subst ha
    have hids : (T.node c (.node lc ll le lr) e (.node rc rl re rr)).ids =
        (T.node rc rl re rr).ids ++ e.id :: (T.node lc ll le lr).ids := by
      simp only [T.ids, T.walk, List.map_append, List.map_cons]
    rw [hids] at hnd hcur
    rw [List.nodup_append, List.nodup_cons] at hnd
    obtain ⟨hr, ⟨hel, hl⟩, hdis⟩ := hnd
    have her : e.id ∉ (T.node rc rl re rr).ids := fun h => hdis _ h _ (by simp) rfl
    have hcr : cur ∉ (T.node rc rl re rr).ids := by
      rcases hcur with h | rfl
      · intro h'; apply h; simp only [List.mem_append]; exact Or.inl h'
      · exact her
    have hcl : cur ∉ (T.node lc ll le lr).ids := by
      rcases hcur with h | rfl
      · intro h'; apply h; simp only [List.mem_append, List.mem_cons]; exact Or.inr (Or.inr h')
      · exact hel
    have hne : re.id ≠ cur := fun h => hcr (h ▸ addr_mem rfl)
    have hne2 : le.id ≠ cur := fun h => hcl (h ▸ addr_mem rfl)
    have hrl : re.id ∉ (T.node lc ll le lr).ids := fun h =>
      hdis re.id (addr_mem rfl) re.id (List.mem_cons_of_mem _ h) rfl
    have ih := post_sub (.node rc rl re rr) re.id rfl hr cur (Or.inl hcr)
      (.node lc ll le lr :: .node c (.node lc ll le lr) e (.node rc rl re rr) :: st)
      ((T.node lc ll le lr).count + (n + 1))
    have ih2 := post_sub (.node lc ll le lr) le.id rfl hl re.id (Or.inl hrl)
      (.node c (.node lc ll le lr) e (.node rc rl re rr) :: st) (n + 1)
    have e1 : (T.node c (.node lc ll le lr) e (.node rc rl re rr)).count + n =
        (T.node rc rl re rr).count + ((T.node lc ll le lr).count + (n + 1)) := by
      simp only [T.count]; omega
    have e2 : ∀ k, postAll (k + 1) cur (T.node c (.node lc ll le lr) e (.node rc rl re rr) :: st) =
        postAll (k + 1) cur (T.node rc rl re rr :: T.node lc ll le lr ::
          T.node c (.node lc ll le lr) e (.node rc rl re rr) :: st) := by
      intro k
      simp only [postAll]
      have : postLoop cur (T.node c (.node lc ll le lr) e (.node rc rl re rr)) st =
          postLoop cur (T.node rc rl re rr)
            (T.node lc ll le lr :: T.node c (.node lc ll le lr) e (.node rc rl re rr) :: st) := by
        rw [postLoop]
        simp [T.addr, hne, hne2]
      rw [this]
    rw [e1]
    obtain ⟨k, hk⟩ : ∃ k, (T.node rc rl re rr).count + ((T.node lc ll le lr).count + (n + 1)) = k + 1 :=
      ⟨_, rfl⟩
    rw [hk, e2 k, ← hk, ih, ih2]
    simp [T.walkPost, postAll, postLoop, T.addr]

theorem walkPost_perm (t : T K V) : t.walkPost.Perm t.walk := by
  induction t with
  | nil => exact List.Perm.refl _
  | node c l e r ihl ihr =>
    simp only [T.walkPost, T.walk]
    refine (List.Perm.append_right _ (ihr.append ihl)).trans ?_
    simp only [List.append_assoc]
    refine List.Perm.append_left _ ?_
    exact List.perm_append_comm

/-- **C46**: after any history, a post-order search returns exactly what the post-order walk visits,
and that is every entry once. -/
theorem C46_post_order [DecidableEq K] {cmp : K → K → Int} (ho : IsOrder cmp) (kind : Kind)
    (hk : kind ≠ .struct) (z : V) (ops : List (Op K V)) (t : Tree K V)
    (h : run cmp kind z new ops = some t) :
    searchPost t = t.root.walkPost ∧ (searchPost t).Perm t.root.walk := by
  obtain ⟨h3, _⟩ := run_inv ho hk z ops new t (fun _ => none) (inv_new cmp)
    (by intro k v; simp [new, T.walk]) h
  have key : searchPost t = t.root.walkPost := by
    unfold searchPost
    have hids := h3.ids
    have hcnt := h3.cnt
    cases hroot : t.root with
    | nil => rfl
    | node c l e r =>
      rw [hroot] at hids hcnt
      rw [walk_length] at hcnt
      simp only [hcnt]
      rw [post_sub (.node c l e r) e.id rfl hids e.id (Or.inr rfl) [] 1]
      simp [postAll]
  exact ⟨key, key ▸ walkPost_perm _⟩

/-- **C46 refuted** for pre order: in a tree whose root has only a right child, every call returns that
child; the root is never returned and the search never ends. -/
theorem C46_pre_never_ends (c : Color) (e : Entry K V) (r : T K V) (rc rl re rr)
    (hr : r = .node rc rl re rr) (n : Nat) :
    searchPre n (.node c .nil e r) = List.replicate n re := by
  subst hr
  unfold searchPre
  induction n with
  | zero => rfl
  | succ n ih => simp only [preAll, preStep, pushNode, List.replicate_succ]; rw [ih]

/-- **C46 refuted**: such a tree is reached by inserting 2 and then 1. -/
theorem C46_pre_refuted : ∃ t : Tree Nat Nat, run natCmp .string 0 new [.set 2 20, .set 1 10] = some t ∧
    ∀ n, ((searchPre n t.root).map (·.key)) = List.replicate n 1 := by
  refine ⟨⟨.node .black .nil ⟨0, 2, 20, 0⟩ (.node .red .nil ⟨1, 1, 10, 0⟩ .nil), 2, 2⟩,
    by decide +kernel, ?_⟩
  intro n
  rw [C46_pre_never_ends _ _ _ _ _ _ _ rfl]
  simp

/-! Level order. -/

theorem levelAll_spec : ∀ (n : Nat) (q : List (T K V)), (∀ x ∈ q, x ≠ .nil) →
    (q.map T.count).sum + 2 < 200 → (q.map T.count).sum < n →
    ∃ es, levelAll n ⟨q, 200, true⟩ = some es ∧ es.Perm (q.flatMap T.walk) := by
  intro n
  induction n with
  | zero => intro q _ _ h; omega
  | succ n ih =>
    intro q hq hs hlt
    have hlen : q.length ≤ (q.map T.count).sum := by
      clear ih hs hlt
      induction q with
      | nil => simp
      | cons x q ih =>
        have := ih (fun y hy => hq y (by simp [hy]))
        have hx : x ≠ .nil := hq x (by simp)
        cases x with
        | nil => exact absurd rfl hx
        | node c l e r => simp only [List.map_cons, List.sum_cons, List.length_cons, T.count]; omega
    have hsp : searchSpace (⟨q, 200, true⟩ : LQ K V) = ⟨q, 200, true⟩ := by
      unfold searchSpace
      rw [if_neg]; simp only []; omega
    simp only [levelAll, levelNext, hsp]
    cases q with
    | nil => exact ⟨[], rfl, by simp⟩
    | cons x q =>
      cases x with
      | nil => exact absurd rfl (hq .nil (by simp))
      | node c l e r =>
        simp only []
        have hpush : ∀ x : T K V, ((pushNode x []).map T.count).sum = x.count ∧
            (∀ y ∈ pushNode x [], y ≠ .nil) ∧ (pushNode x []).flatMap T.walk = x.walk := by
          intro x
          cases x with
          | nil => simp [pushNode, T.count, T.walk]
          | node => simp [pushNode]
        simp only [List.map_cons, List.sum_cons, T.count] at hs hlt
        obtain ⟨es, h1, h2⟩ := ih (q ++ pushNode r [] ++ pushNode l []) (by
            intro y hy
            simp only [List.mem_append] at hy
            rcases hy with (hy | hy) | hy
            · exact hq y (by simp [hy])
            · exact (hpush r).2.1 y hy
            · exact (hpush l).2.1 y hy)
          (by simp only [List.map_append, List.sum_append, (hpush r).1, (hpush l).1]; omega)
          (by simp only [List.map_append, List.sum_append, (hpush r).1, (hpush l).1]; omega)
        refine ⟨e :: es, by rw [h1]; rfl, ?_⟩
        simp only [List.flatMap_append, (hpush r).2.2, (hpush l).2.2] at h2
        simp only [List.flatMap_cons, T.walk]
        refine (List.Perm.cons _ h2).trans ?_
        have h3 : (r.walk ++ e :: l.walk ++ List.flatMap T.walk q).Perm
            (e :: (r.walk ++ (l.walk ++ List.flatMap T.walk q))) := by
          simp only [List.append_assoc, List.cons_append]
          exact List.perm_middle
        refine List.Perm.trans ?_ h3.symm
        refine List.Perm.cons _ ?_
        rw [List.append_assoc]
        refine List.perm_append_comm.trans ?_
        rw [List.append_assoc]

/-- **C46**, level order, the part that holds: trees with fewer than 199 entries.  Missing: larger trees
(refuted by `C46_level_refuted`). -/
theorem C46_level_partial [DecidableEq K] {cmp : K → K → Int} (ho : IsOrder cmp) (kind : Kind)
    (hk : kind ≠ .struct) (z : V) (ops : List (Op K V)) (t : Tree K V)
    (h : run cmp kind z new ops = some t) (hn : size t < 199) :
    ∃ es, searchLevel t = some es ∧ es.Perm t.root.walk := by
  obtain ⟨h3, _⟩ := run_inv ho hk z ops new t (fun _ => none) (inv_new cmp)
    (by intro k v; simp [new, T.walk]) h
  have hcnt := h3.cnt
  unfold searchLevel
  unfold size at hn
  cases hroot : t.root with
  | nil => exact ⟨[], rfl, List.Perm.refl _⟩
  | node c l e r =>
    rw [hroot, walk_length] at hcnt
    simp only [T.count] at hcnt
    have hpush : ∀ x : T K V, ((pushNode x []).map T.count).sum = x.count ∧
        (∀ y ∈ pushNode x [], y ≠ .nil) ∧ (pushNode x []).flatMap T.walk = x.walk := by
      intro x
      cases x with
      | nil => simp [pushNode, T.count, T.walk]
      | node => simp [pushNode]
    obtain ⟨es, h1, h2⟩ := levelAll_spec (t.numEntries + 1) (pushNode r [] ++ pushNode l [])
      (by
        intro y hy
        simp only [List.mem_append] at hy
        rcases hy with hy | hy
        · exact (hpush r).2.1 y hy
        · exact (hpush l).2.1 y hy)
      (by simp only [List.map_append, List.sum_append, (hpush r).1, (hpush l).1]; omega)
      (by simp only [List.map_append, List.sum_append, (hpush r).1, (hpush l).1]; omega)
    refine ⟨e :: es, by simp only []; rw [h1]; rfl, ?_⟩
    simp only [List.flatMap_append, (hpush r).2.2, (hpush l).2.2] at h2
    simp only [T.walk]
    exact (List.Perm.cons _ h2).trans List.perm_middle.symm

/-- Insertion level by level of a perfectly balanced tree of 511 keys. -/
def manyOps : List (Op Nat Nat) :=
  (List.range 9).flatMap (fun d => (List.range (2 ^ d)).map (fun k => .set ((2 * k + 1) * 2 ^ (8 - d)) 0))

theorem of_map_isNone {α β : Type} {o : Option α} {f : α → Option β}
    (h : (o.map (fun t => (f t).isNone)) = some true) : ∃ t, o = some t ∧ f t = none := by
  cases o with
  | none => simp at h
  | some t => exact ⟨t, rfl, by simpa using h⟩

set_option maxHeartbeats 4000000 in
/-- **C46 refuted**, level order: a search of a tree of 511 entries dereferences a NULL pointer, because the
array inside the search record is not copied when it is outgrown. -/
theorem C46_level_refuted : ∃ t : Tree Nat Nat, run natCmp .string 0 new manyOps = some t ∧
    searchLevel t = none :=
  of_map_isNone (by decide +kernel)

end Verif.Tree
