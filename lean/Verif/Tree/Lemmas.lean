import Verif.Tree.Spec

/-! What the operations do to the in-order walk and to the red-black conditions. -/

namespace Verif.Tree

variable {K V : Type}

/-! ### Walks -/

/-- What the in-order walk visits before and after the node in a context. -/
def pre : Ctx K V → List (Entry K V)
  | [] => []
  | f :: ctx => pre ctx ++ (if f.left then f.sib.walk ++ [f.e] else [])

def post : Ctx K V → List (Entry K V)
  | [] => []
  | f :: ctx => (if f.left then [] else f.e :: f.sib.walk) ++ post ctx

theorem walk_fill (f : Frame K V) (t : T K V) :
    (f.fill t).walk = (if f.left then f.sib.walk ++ [f.e] else []) ++ t.walk ++
      (if f.left then [] else f.e :: f.sib.walk) := by
  unfold Frame.fill
  split <;> simp [T.walk]

theorem walk_plug (t : T K V) (ctx : Ctx K V) : (plug t ctx).walk = pre ctx ++ t.walk ++ post ctx := by
  induction ctx generalizing t with
  | nil => simp [plug, pre, post]
  | cons f ctx ih => rw [plug, ih, walk_fill]; simp [pre, post]

theorem walk_setBlack (t : T K V) : t.setBlack.walk = t.walk := by cases t <;> rfl

theorem rotateLeft_walk {t t' : T K V} (h : rotateLeft t = some t') : t'.walk = t.walk := by
  unfold rotateLeft at h
  split at h
  · cases h; simp [T.walk]
  · cases h

theorem rotateRight_walk {t t' : T K V} (h : rotateRight t = some t') : t'.walk = t.walk := by
  unfold rotateRight at h
  split at h
  · cases h; simp [T.walk]
  · cases h

theorem fill_color_walk (f : Frame K V) (c : Color) (t : T K V) :
    ({ f with color := c }.fill t).walk = (f.fill t).walk := by
  simp [walk_fill]

theorem insCase5_walk {n : T K V} {p g : Frame K V} {ctx : Ctx K V} {t : T K V}
    (h : insCase5 n p g ctx = some t) : t.walk = (plug n (p :: g :: ctx)).walk := by
  simp only [insCase5] at h
  obtain ⟨r, hr, rfl⟩ := Option.map_eq_some_iff.1 h
  have : r.walk = (g.fill (p.fill n)).walk := by
    split at hr
    · rw [rotateRight_walk hr]; simp [walk_fill]
    · rw [rotateLeft_walk hr]; simp [walk_fill]
  simp only [plug, walk_plug, this]

theorem insCase4_walk {n : T K V} {p g : Frame K V} {ctx : Ctx K V} {t : T K V}
    (h : insCase4 n p g ctx = some t) : t.walk = (plug n (p :: g :: ctx)).walk := by
  unfold insCase4 at h
  cases n with
  | nil => cases h
  | node nc nl ne nr =>
    simp only at h
    split at h
    · rename_i hc
      simp only [Bool.and_eq_true, Bool.not_eq_true'] at hc
      rw [insCase5_walk h]
      simp [walk_plug, pre, post, T.walk, hc.1]
    · split at h
      · rename_i hc
        simp only [Bool.and_eq_true, Bool.not_eq_true'] at hc
        rw [insCase5_walk h]
        simp [walk_plug, pre, post, T.walk, hc.1]
      · exact insCase5_walk h

theorem insCase1_walk : ∀ (ctx : Ctx K V) (n t : T K V), insCase1 n ctx = some t →
    t.walk = (plug n ctx).walk
  | [], n, t, h => by
    simp only [insCase1, Option.some.injEq] at h
    subst h; simp [plug, walk_setBlack]
  | [p], n, t, h => by
    simp only [insCase1] at h
    split at h
    · cases h; rfl
    · cases h
  | p :: g :: rest, n, t, h => by
    simp only [insCase1] at h
    split at h
    · cases h; rfl
    · split at h
      · rw [insCase1_walk rest _ t h]
        simp [walk_plug, walk_fill, walk_setBlack, pre, post]
      · exact insCase4_walk h

theorem delCase6_walk {f : Frame K V} {rest ctx : Ctx K V} (h : delCase6 f rest = some ctx) :
    pre ctx = pre (f :: rest) ∧ post ctx = post (f :: rest) := by
  unfold delCase6 at h
  split at h
  · cases h
  · rename_i hs
    split at h <;> rename_i hl <;> cases h <;>
      simp [pre, post, hs, T.walk, walk_setBlack, hl]

theorem delCase5_walk {f : Frame K V} {rest ctx : Ctx K V} (h : delCase5 f rest = some ctx) :
    pre ctx = pre (f :: rest) ∧ post ctx = post (f :: rest) := by
  unfold delCase5 at h
  split at h
  · cases h
  · rename_i sc sl se sr hs
    split at h
    · split at h
      · split at h
        · cases h
        · rename_i hr
          have h1 := delCase6_walk h
          have h2 := rotateRight_walk hr
          rw [h1.1, h1.2]
          simp [pre, post, hs, h2, T.walk, walk_setBlack]
      · split at h
        · split at h
          · cases h
          · rename_i hr
            have h1 := delCase6_walk h
            have h2 := rotateLeft_walk hr
            rw [h1.1, h1.2]
            simp [pre, post, hs, h2, T.walk, walk_setBlack]
        · exact delCase6_walk h
    · exact delCase6_walk h

theorem delCase4_walk {f : Frame K V} {rest ctx : Ctx K V} (h : delCase4 f rest = some ctx) :
    pre ctx = pre (f :: rest) ∧ post ctx = post (f :: rest) := by
  unfold delCase4 at h
  split at h
  · cases h
  · rename_i sc sl se sr hs
    split at h
    · cases h; simp [pre, post, hs, T.walk]
    · exact delCase5_walk h

theorem delCase1_walk : ∀ (ctx ctx' : Ctx K V), delCase1 ctx = some ctx' →
    pre ctx' = pre ctx ∧ post ctx' = post ctx
  | [], ctx', h => by simp only [delCase1, Option.some.injEq] at h; subst h; exact ⟨rfl, rfl⟩
  | f :: rest, ctx', h => by
    simp only [delCase1] at h
    split at h
    · cases h
    · rename_i sl se sr hs
      split at h
      · rename_i hl
        have := delCase4_walk h
        rw [this.1, this.2]; simp [pre, post, hs, T.walk, hl]
      · rename_i hl
        have := delCase4_walk h
        rw [this.1, this.2]; simp [pre, post, hs, T.walk, hl]
    · rename_i sl se sr hs
      split at h
      · obtain ⟨r, hr, rfl⟩ := Option.map_eq_some_iff.1 h
        have := delCase1_walk rest r hr
        simp [pre, post, hs, T.walk, this.1, this.2]
      · exact delCase4_walk h

theorem delOne_walk {c : Color} {child : T K V} {ctx : Ctx K V} {t : T K V}
    (h : delOne c child ctx = some t) : t.walk = pre ctx ++ child.walk ++ post ctx := by
  unfold delOne at h
  obtain ⟨ctx', h1, rfl⟩ := Option.map_eq_some_iff.1 h
  have h2 : pre ctx' = pre ctx ∧ post ctx' = post ctx := by
    split at h1
    · exact delCase1_walk _ _ h1
    · cases h1; exact ⟨rfl, rfl⟩
  rw [← h2.1, ← h2.2]
  cases ctx' with
  | nil => simp [walk_setBlack, pre, post]
  | cons f r => exact walk_plug _ _

theorem maxDown_spec (c : Color) (l : T K V) (e : Entry K V) (r : T K V) (ctx : Ctx K V) :
    ((maxDown c l e r ctx).2.2.1 = (maxDown c l e r []).2.2.1) ∧
    pre (maxDown c l e r ctx).2.2.2 ++ (maxDown c l e r ctx).2.2.1 ::
      ((maxDown c l e r ctx).2.1.walk ++ post (maxDown c l e r ctx).2.2.2)
      = pre ctx ++ (T.node c l e r).walk ++ post ctx := by
  induction r generalizing c l e ctx with
  | nil => simp [maxDown, T.walk]
  | node c2 l2 e2 r2 ihl ihr =>
    refine ⟨?_, ?_⟩
    · simp only [maxDown]
      rw [(ihr c2 l2 e2 _).1, (ihr c2 l2 e2 [_]).1]
    · simp only [maxDown]
      rw [(ihr c2 l2 e2 _).2]
      simp [pre, post, T.walk]

theorem maxDown_pre (c : Color) (l : T K V) (e : Entry K V) (r : T K V) (ctx : Ctx K V) :
    pre (maxDown c l e r ctx).2.2.2 = pre ctx := by
  induction r generalizing c l e ctx with
  | nil => simp [maxDown]
  | node c2 l2 e2 r2 ihl ihr => simp only [maxDown]; rw [ihr]; simp [pre]

/-- Deletion by exchanging nodes: exactly the entry disappears. -/
theorem deleteAt_string_walk {c : Color} {l r : T K V} {e : Entry K V} {ctx : Ctx K V} {t : T K V}
    (h : deleteAt .string c l e r ctx = some t) :
    t.walk = pre ctx ++ (r.walk ++ l.walk) ++ post ctx := by
  cases l with
  | nil => cases r <;> (simp only [deleteAt] at h; rw [delOne_walk h]; simp [T.walk])
  | node lc ll le lr =>
    cases r with
    | nil => simp only [deleteAt] at h; rw [delOne_walk h]; simp [T.walk]
    | node rc rl re rr =>
      simp only [deleteAt] at h
      rw [delOne_walk h]
      have h1 := maxDown_spec lc ll le lr
        (⟨true, c, (maxDown lc ll le lr []).2.2.1, .node rc rl re rr⟩ :: ctx)
      have h2 := maxDown_pre lc ll le lr
        (⟨true, c, (maxDown lc ll le lr []).2.2.1, .node rc rl re rr⟩ :: ctx)
      have h3 := h1.2
      rw [h2, h1.1] at h3
      rw [h2]
      simp only [pre, post, if_true, List.nil_append, List.append_assoc, List.append_cancel_left_eq,
        List.cons_append, List.cons.injEq, true_and] at h3 ⊢
      exact h3

/-- Key and value of an entry. -/
def Entry.kv (e : Entry K V) : K × V := (e.key, e.val)

theorem pre_map_kv (f g : Frame K V) (ctx : Ctx K V) (hl : f.left = g.left) (hs : f.sib = g.sib)
    (he : f.e.kv = g.e.kv) :
    (pre (f :: ctx)).map Entry.kv = (pre (g :: ctx)).map Entry.kv ∧
    (post (f :: ctx)).map Entry.kv = (post (g :: ctx)).map Entry.kv := by
  simp only [pre, post, hl, hs]
  split <;> simp [he]

theorem maxDown_ctx_kv (c : Color) (l : T K V) (e : Entry K V) (r : T K V) (ctx ctx2 : Ctx K V)
    (hp : (post ctx).map Entry.kv = (post ctx2).map Entry.kv) :
    (maxDown c l e r ctx).1 = (maxDown c l e r ctx2).1 ∧
    (maxDown c l e r ctx).2.1 = (maxDown c l e r ctx2).2.1 ∧
    (post (maxDown c l e r ctx).2.2.2).map Entry.kv =
      (post (maxDown c l e r ctx2).2.2.2).map Entry.kv := by
  induction r generalizing c l e ctx ctx2 with
  | nil => exact ⟨rfl, rfl, hp⟩
  | node c2 l2 e2 r2 ihl ihr =>
    simp only [maxDown]
    exact ihr c2 l2 e2 _ _ (by simp [post, hp])

/-- Deletion by exchanging key and value: the same keys and values remain. -/
theorem deleteAt_word_walk {c : Color} {l r : T K V} {e : Entry K V} {ctx : Ctx K V} {t : T K V}
    (h : deleteAt .word c l e r ctx = some t) :
    t.walk.map Entry.kv = (pre ctx ++ (r.walk ++ l.walk) ++ post ctx).map Entry.kv := by
  cases l with
  | nil => cases r <;> (simp only [deleteAt] at h; rw [delOne_walk h]; simp [T.walk])
  | node lc ll le lr =>
    cases r with
    | nil => simp only [deleteAt] at h; rw [delOne_walk h]; simp [T.walk]
    | node rc rl re rr =>
      simp only [deleteAt] at h
      rw [delOne_walk h]
      generalize hpe : (maxDown lc ll le lr []).2.2.1 = pe
      rw [hpe] at h
      have h1 := maxDown_spec lc ll le lr (⟨true, c, pe, .node rc rl re rr⟩ :: ctx)
      have h2 := maxDown_pre lc ll le lr (⟨true, c, pe, .node rc rl re rr⟩ :: ctx)
      have h3 := h1.2
      rw [h2, h1.1, hpe] at h3
      have h4 := maxDown_ctx_kv lc ll le lr
        (⟨true, c, ⟨e.id, pe.key, pe.val, e.fl⟩, .node rc rl re rr⟩ :: ctx)
        (⟨true, c, pe, .node rc rl re rr⟩ :: ctx) (by simp [post])
      rw [maxDown_pre, List.map_append, List.map_append, h4.2.1, h4.2.2]
      rw [(pre_map_kv ⟨true, c, ⟨e.id, pe.key, pe.val, e.fl⟩, .node rc rl re rr⟩
        ⟨true, c, pe, .node rc rl re rr⟩ ctx rfl rfl rfl).1]
      rw [← List.map_append, ← List.map_append]
      congr 1
      simp only [pre, post, if_true, List.nil_append, List.append_assoc, List.append_cancel_left_eq,
        List.cons_append, List.cons.injEq, true_and] at h3 ⊢
      exact h3

/-! ### Descent -/

theorem locate_plug (cmp : K → K → Int) (k : K) (t : T K V) (ctx : Ctx K V) :
    plug (locate cmp k t ctx).1 (locate cmp k t ctx).2 = plug t ctx := by
  induction t generalizing ctx with
  | nil => rfl
  | node c l e r ihl ihr =>
    simp only [locate]
    split
    · rfl
    · split
      · rw [ihl]; simp [plug, Frame.fill]
      · rw [ihr]; simp [plug, Frame.fill]

theorem find_locate (cmp : K → K → Int) (k : K) (t : T K V) (ctx : Ctx K V) :
    find cmp k t = match (locate cmp k t ctx).1 with | .nil => none | .node _ _ e _ => some e := by
  induction t generalizing ctx with
  | nil => rfl
  | node c l e r ihl ihr =>
    simp only [locate, find]
    split
    · rfl
    · split
      · rw [ihl]
      · rw [ihr]

theorem locate_key (cmp : K → K → Int) (k : K) (t : T K V) (ctx : Ctx K V) (c l e r)
    (h : (locate cmp k t ctx).1 = .node c l e r) : cmp e.key k = 0 := by
  induction t generalizing ctx with
  | nil => simp [locate] at h
  | node c l e r ihl ihr =>
    simp only [locate] at h
    split at h
    · rename_i hz
      cases h; exact hz
    · split at h
      · exact ihl _ h
      · exact ihr _ h

/-- In a sorted tree everything before the place of `k` is smaller, everything after larger. -/
theorem locate_sides {cmp : K → K → Int} (ho : IsOrder cmp) (k : K) (t : T K V) (ctx : Ctx K V)
    (hs : t.walk.Pairwise (fun a b => cmp a.key b.key < 0))
    (h1 : ∀ a ∈ pre ctx, cmp a.key k < 0) (h2 : ∀ a ∈ post ctx, cmp k a.key < 0) :
    (∀ a ∈ pre (locate cmp k t ctx).2, cmp a.key k < 0) ∧
    (∀ a ∈ post (locate cmp k t ctx).2, cmp k a.key < 0) := by
  induction t generalizing ctx with
  | nil => exact ⟨h1, h2⟩
  | node c l e r ihl ihr =>
    simp only [T.walk] at hs
    rw [List.pairwise_append, List.pairwise_cons] at hs
    obtain ⟨hr, ⟨hel, hl⟩, hrl⟩ := hs
    simp only [locate]
    split
    · exact ⟨h1, h2⟩
    · rename_i hz
      split
      · rename_i hn
        refine ihl _ hl ?_ ?_
        · intro a ha
          simp only [pre, if_true, List.mem_append, List.mem_singleton] at ha
          rcases ha with ha | ha | rfl
          · exact h1 a ha
          · exact ho.trans _ _ _ (hrl a ha e (by simp)) hn
          · exact hn
        · intro a ha
          simp only [post, if_true, List.nil_append] at ha
          exact h2 a ha
      · rename_i hn
        have hk : cmp k e.key < 0 := (ho.anti _ _).2 (by omega)
        refine ihr _ hr ?_ ?_
        · intro a ha
          simp only [pre, Bool.false_eq_true, if_false, List.append_nil] at ha
          exact h1 a ha
        · intro a ha
          simp only [post, Bool.false_eq_true, if_false, List.mem_append, List.mem_cons] at ha
          rcases ha with (rfl | ha) | ha
          · exact hk
          · exact ho.trans _ _ _ hk (hel a ha)
          · exact h2 a ha

theorem walk_update (id : Nat) (g : Entry K V → Entry K V) (t : T K V) :
    (t.update id g).walk = t.walk.map (fun e => if e.id = id then g e else e) := by
  induction t with
  | nil => rfl
  | node c l e r ihl ihr => simp [T.update, T.walk, ihl, ihr]

/-! ### Red-black conditions -/

/-- `RB t c n`: `t` is a red-black subtree with root colour `c` and `n` black nodes on every path. -/
inductive RB : T K V → Color → Nat → Prop
  | nil : RB .nil .black 0
  | red {l e r n} : RB l .black n → RB r .black n → RB (.node .red l e r) .red n
  | black {l e r c1 c2 n} : RB l c1 n → RB r c2 n → RB (.node .black l e r) .black (n + 1)

/-- `CRB ctx c n`: with a red-black subtree of colour `c` and black height `n` in its place, the
context is a red-black tree with a black root. -/
inductive CRB : Ctx K V → Color → Nat → Prop
  | root {n} : CRB [] .black n
  | black {b e s cs c n rest} : RB s cs n → CRB rest .black (n + 1) → CRB (⟨b, .black, e, s⟩ :: rest) c n
  | red {b e s n rest} : RB s .black n → CRB rest .red n → CRB (⟨b, .red, e, s⟩ :: rest) .black n

theorem RB.color_eq {t : T K V} {c n} (h : RB t c n) : t.color = c := by cases h <;> rfl

theorem RB.setBlack {t : T K V} {c n} (h : RB t c n) : ∃ m, RB t.setBlack .black m := by
  cases h with
  | nil => exact ⟨0, .nil⟩
  | red h1 h2 => exact ⟨_, .black h1 h2⟩
  | black h1 h2 => exact ⟨_, .black h1 h2⟩

theorem CRB.weaken {ctx : Ctx K V} {c n} (h : CRB ctx c n) : CRB ctx .black n := by
  cases h with
  | root => exact .root
  | black h1 h2 => exact .black h1 h2
  | red h1 h2 => exact .red h1 h2

theorem CRB.plug {t : T K V} {ctx : Ctx K V} {c n} (h : CRB ctx c n) (ht : RB t c n) :
    ∃ m, RB (plug t ctx) .black m := by
  induction h generalizing t with
  | root => exact ⟨_, ht⟩
  | @black b e s cs c n rest h1 h2 ih =>
    refine ih ?_
    unfold Frame.fill
    split
    · exact .black ht h1
    · exact .black h1 ht
  | @red b e s n rest h1 h2 ih =>
    refine ih ?_
    unfold Frame.fill
    split
    · exact .red ht h1
    · exact .red h1 ht

theorem insCase1_rb : ∀ (ctx : Ctx K V) (t : T K V) (n : Nat), RB t .red n → CRB ctx .black n →
    ∃ t', insCase1 t ctx = some t' ∧ ∃ m, RB t' .black m
  | [], t, n, ht, _ => ⟨_, rfl, ht.setBlack⟩
  | [p], t, n, ht, hc => by
    cases hc with
    | black h1 h2 =>
      refine ⟨_, by simp only [insCase1, if_true]; rfl, ?_⟩
      exact (CRB.black h1 h2 : CRB _ .red n).plug ht
    | red h1 h2 => cases h2
  | p :: g :: rest, t, n, ht, hc => by
    cases hc with
    | black h1 h2 =>
      refine ⟨_, by simp only [insCase1, if_true]; rfl, ?_⟩
      exact (CRB.black h1 h2 : CRB _ .red n).plug ht
    | @red b e s _ _ h1 h2 =>
      cases h2 with
      | @black gb ge gs gcs _ _ _ g1 g2 =>
        simp only [insCase1, reduceCtorEq, if_false]
        split
        · rename_i hu
          refine insCase1_rb rest _ (n + 1) ?_ g2
          have hp : RB ((⟨b, .black, e, s⟩ : Frame K V).fill t) .black (n + 1) := by
            unfold Frame.fill
            split
            · exact .black ht h1
            · exact .black h1 ht
          have hg : RB gs.setBlack .black (n + 1) := by
            cases g1 with
            | nil => simp [T.color] at hu
            | red a b => exact .black a b
            | black a b => simp [T.color] at hu
          unfold Frame.fill at hp ⊢
          cases gb
          · exact .red hg hp
          · exact .red hp hg
        · rename_i hu
          have hgs : RB gs .black n := by
            cases g1 with
            | nil => exact .nil
            | red a b => simp [T.color] at hu
            | black a b => exact .black a b
          cases ht with
          | @red nl ne nr _ n1 n2 =>
            have key : ∀ x, RB x .black (n + 1) → ∃ m, RB (Verif.Tree.plug x rest) .black m :=
              fun x hx => g2.plug hx
            cases b <;> cases gb <;>
              simp only [insCase4, insCase5, Frame.fill, rotateLeft, rotateRight, Bool.not_false,
                Bool.not_true, Bool.and_self, Bool.and_true, Bool.and_false, Bool.true_and,
                Bool.false_and, if_true, if_false, Bool.false_eq_true, Option.map_some] <;>
              refine ⟨_, rfl, key _ ?_⟩
            · exact .black (.red hgs h1) (.red n1 n2)
            · exact .black (.red h1 n1) (.red n2 hgs)
            · exact .black (.red hgs n1) (.red n2 h1)
            · exact .black (.red n1 n2) (.red h1 hgs)

/-- What the deletion cases achieve: the context accepts a subtree of any colour with one black node
less, or the node is the root. -/
def DelOk (ctx : Ctx K V) (n : Nat) : Prop := ctx = [] ∨ ∀ c, CRB ctx c n

theorem delCase6_rb {f : Frame K V} {rest : Ctx K V} {n : Nat} {sl se sr} (hs : f.sib = .node .black sl se sr)
    (hl : f.left = true → RB sr .red n ∧ ∃ c, RB sl c n)
    (hr : f.left = false → RB sl .red n ∧ ∃ c, RB sr c n)
    (hrest : CRB rest f.color (n + 1 + if f.color = .black then 1 else 0)) :
    ∃ ctx', delCase6 f rest = some ctx' ∧ ∀ c, CRB ctx' c n := by
  obtain ⟨b, fc, fe, fs⟩ := f
  simp only at hs hl hr hrest
  subst hs
  cases b with
  | true =>
    obtain ⟨h1, cl, h2⟩ := hl rfl
    refine ⟨_, by simp only [delCase6, if_true]; rfl, ?_⟩
    intro c
    refine .black h2 ?_
    have : RB sr.setBlack .black (n + 1) := by cases h1 with | red a b => exact .black a b
    cases fc with
    | black => exact .black this (by simpa using hrest)
    | red => exact .red this (by simpa using hrest)
  | false =>
    obtain ⟨h1, cl, h2⟩ := hr rfl
    refine ⟨_, by simp only [delCase6, Bool.false_eq_true, if_false]; rfl, ?_⟩
    intro c
    refine .black h2 ?_
    have : RB sl.setBlack .black (n + 1) := by cases h1 with | red a b => exact .black a b
    cases fc with
    | black => exact .black this (by simpa using hrest)
    | red => exact .red this (by simpa using hrest)

theorem delCase5_rb {f : Frame K V} {rest : Ctx K V} {n : Nat} {sl se sr c1 c2}
    (hs : f.sib = .node .black sl se sr)
    (h1 : RB sl c1 n) (h2 : RB sr c2 n) (hne : ¬ (c1 = .black ∧ c2 = .black))
    (hrest : CRB rest f.color (n + 1 + if f.color = .black then 1 else 0)) :
    ∃ ctx', delCase5 f rest = some ctx' ∧ ∀ c, CRB ctx' c n := by
  have e1 := h1.color_eq
  have e2 := h2.color_eq
  unfold delCase5
  rw [hs]
  simp only [if_true, e1, e2]
  cases hb : f.left with
  | true =>
    cases c1 with
    | black =>
      cases c2 with
      | black => simp at hne
      | red =>
        simp only [Bool.true_and, reduceCtorEq, decide_false, Bool.false_and, Bool.not_true,
          Bool.false_eq_true, if_false]
        exact delCase6_rb hs (fun _ => ⟨h2, _, h1⟩) (fun h => by rw [hb] at h; cases h) hrest
    | red =>
      cases c2 with
      | red =>
        simp only [Bool.true_and, reduceCtorEq, decide_false, Bool.false_and, Bool.not_true,
          Bool.false_eq_true, if_false]
        exact delCase6_rb hs (fun _ => ⟨h2, _, h1⟩) (fun h => by rw [hb] at h; cases h) hrest
      | black =>
        cases h1 with
        | @red a x b _ p q =>
          simp only [Bool.true_and, decide_true, if_true, T.setBlack, rotateRight]
          exact delCase6_rb rfl (fun _ => ⟨.red q h2, _, p⟩) (fun h => by simp at h)
            hrest
  | false =>
    cases c2 with
    | black =>
      cases c1 with
      | black => simp at hne
      | red =>
        simp only [Bool.false_and, reduceCtorEq, decide_false, Bool.and_false, Bool.not_false,
          Bool.false_eq_true, if_false]
        exact delCase6_rb hs (fun h => by rw [hb] at h; cases h) (fun _ => ⟨h1, _, h2⟩) hrest
    | red =>
      cases c1 with
      | red =>
        simp only [Bool.false_and, reduceCtorEq, decide_false, Bool.and_false, Bool.not_false,
          Bool.false_eq_true, if_false]
        exact delCase6_rb hs (fun h => by rw [hb] at h; cases h) (fun _ => ⟨h1, _, h2⟩) hrest
      | black =>
        cases h2 with
        | @red a x b _ p q =>
          simp only [Bool.false_and, decide_true, if_true, Bool.and_self, Bool.not_false,
            Bool.false_eq_true, if_false, T.setBlack, rotateLeft]
          exact delCase6_rb rfl (fun h => by simp at h) (fun _ => ⟨.red h1 p, _, q⟩)
            hrest

theorem delCase4_rb {f : Frame K V} {rest : Ctx K V} {n : Nat} {sl se sr c1 c2}
    (hs : f.sib = .node .black sl se sr)
    (h1 : RB sl c1 n) (h2 : RB sr c2 n) (hne : f.color = .black → ¬ (c1 = .black ∧ c2 = .black))
    (hrest : CRB rest f.color (n + 1 + if f.color = .black then 1 else 0)) :
    ∃ ctx', delCase4 f rest = some ctx' ∧ ∀ c, CRB ctx' c n := by
  unfold delCase4
  rw [hs]
  simp only [true_and, h1.color_eq, h2.color_eq]
  split
  · rename_i hc
    obtain ⟨hf, rfl, rfl⟩ := hc
    refine ⟨_, rfl, ?_⟩
    intro c
    refine .black (.red h1 h2) ?_
    rw [hf] at hrest
    exact (by simpa using hrest : CRB rest .red (n + 1)).weaken
  · rename_i hc
    refine delCase5_rb hs h1 h2 ?_ hrest
    intro hcc
    cases hf : f.color with
    | black => exact hne hf hcc
    | red => exact hc ⟨hf, hcc⟩

theorem delCase1_rb : ∀ (ctx : Ctx K V) (n : Nat), CRB ctx .black (n + 1) →
    ∃ ctx', delCase1 ctx = some ctx' ∧ DelOk ctx' n
  | [], n, _ => ⟨[], rfl, Or.inl rfl⟩
  | f :: rest, n, h => by
    generalize hm : n + 1 = m at h
    cases h with
    | @black b e s cs _ _ _ h1 h2 =>
      cases h1 with
      | nil => omega
      | @red sl se sr _ p q =>
        -- the sibling is red
        simp only [delCase1]
        have step : ∀ (bb : Bool) (inner outer : T K V), RB inner .black m → RB outer .black m →
            ∃ ctx', delCase4 ⟨bb, .red, e, inner⟩ (⟨bb, .black, se, outer⟩ :: rest) = some ctx' ∧
              DelOk ctx' n := by
          intro bb inner outer hi ho
          subst hm
          cases hi with
          | @black a x y c1 c2 _ i1 i2 =>
            obtain ⟨ctx', h3, h4⟩ := delCase4_rb (f := ⟨bb, .red, e, .node .black a x y⟩)
              (rest := ⟨bb, .black, se, outer⟩ :: rest) rfl i1 i2 (fun h => by cases h)
              (by simp only [reduceCtorEq, if_false]; exact .black ho h2)
            exact ⟨ctx', h3, Or.inr h4⟩
        cases b with
        | true => simp only [if_true]; exact step true sl sr p q
        | false => simp only [Bool.false_eq_true, if_false]; exact step false sr sl q p
      | @black sl se sr c1 c2 k p q =>
        have hk : k = n := by omega
        subst hk
        simp only [delCase1, true_and, p.color_eq, q.color_eq]
        split
        · rename_i hc
          obtain ⟨rfl, rfl⟩ := hc
          obtain ⟨r', h3, h4⟩ := delCase1_rb rest (k + 1) h2
          refine ⟨_, by rw [h3]; rfl, ?_⟩
          right
          intro c
          refine .black (.red p q) ?_
          rcases h4 with rfl | h4
          · exact .root
          · exact h4 _
        · rename_i hc
          obtain ⟨ctx', h3, h4⟩ := delCase4_rb (f := ⟨b, .black, e, .node .black sl se sr⟩)
            (rest := rest) rfl p q (fun _ => hc) (by simpa using h2)
          exact ⟨ctx', h3, Or.inr h4⟩
    | @red b e s _ _ h1 h2 =>
      cases h1 with
      | nil => omega
      | @black sl se sr c1 c2 k p q =>
        have hk : k = n := by omega
        subst hk
        simp only [delCase1, reduceCtorEq, false_and, if_false]
        obtain ⟨ctx', h3, h4⟩ := delCase4_rb (f := ⟨b, .red, e, .node .black sl se sr⟩)
          (rest := rest) rfl p q (fun h => by cases h) (by simpa using h2)
        exact ⟨ctx', h3, Or.inr h4⟩

/-- The only child (src/jsiTree.c:563). -/
def onlyChild (l r : T K V) : T K V :=
  match r with
  | .nil => l
  | .node _ _ _ _ => r

/-- Removing a node that has at most one child. -/
theorem delOne_rb {c : Color} {l r : T K V} {e : Entry K V} {ctx : Ctx K V} {n : Nat}
    (h : RB (.node c l e r) c n) (hc : CRB ctx c n) (hone : l = .nil ∨ r = .nil) :
    ∃ t, delOne c (onlyChild l r) ctx = some t ∧ ∃ m, RB t .black m := by
  have hchild : ∃ cc, RB (onlyChild l r) cc 0 ∧ (c = .red → cc = .black) ∧
      n = if c = .black then 1 else 0 := by
    cases h with
    | red a b =>
      rcases hone with rfl | rfl
      · cases a
        refine ⟨.black, ?_, fun _ => rfl, rfl⟩
        cases r with
        | nil => exact .nil
        | node => exact b
      · cases b
        exact ⟨.black, a, fun _ => rfl, rfl⟩
    | @black _ _ _ c1 c2 m a b =>
      rcases hone with rfl | rfl
      · cases a
        cases r with
        | nil => exact ⟨.black, .nil, by simp, rfl⟩
        | node => exact ⟨_, b, by simp, rfl⟩
      · cases b
        exact ⟨_, a, by simp, rfl⟩
  obtain ⟨cc, h1, h2, h3⟩ := hchild
  unfold delOne
  cases c with
  | black =>
    simp only [if_true] at h3 ⊢
    subst h3
    obtain ⟨ctx', h4, h5⟩ := delCase1_rb ctx 0 hc
    rw [h4]
    cases ctx' with
    | nil => exact ⟨_, rfl, h1.setBlack⟩
    | cons f rest =>
      refine ⟨_, rfl, ?_⟩
      rcases h5 with h5 | h5
      · cases h5
      · exact (h5 cc).plug h1
  | red =>
    simp only [reduceCtorEq, if_false] at h3 ⊢
    subst h3
    have := h2 rfl
    subst this
    cases ctx with
    | nil => cases hc
    | cons f rest => exact ⟨_, rfl, hc.weaken.plug h1⟩

theorem maxDown_rb {c : Color} {l : T K V} {e : Entry K V} {r : T K V} {ctx : Ctx K V} {n : Nat}
    (h : RB (.node c l e r) c n) (hc : CRB ctx c n) :
    ∃ n', RB (.node (maxDown c l e r ctx).1 (maxDown c l e r ctx).2.1 (maxDown c l e r ctx).2.2.1 .nil)
        (maxDown c l e r ctx).1 n' ∧ CRB (maxDown c l e r ctx).2.2.2 (maxDown c l e r ctx).1 n' := by
  induction r generalizing c l e ctx n with
  | nil => exact ⟨n, h, hc⟩
  | node c2 l2 e2 r2 ihl ihr =>
    simp only [maxDown]
    cases h with
    | red a b =>
      have hcol := b.color_eq
      simp only [T.color] at hcol
      subst hcol
      exact ihr b (.red a hc)
    | @black _ _ _ cl c2' m a b =>
      have hcol := b.color_eq
      simp only [T.color] at hcol
      subst hcol
      exact ihr b (.black a hc)

theorem deleteAt_rb {kind : Kind} (hk : kind ≠ .struct) {c : Color} {l : T K V} {e : Entry K V}
    {r : T K V} {ctx : Ctx K V} {n : Nat} (h : RB (.node c l e r) c n) (hc : CRB ctx c n) :
    ∃ t, deleteAt kind c l e r ctx = some t ∧ ∃ m, RB t .black m := by
  cases l with
  | nil =>
    cases r with
    | nil => exact delOne_rb h hc (Or.inl rfl)
    | node rc rl re rr => exact delOne_rb h hc (Or.inl rfl)
  | node lc ll le lr =>
    cases r with
    | nil => exact delOne_rb h hc (Or.inr rfl)
    | node rc rl re rr =>
      have hcf : ∀ e', ∃ k, RB (.node lc ll le lr) lc k ∧ CRB (⟨true, c, e', .node rc rl re rr⟩ :: ctx) lc k := by
        intro e'
        cases h with
        | red a b =>
          have hcol := a.color_eq
          simp only [T.color] at hcol
          subst hcol
          exact ⟨_, a, .red b hc⟩
        | @black _ _ _ cl c2' m a b =>
          have hcol := a.color_eq
          simp only [T.color] at hcol
          subst hcol
          exact ⟨_, a, .black b hc⟩
      cases kind with
      | struct => exact absurd rfl hk
      | word =>
        obtain ⟨k, h1, h2⟩ := hcf ⟨e.id, (maxDown lc ll le lr []).2.2.1.key,
          (maxDown lc ll le lr []).2.2.1.val, e.fl⟩
        obtain ⟨n', h3, h4⟩ := maxDown_rb h1 h2
        have := delOne_rb h3 h4 (Or.inr rfl)
        exact this
      | string =>
        obtain ⟨k, h1, h2⟩ := hcf (maxDown lc ll le lr []).2.2.1
        obtain ⟨n', h3, h4⟩ := maxDown_rb h1 h2
        have := delOne_rb h3 h4 (Or.inr rfl)
        exact this

theorem locate_rb (cmp : K → K → Int) (k : K) {t : T K V} {ctx : Ctx K V} {c n}
    (h : RB t c n) (hc : CRB ctx c n) :
    ∃ c' n', RB (locate cmp k t ctx).1 c' n' ∧ CRB (locate cmp k t ctx).2 c' n' := by
  induction t generalizing ctx c n with
  | nil => exact ⟨c, n, h, hc⟩
  | node cc l e r ihl ihr =>
    simp only [locate]
    split
    · exact ⟨c, n, h, hc⟩
    · cases h with
      | red a b =>
        split
        · exact ihl a (.red b hc)
        · exact ihr b (.red a hc)
      | black a b =>
        split
        · exact ihl a (.black b hc)
        · exact ihr b (.black a hc)

end Verif.Tree
