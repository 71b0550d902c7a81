import Verif.Interp.Props

/-! C71, C72: `Interp.conf` and option names.  C73: how deep interpreters nest.  C74: `exec` in a safe interpreter. -/

namespace Verif.Interp

/-! ### C71 -/

/-- The specification of an option. -/
def SpecOf (o : Opt) (sp : Spec) : Prop := sp ∈ table ∧ sp.opt = o

theorem spec_unique : ∀ a ∈ table, ∀ b ∈ table, a.opt = b.opt → a = b := by decide +kernel

/-- **C71**: `Interp.conf`, from inside or from the parent, never changes an option that is fixed at creation or
read-only; and in a safe interpreter never one that is locked there. -/
theorem C71_conf_fixed (e : Env) (self : Bool) (r : Rec) (opts : List (Str × Val)) (o : Opt) (sp : Spec)
    (hsp : SpecOf o sp) (h : sp.initOnly = true ∨ sp.readOnly = true ∨ (sp.lockSafe = true ∧ isSafe r = true)) :
    confRec e self r opts o = r o := by
  unfold confRec
  split
  · rfl
  · apply process_keeps
    intro kv _ sp' hf he
    have : sp' = sp := spec_unique _ (find_mem hf).1 _ hsp.1 (he.trans hsp.2.symm)
    subst this
    rcases h with h | h | h
    · exact Or.inr (Or.inl ⟨rfl, h⟩)
    · exact Or.inl h
    · exact Or.inr (Or.inr ⟨h.2, rfl, h.1⟩)

/-- **C71**: an option that is not named keeps its value. -/
theorem C71_conf_unnamed (e : Env) (self : Bool) (r : Rec) (opts : List (Str × Val)) (o : Opt)
    (h : NotNamed o opts) : confRec e self r opts o = r o := conf_keeps_lock e self r opts o h

/-- One entry of the options is refused. -/
def Refused (cust : Opt → Val → Option Val) (upd safe : Bool) (kv : Str × Val) : Prop :=
  ∀ sp, find kv.1 = some sp → sp.readOnly = true ∨ (upd = true ∧ sp.initOnly = true) ∨
    (safe = true ∧ upd = true ∧ sp.lockSafe = true) ∨ setOption cust sp kv.2 = none

/-- The value of `o` once all entries are applied: the last one that names it counts. -/
def applied (cust : Opt → Val → Option Val) (o : Opt) : Val → List (Str × Val) → Val
  | v, [] => v
  | v, kv :: t =>
    match find kv.1 with
    | some sp => applied cust o (if sp.opt = o then (setOption cust sp kv.2).getD v else v) t
    | none => applied cust o v t

/-- **C71**: exactly what processing options does.  The entries up to the first one that is refused take effect, the
later ones do not; the call succeeds if none is refused; and each option has the value of the last entry naming it. -/
theorem C71_process (cust : Opt → Val → Option Val) (upd safe : Bool) :
    ∀ (l : List (Str × Val)) (r : Rec), ∃ pre post, l = pre ++ post ∧
      (∀ kv ∈ pre, ¬Refused cust upd safe kv) ∧
      (∀ o, (process cust upd safe false r l).1 o = applied cust o (r o) pre) ∧
      ((process cust upd safe false r l).2 = true ↔ post = []) ∧
      (∀ kv, post.head? = some kv → Refused cust upd safe kv) := by
  intro l
  induction l with
  | nil =>
    intro r
    exact ⟨[], [], rfl, by simp, fun _ => rfl, by simp [process], by simp⟩
  | cons kv t ih =>
    intro r
    obtain ⟨k, v⟩ := kv
    have stop : Refused cust upd safe (k, v) → process cust upd safe false r ((k, v) :: t) = (r, false) →
        ∃ pre post, (k, v) :: t = pre ++ post ∧ (∀ kv ∈ pre, ¬Refused cust upd safe kv) ∧
          (∀ o, (process cust upd safe false r ((k, v) :: t)).1 o = applied cust o (r o) pre) ∧
          ((process cust upd safe false r ((k, v) :: t)).2 = true ↔ post = []) ∧
          (∀ kv, post.head? = some kv → Refused cust upd safe kv) := by
      intro h1 h2
      refine ⟨[], (k, v) :: t, rfl, by simp, fun _ => by rw [h2]; rfl, by rw [h2]; simp, ?_⟩
      intro kv h
      cases h
      exact h1
    rcases hf : find k with _ | sp
    · exact stop (fun sp h => by rw [hf] at h; cases h) (by rw [process, hf]; rfl)
    · have ref : (sp.readOnly = true ∨ (upd = true ∧ sp.initOnly = true) ∨
          (safe = true ∧ upd = true ∧ sp.lockSafe = true) ∨ setOption cust sp v = none) →
          Refused cust upd safe (k, v) := by
        intro h sp' h'
        rw [hf] at h'
        cases h'
        exact h
      by_cases h1 : sp.readOnly = true
      · exact stop (ref (Or.inl h1)) (by rw [process, hf]; simp only []; rw [if_pos h1])
      by_cases h2 : upd = true ∧ sp.initOnly = true
      · exact stop (ref (Or.inr (Or.inl h2)))
          (by rw [process, hf]; simp only []; rw [if_neg h1, if_pos (by simp [h2])])
      by_cases h3 : safe = true ∧ upd = true ∧ sp.lockSafe = true
      · exact stop (ref (Or.inr (Or.inr (Or.inl h3))))
          (by rw [process, hf]; simp only []
              rw [if_neg h1, if_neg (by simpa using h2), if_pos (by simp [h3])])
      rcases hv : setOption cust sp v with _ | x
      · exact stop (ref (Or.inr (Or.inr (Or.inr hv))))
          (by rw [process, hf]; simp only []
              rw [if_neg h1, if_neg (by simpa using h2), if_neg (by simpa [and_assoc] using h3), hv])
      · have hp : process cust upd safe false r ((k, v) :: t) =
            process cust upd safe false (r.set sp.opt x) t := by
          rw [process, hf]; simp only []
          rw [if_neg h1, if_neg (by simpa using h2), if_neg (by simpa [and_assoc] using h3), hv]
        obtain ⟨pre, post, e1, e2, e3, e4, e5⟩ := ih (r.set sp.opt x)
        refine ⟨(k, v) :: pre, post, by rw [e1]; rfl, ?_, ?_, hp ▸ e4, e5⟩
        · intro kv hm
          rcases List.mem_cons.1 hm with rfl | hm
          · intro hr
            rcases hr sp hf with h | h | h | h
            · exact h1 h
            · exact h2 h
            · exact h3 h
            · rw [hv] at h; cases h
          · exact e2 kv hm
        · intro o
          rw [hp, e3, applied, hf]
          simp only [hv, Option.getD]
          congr 1
          by_cases ho : sp.opt = o
          · subst ho; rw [Rec.set_same, if_pos rfl]
          · rw [Rec.set_ne _ _ (Ne.symm ho), if_neg ho]

/-- **C71**: with `noConfig`, an interpreter cannot change its own options. -/
theorem C71_noConfig (e : Env) (r : Rec) (opts : List (Str × Val)) (h : flag r .noConfig = true) :
    confRec e true r opts = r := by
  unfold confRec
  rw [if_pos (by simp [h])]

/-- **C71**: and it cannot switch `noConfig` off first: after any history it is as it was. -/
theorem noConfig_spec : SpecOf .noConfig ⟨.noConfig, asc "noConfig", .bool, true, false, false⟩ := by
  refine ⟨?_, rfl⟩
  decide +kernel

theorem noConfig_keeps (e : Env) (s : Nat) (w : World) (S : Ip) (hS : w[s]? = some S) (op : Op) :
    ∃ S', (step e w op)[s]? = some S' ∧ S'.opt .noConfig = S.opt .noConfig := by
  have same : ∃ S', w[s]? = some S' ∧ S'.opt .noConfig = S.opt .noConfig := ⟨S, hS, rfl⟩
  have hset : ∀ (j : Nat) (i i' : Ip), w[j]? = some i → i'.opt .noConfig = i.opt .noConfig →
      ∃ S', (w.set j i')[s]? = some S' ∧ S'.opt .noConfig = S.opt .noConfig := by
    intro j i i' hi ho
    have hlt : j < w.length := (List.getElem?_eq_some_iff.1 hi).1
    rw [List.getElem?_set]
    split
    · rename_i h; subst h; rw [hi] at hS; cases hS; exact ⟨i', rfl, ho⟩
    · exact same
  cases op with
  | create a opts =>
    rw [step]
    split
    · exact same
    · split
      · exact same
      · exact ⟨S, by rw [List.getElem?_append_left (List.getElem?_eq_some_iff.1 hS).1]; exact hS, rfl⟩
  | conf a j opts =>
    rw [step]
    split
    · exact same
    · rename_i i hi
      split
      · exact hset j i _ hi (C71_conf_fixed e _ i.opt opts .noConfig _ noConfig_spec (Or.inl rfl))
      · exact same
  | source a j f =>
    rw [step]
    split
    · exact same
    · rename_i i hi
      split
      · exact hset j i _ hi (source_guarded e i f .noConfig (by decide) (by decide))
      · exact same
  | plainSource a =>
    rw [step]
    split
    · exact same
    · rename_i i hi
      exact hset a i _ hi rfl
  | edit a o l =>
    rw [step]
    split
    · exact same
    · rename_i i hi
      split
      · rename_i hk
        refine hset a i _ hi ?_
        have hne : Opt.noConfig ≠ o := by
          rintro rfl
          exact absurd hk.1 (by decide +kernel)
        show editRec i o l .noConfig = _
        unfold editRec
        split
        · rw [Rec.set_ne _ _ (by decide), Rec.set_ne _ _ (by decide)]
        · rw [Rec.set_ne _ _ hne]
      · exact same

theorem C71_noConfig_stays (e : Env) (s : Nat) : ∀ (ops : List Op) (w : World) (S : Ip), w[s]? = some S →
    ∃ S', (run e w ops)[s]? = some S' ∧ S'.opt .noConfig = S.opt .noConfig := by
  intro ops
  induction ops with
  | nil => intro w S hS; exact ⟨S, hS, rfl⟩
  | cons op t ih =>
    intro w S hS
    obtain ⟨S1, h1, h2⟩ := noConfig_keeps e s w S hS op
    obtain ⟨S2, h3, h4⟩ := ih _ S1 h1
    exact ⟨S2, h3, h4.trans h2⟩

/-! ### C72 -/

theorem names_ne : ∀ s ∈ table, s.name ≠ [] := by decide +kernel

theorem find_name : ∀ s ∈ table, find s.name = some s := by decide +kernel

theorem table_nodup : table.Nodup := by decide +kernel

def fits (k : Str) (s : Spec) : Bool := s.name.head? = k.head? ∧ s.name.take k.length = k

theorem fits_iff {k : Str} {s : Spec} (hs : s.name ≠ []) : fits k s = true ↔ k ≠ [] ∧ k <+: s.name := by
  unfold fits
  rw [decide_eq_true_eq]
  constructor
  · rintro ⟨h1, h2⟩
    refine ⟨?_, h2 ▸ List.take_prefix _ _⟩
    rintro rfl
    cases hn : s.name with
    | nil => exact hs hn
    | cons a t => rw [hn] at h1; cases h1
  · rintro ⟨h1, t, h2⟩
    rw [← h2]
    cases k with
    | nil => exact absurd rfl h1
    | cons a k => simp

theorem findLoop_filter (k : Str) : ∀ (l : List Spec) (m : Option Spec), (∀ s ∈ l, s.name ≠ k) →
    findLoop k m l = match m, l.filter (fits k) with
      | none, [s] => some s
      | none, _ => none
      | some x, [] => some x
      | some _, _ => none := by
  intro l
  induction l with
  | nil => intro m _; cases m <;> rfl
  | cons a l ih =>
    intro m h
    have ih := fun m => ih m (fun s hs => h s (List.mem_cons_of_mem _ hs))
    rw [findLoop]
    by_cases hf : fits k a = true
    · have hf' := hf
      unfold fits at hf'
      rw [decide_eq_true_eq] at hf'
      rw [if_neg (by rw [not_or]; exact ⟨fun h => h hf'.1, fun h => h hf'.2⟩)]
      rw [if_neg (by
        intro hl
        apply h a List.mem_cons_self
        have := hf'.2
        rw [← hl, List.take_length] at this
        exact this)]
      rw [List.filter_cons_of_pos hf]
      cases m with
      | some x => rfl
      | none =>
        simp only [Option.isSome_none, Bool.false_eq_true, if_false]
        rw [ih]
        cases l.filter (fits k) <;> rfl
    · have hf' := hf
      unfold fits at hf'
      rw [decide_eq_true_eq] at hf'
      rw [if_pos (by
        by_cases h1 : a.name.head? = k.head?
        · exact Or.inr (fun h2 => hf' ⟨h1, h2⟩)
        · exact Or.inl h1), List.filter_cons_of_neg hf]
      exact ih m

/-- **C72**: the name given for an option may be its full name, or an abbreviation; an abbreviation is accepted
exactly if no other option begins with it. -/
theorem C72_find (k : Str) (s : Spec) : find k = some s ↔
    s ∈ table ∧ (s.name = k ∨
      (k ≠ [] ∧ k <+: s.name ∧ (∀ t ∈ table, k <+: t.name → t = s))) := by
  by_cases hex : ∃ t ∈ table, t.name = k
  · obtain ⟨t, ht, rfl⟩ := hex
    rw [find_name t ht]
    constructor
    · intro h; cases h; exact ⟨ht, Or.inl rfl⟩
    · rintro ⟨hs, h | ⟨-, -, h⟩⟩
      · have h1 := find_name s hs
        rw [h, find_name t ht] at h1
        exact h1
      · rw [h t ht (List.prefix_refl _)]
  · have hne : ∀ t ∈ table, t.name ≠ k := fun t ht h => hex ⟨t, ht, h⟩
    have hfl := findLoop_filter k table none hne
    have hnd : (table.filter (fits k)).Nodup := table_nodup.filter _
    have hmem : ∀ t, t ∈ table.filter (fits k) ↔ t ∈ table ∧ k ≠ [] ∧ k <+: t.name := by
      intro t
      rw [List.mem_filter]
      constructor
      · rintro ⟨h1, h2⟩; exact ⟨h1, (fits_iff (names_ne t h1)).1 h2⟩
      · rintro ⟨h1, h2⟩; exact ⟨h1, (fits_iff (names_ne t h1)).2 h2⟩
    unfold find
    rw [hfl]
    generalize hF : table.filter (fits k) = F at hnd hmem
    constructor
    · intro h
      match F, h with
      | [a], h =>
        have has : a = s := by simpa using h
        subst has
        have ha := (hmem a).1 (by simp)
        refine ⟨ha.1, Or.inr ⟨ha.2.1, ha.2.2, ?_⟩⟩
        intro t ht hp
        have := (hmem t).2 ⟨ht, ha.2.1, hp⟩
        simpa using this
    · rintro ⟨h1, h2 | ⟨h2, h3, h4⟩⟩
      · exact absurd h2 (hne s h1)
      · have hs := (hmem s).2 ⟨h1, h2, h3⟩
        have hall : ∀ t ∈ F, t = s := fun t ht => h4 t ((hmem t).1 ht).1 ((hmem t).1 ht).2.2
        match F, hs, hall, hnd with
        | [a], _, hall, _ => rw [hall a (by simp)]
        | a :: b :: t, _, hall, hnd =>
          have h5 := hall a (by simp)
          have h6 := hall b (by simp)
          subst h5
          subst h6
          simp at hnd

/-! ### C73 -/

/-- `j` is `n` creations below `s`. -/
inductive Level (w : World) (s : Nat) : Nat → Nat → Prop
  | self : Level w s s 0
  | sub {a j n : Nat} {i : Ip} : Level w s a n → w[j]? = some i → i.parent = some a → Level w s j (n + 1)

/-- Each interpreter is one deeper than its creator. -/
def DepthOk (w : World) : Prop :=
  Wf w ∧ ∀ (j : Nat) (i : Ip) (a : Nat), w[j]? = some i → i.parent = some a →
    ∃ p, w[a]? = some p ∧ i.depth = p.depth + 1

theorem source_depth (e : Env) (i : Ip) (f : Str) : (source e i f).1.depth = i.depth := by
  unfold source sourceFirst
  split
  · rfl
  · split
    · split <;> rfl
    · rfl

theorem get_set {w : World} {j k : Nat} {i i' : Ip} (hi : w[j]? = some i) (hp : i'.parent = i.parent)
    (hd : i'.depth = i.depth) {x : Ip} (hk : (w.set j i')[k]? = some x) :
    ∃ y, w[k]? = some y ∧ x.parent = y.parent ∧ x.depth = y.depth := by
  rw [List.getElem?_set] at hk
  have hlt : j < w.length := (List.getElem?_eq_some_iff.1 hi).1
  split at hk
  · rename_i h; subst h; cases hk; exact ⟨i, hi, hp, hd⟩
  · exact ⟨x, hk, rfl, rfl⟩

theorem set_get {w : World} {j k : Nat} {i i' : Ip} (hi : w[j]? = some i) (hd : i'.depth = i.depth) {x : Ip}
    (hk : w[k]? = some x) : ∃ y, (w.set j i')[k]? = some y ∧ y.depth = x.depth := by
  rw [List.getElem?_set]
  have hlt : j < w.length := (List.getElem?_eq_some_iff.1 hi).1
  split
  · rename_i h; subst h; rw [hi] at hk; cases hk; exact ⟨i', rfl, hd⟩
  · exact ⟨x, hk, rfl⟩

theorem depthOk_set {w : World} {j : Nat} {i i' : Ip} (h : DepthOk w) (hi : w[j]? = some i)
    (hp : i'.parent = i.parent) (hd : i'.depth = i.depth) : DepthOk (w.set j i') := by
  refine ⟨wf_set h.1 hi hp, ?_⟩
  intro k x a hk hx
  obtain ⟨y, hy, h1, h2⟩ := get_set hi hp hd hk
  obtain ⟨p, hp', hpd⟩ := h.2 k y a hy (h1 ▸ hx)
  obtain ⟨q, hq, hqd⟩ := set_get (i' := i') hi hd hp'
  exact ⟨q, hq, by rw [h2, hqd]; exact hpd⟩

/-- A step keeps the depths, and the depth of what was there. -/
theorem step_depth (e : Env) (w : World) (h : DepthOk w) (op : Op) :
    DepthOk (step e w op) ∧ ∀ (k : Nat) (x : Ip), w[k]? = some x →
      ∃ y, (step e w op)[k]? = some y ∧ y.depth = x.depth := by
  have same : DepthOk w ∧ ∀ (k : Nat) (x : Ip), w[k]? = some x → ∃ y, w[k]? = some y ∧ y.depth = x.depth :=
    ⟨h, fun k x hk => ⟨x, hk, rfl⟩⟩
  cases op with
  | create a opts =>
    rw [step]
    split
    · exact same
    · rename_i p hp
      split
      · exact same
      · rename_i c hc
        have ha : a < w.length := (List.getElem?_eq_some_iff.1 hp).1
        obtain ⟨hcp, hcd, -⟩ := finish_cases _ _ _ _ _ (newInterp_cases _ _ _ _ _ hc).2.2.2
        refine ⟨⟨wf_append h.1 ha hcp, ?_⟩, ?_⟩
        · intro k x b hk hx
          rcases get_append hk with ⟨_, h'⟩ | ⟨_, rfl⟩
          · obtain ⟨q, hq, hqd⟩ := h.2 k x b h' hx
            exact ⟨q, by rw [List.getElem?_append_left (List.getElem?_eq_some_iff.1 hq).1]; exact hq, hqd⟩
          · rw [hcp] at hx; cases hx
            exact ⟨p, by rw [List.getElem?_append_left ha]; exact hp, hcd⟩
        · intro k x hk
          exact ⟨x, by rw [List.getElem?_append_left (List.getElem?_eq_some_iff.1 hk).1]; exact hk, rfl⟩
  | conf a j opts =>
    rw [step]
    split
    · exact same
    · rename_i i hi
      split
      · exact ⟨depthOk_set h hi rfl rfl, fun k x hk => set_get hi (by rfl) hk⟩
      · exact same
  | source a j f =>
    rw [step]
    split
    · exact same
    · rename_i i hi
      split
      · exact ⟨depthOk_set h hi (source_parent e i f) (source_depth e i f),
          fun k x hk => set_get hi (source_depth e i f) hk⟩
      · exact same
  | plainSource a =>
    rw [step]
    split
    · exact same
    · rename_i i hi
      exact ⟨depthOk_set h hi rfl rfl, fun k x hk => set_get hi (by rfl) hk⟩
  | edit a o l =>
    rw [step]
    split
    · exact same
    · rename_i i hi
      split
      · exact ⟨depthOk_set h hi rfl rfl, fun k x hk => set_get hi (by rfl) hk⟩
      · exact same

theorem run_depth (e : Env) : ∀ (ops : List Op) (w : World), DepthOk w → DepthOk (run e w ops) ∧
    ∀ (k : Nat) (x : Ip), w[k]? = some x → ∃ y, (run e w ops)[k]? = some y ∧ y.depth = x.depth := by
  intro ops
  induction ops with
  | nil => intro w h; exact ⟨h, fun k x hk => ⟨x, hk, rfl⟩⟩
  | cons op t ih =>
    intro w h
    obtain ⟨h1, h2⟩ := step_depth e w h op
    obtain ⟨h3, h4⟩ := ih _ h1
    refine ⟨h3, fun k x hk => ?_⟩
    obtain ⟨y, hy, hyd⟩ := h2 k x hk
    obtain ⟨z, hz, hzd⟩ := h4 k y hy
    exact ⟨z, hz, hzd.trans hyd⟩

theorem level_depth {w : World} (h : DepthOk w) {s : Nat} {S : Ip} (hS : w[s]? = some S) {j n : Nat}
    (hl : Level w s j n) : ∀ i, w[j]? = some i → i.depth = S.depth + n := by
  induction hl with
  | self => intro i hi; rw [hS] at hi; cases hi; simp
  | @sub a j n x _ hj hx ih =>
    intro i hi
    rw [hj] at hi
    cases hi
    obtain ⟨p, hp, hd⟩ := h.2 j _ a hj hx
    rw [hd, ih p hp]
    push_cast
    omega

theorem level_within {w : World} {s j n : Nat} (h : Level w s j n) : Within w s j := by
  induction h with
  | self => exact .self
  | sub _ hj hx ih => exact .sub ih hj hx

theorem depth_keeps (e : Env) (he : EtcOk e) (s : Nat) (S : Ip) :
    Keeps e (fun _ => True)
      (fun j i => Bound S i ∧ (j ≠ s → i.depth ≤ limit S.opt .maxInterpDepth)) s where
  create := fun a p opts c _ _ hp _ hc => by
    refine ⟨bound_create e he S a p opts c hp.1 hc, fun _ => ?_⟩
    obtain ⟨-, hd, -, hf⟩ := newInterp_cases e a p opts c hc
    rw [(finish_cases _ _ _ _ _ hf).2.1]
    have := hp.1.limits .maxInterpDepth (by decide)
    unfold limit at hd ⊢
    rw [← this]
    exact hd
  conf := fun _ _ i self opts hp _ =>
    ⟨hp.1.congr rfl (fun o ho hl _ _ => conf_keeps e self i.opt hp.1.safe opts o ho hl), hp.2⟩
  source := fun _ _ i f hp _ =>
    ⟨hp.1.congr (source_load e i f) (fun o _ _ h1 h2 => source_guarded e i f o h1 h2), by
      rw [source_depth]; exact hp.2⟩
  plain := fun _ _ hp => ⟨hp.1.congr rfl (fun _ _ _ _ _ => rfl), hp.2⟩
  edit := fun _ i o l hp _ hk =>
    ⟨hp.1.congr rfl (fun o' ho' _ h1 h2 => edit_guarded i o o' l hk ho' h1 h2), hp.2⟩

/-- **C73**: below a safe interpreter, interpreters nest at most to its `maxInterpDepth`, in every history, whatever
options its descendants are given: at most `maxInterpDepth - depth` levels. -/
theorem C73_depth (e : Env) (he : EtcOk e) (w : World) (hw : DepthOk w) (s : Nat) (S : Ip) (hS : w[s]? = some S)
    (hsafe : isSafe S.opt = true) (hn : NoSubs w s) (ops : List Op) (j n : Nat)
    (hj : Level (run e w ops) s j n) (h0 : n ≠ 0) : S.depth + n ≤ limit S.opt .maxInterpDepth := by
  obtain ⟨h1, h2⟩ := run_depth e ops w hw
  obtain ⟨S', hS', hd⟩ := h2 s S hS
  have hs : s < w.length := (List.getElem?_eq_some_iff.1 hS).1
  cases hj with
  | self => exact absurd rfl h0
  | @sub a _ m i hl hi hx =>
    have hle : ∀ {k m}, Level (run e w ops) s k m → s ≤ k := by
      intro k m hk
      induction hk with
      | self => exact Nat.le_refl _
      | sub _ hk hx ih => exact Nat.le_trans ih (Nat.le_of_lt (h1.1 _ _ _ hk hx))
    have hlt := h1.1 _ _ _ hi hx
    have hsj : j ≠ s := by have := hle hl; omega
    have hj' : Level (run e w ops) s j (m + 1) := .sub hl hi hx
    have hall := run_all (depth_keeps e he s S) ops w (fun _ _ => trivial) hw.1 hs
      (all_start hS hn ⟨bound_refl S hsafe, fun h => absurd rfl h⟩) j i hi (level_within hj')
    have := hall.2 hsj
    rw [level_depth h1 hS' hj' i hi, hd] at this
    exact this

/-! ### C74 -/

/-- **C74**: with no pattern and no `lockDown`, a safe interpreter executes nothing. -/
theorem C74_none (e : Env) (r : Rec) (hs : isSafe r = true) (hp : ∀ p, r .safeExecPattern ≠ .str p)
    (hl : r .lockDown ≠ .str [46]) (nr : Bool) (cmd : Str) : exec e r false nr cmd = none := by
  have : execGate e r false cmd = none := by
    unfold execGate
    rw [if_neg (by simp [hs]), if_neg (by simp)]
    split
    · rename_i p h; exact absurd h (hp p)
    · rw [if_neg (fun h => hl h.1)]
  unfold exec
  rw [this]

/-- **C74**: what a safe interpreter gives to the shell is the command as given, matches the pattern if there is one
(else begins with "fossil "), and has none of the characters `<>|;&$` backquote `=`. -/
theorem C74_exec (e : Env) (r : Rec) (hs : isSafe r = true) (nr : Bool) (cmd t : Str)
    (h : exec e r false nr cmd = some t) : t = cmd ∧
      (∀ c ∈ asc "<>|;&$`=", c ∉ cmd) ∧
      (∀ p, r .safeExecPattern = .str p → e.regex p cmd = some true) ∧
      ((∀ p, r .safeExecPattern ≠ .str p) → r .lockDown = .str (asc ".") ∧ asc "fossil " <+: cmd) := by
  unfold exec at h
  split at h
  · cases h
  · rename_i rs hg
    have hg' : rs = true ∧ (∀ p, r .safeExecPattern = .str p → e.regex p cmd = some true) ∧
        ((∀ p, r .safeExecPattern ≠ .str p) → r .lockDown = .str (asc ".") ∧ asc "fossil " <+: cmd) := by
      unfold execGate at hg
      rw [if_neg (by simp [hs]), if_neg (by simp)] at hg
      split at hg
      · rename_i p hp
        split at hg
        · rename_i hr
          cases hg
          refine ⟨rfl, fun q hq => ?_, fun hn => absurd hp (hn p)⟩
          rw [hp] at hq; cases hq; exact hr
        · cases hg
      · rename_i hp
        split at hg
        · rename_i hr
          cases hg
          refine ⟨rfl, fun q hq => absurd hq (hp q), fun _ => ⟨?_, ?_⟩⟩
          · rw [hr.1]; decide +kernel
          · rw [← hr.2]; exact List.take_prefix _ _
        · cases hg
    split at h
    · cases h
    · rename_i hb
      rw [hg'.1] at hb
      cases h
      refine ⟨rfl, ?_, hg'.2⟩
      intro c hc hm
      apply hb
      simp only [Bool.true_or, Bool.true_and, List.any_eq_true]
      refine ⟨c, hm, ?_⟩
      clear hm
      revert hc
      revert c
      decide +kernel

end Verif.Interp
