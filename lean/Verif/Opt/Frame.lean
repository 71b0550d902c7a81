import Verif.Opt.Field

/-!
C124 (setting options changes only the options named), C125 (locked options are not changed), C126 (a refused value
changes nothing).
-/

namespace Verif.Opt

open Verif.Value (Num roundNum one)

/-- A place in a record. -/
inductive Loc where
  | raw (i : Nat)
  | num (i : Nat)
  | ref (i : Nat)

/-- Two records have the same at a place. -/
def Same (r r' : Rec) : Loc → Prop
  | .raw i => r'.raw i = r.raw i
  | .num i => r'.num i = r.num i
  | .ref i => r'.ref i = r.ref i

mutual
/-- The places of an option's field. -/
def Owns : Kind → Nat → Loc → Prop
  | .bool, a, l => l = .raw a
  | .int _ n, a, l => ∃ i, i < n ∧ l = .raw (a + i)
  | .number, a, l => l = .num a
  | .ref _, a, l => l = .ref a
  | .strbuf n, a, l => ∃ i, i < n ∧ l = .raw (a + i)
  | .enum _ _ n _ _ _, a, l => ∃ i, i < n ∧ l = .raw (a + i)
  | .bitset _ n _, a, l => ∃ i, i < n ∧ l = .raw (a + i)
  | .sub s, a, l => OwnsAll s a l
/-- The places of the fields of a table. -/
def OwnsAll : Specs → Nat → Loc → Prop
  | .nil, _, _ => False
  | .cons _ o _ k s, b, l => Owns k (b + o) l ∨ OwnsAll s b l
end

mutual
/-- A string buffer has room for its end. -/
def Kind.Ok : Kind → Prop
  | .strbuf n => 0 < n
  | .sub s => s.Ok
  | _ => True
/-- All options of the table are in order. -/
def Specs.Ok : Specs → Prop
  | .nil => True
  | .cons _ _ _ k s => k.Ok ∧ s.Ok
end

theorem Same.refl (r : Rec) (l : Loc) : Same r r l := by cases l <;> rfl

theorem Same.trans {r r' r'' : Rec} {l : Loc} (h : Same r r' l) (h' : Same r' r'' l) : Same r r'' l := by
  cases l <;> exact Eq.trans h' h

theorem same_poke (r : Rec) (a : Nat) (b : List UInt8) (n : Nat) (l : Loc) (hb : b.length ≤ n)
    (h : ¬ ∃ i, i < n ∧ l = .raw (a + i)) : Same r { r with raw := poke r.raw a b } l := by
  cases l with
  | raw j =>
    show poke r.raw a b j = r.raw j
    apply poke_out
    by_cases h1 : j < a
    · exact Or.inl h1
    · right
      by_cases h2 : j < a + b.length
      · exact absurd ⟨j - a, by omega, by congr 1; omega⟩ h
      · omega
  | num j => rfl
  | ref j => rfl

theorem same_store (r : Rec) (a n k : Nat) (z : Int) (l : Loc) (hk : k ≤ n)
    (h : ¬ ∃ i, i < n ∧ l = .raw (a + i)) : Same r (storeI k r a z) l :=
  same_poke r a _ n l (by rw [leBytes_length]; exact hk) h

theorem same_num (r : Rec) (a : Nat) (x : Num) (l : Loc) (h : l ≠ .num a) : Same r (setNum r a x) l := by
  cases l with
  | raw j => rfl
  | num j => show (if j = a then x else r.num j) = _; rw [if_neg (fun e => h (by rw [e]))]
  | ref j => rfl

theorem same_ref (r : Rec) (a : Nat) (x : Option V) (l : Loc) (h : l ≠ .ref a) : Same r (setRef r a x) l := by
  cases l with
  | raw j => rfl
  | num j => rfl
  | ref j => show (if j = a then x else r.ref j) = _; rw [if_neg (fun e => h (by rw [e]))]

theorem fin_fst (c : Call) (p : Rec × Rc) : (fin c p).1 = p.1 := by
  obtain ⟨r, e⟩ := p
  cases e <;> rfl

theorem setInt_same (c : Call) (sg : Bool) (n a : Nat) (w : Int) (r : Rec) (l : Loc)
    (h : ¬ ∃ i, i < n ∧ l = .raw (a + i)) : Same r (setInt c sg n a w r).1 l := by
  unfold setInt
  split
  · exact same_store r a n n _ l (Nat.le_refl _) h
  · split
    · exact same_store r a n n _ l (Nat.le_refl _) h
    · exact Same.refl r l

theorem setBitset_same (names : List Str) (n : Nat) (nc : Bool) (a : Nat) (v : V) (r : Rec) (l : Loc)
    (h : ¬ ∃ i, i < n ∧ l = .raw (a + i)) : Same r (setBitset names n nc a v r).1 l := by
  unfold setBitset
  split
  · rename_i hn
    cases v <;> try exact Same.refl r l
    · simp only []
      split
      · exact same_store r a n n _ l (Nat.le_refl _) h
      · exact Same.refl r l
    · simp only []
      split
      · exact same_store r a n 1 _ l (by omega) h
      · exact Same.refl r l
    · simp only []
      split
      · exact (same_store r a n 1 _ l (by omega) h).trans (same_store _ a n n _ l (Nat.le_refl _) h)
      · exact Same.refl r l
  · exact Same.refl r l

theorem setLeaf_same (c : Call) (k : Kind) (a : Nat) (v : V) (r : Rec) (l : Loc) (hk : k.Ok) (h : ¬ Owns k a l) :
    Same r (setLeaf c k a v r).1 l := by
  cases k with
  | bool =>
    simp only [Owns] at h
    cases v <;> simp only [setLeaf] <;> try exact Same.refl r l
    rw [fin_fst]
    exact same_poke r a _ 1 l (by simp) (by rintro ⟨i, hi, e⟩; obtain rfl : i = 0 := by omega
                                            exact h e)
  | int sg n =>
    simp only [Owns] at h
    cases v <;> simp only [setLeaf] <;> try exact Same.refl r l
    exact setInt_same c sg n a _ r l h
  | number =>
    simp only [Owns] at h
    cases v <;> simp only [setLeaf] <;> try exact Same.refl r l
    exact same_num r a _ l h
  | ref q =>
    simp only [Owns] at h
    simp only [setLeaf, fin_fst]
    unfold setRefK
    split
    · exact same_ref r a _ l h
    · split
      · exact same_ref r a _ l h
      · exact Same.refl r l
  | strbuf n =>
    simp only [Owns] at h
    simp only [Kind.Ok] at hk
    simp only [setLeaf, fin_fst]
    unfold setStrbuf
    split
    · exact same_poke r a _ n l (by simp; omega) h
    · split
      · exact Same.refl r l
      · refine same_poke r a _ n l ?_ h
        simp; omega
    · exact Same.refl r l
  | enum names sg n ex nc co =>
    simp only [Owns] at h
    simp only [setLeaf, fin_fst]
    unfold setEnum
    repeat' split
    all_goals first | exact same_store r a n n _ l (Nat.le_refl _) h | exact Same.refl r l
  | bitset names n nc =>
    simp only [Owns] at h
    simp only [setLeaf, fin_fst]
    exact setBitset_same names n nc a v r l h
  | sub s => exact Same.refl r l

mutual
theorem resetOpt_same (c : Call) (l : Loc) : ∀ (k : Kind) (a : Nat) (r : Rec), k.Ok → ¬ Owns k a l →
    Same r (resetOpt c k a r).1 l
  | .bool, a, r, _, h => by
    simp only [Owns] at h
    simp only [resetOpt, fin_fst]
    exact same_poke r a _ 1 l (by simp) (by rintro ⟨i, hi, e⟩; obtain rfl : i = 0 := by omega
                                            exact h e)
  | .int sg n, a, r, _, h => by
    simp only [Owns] at h
    simp only [resetOpt]
    exact setInt_same c sg n a _ r l h
  | .number, a, r, _, h => by simp only [Owns] at h; simp only [resetOpt]; exact same_num r a _ l h
  | .ref _, a, r, _, h => by simp only [Owns] at h; simp only [resetOpt, fin_fst]; exact same_ref r a _ l h
  | .strbuf n, a, r, hk, h => by
    simp only [Owns] at h
    simp only [Kind.Ok] at hk
    simp only [resetOpt, fin_fst]
    exact same_poke r a _ n l (by simp; omega) h
  | .enum .., _, r, _, _ => by simp only [resetOpt]; exact Same.refl r l
  | .bitset .., _, r, _, _ => by simp only [resetOpt]; exact Same.refl r l
  | .sub s, a, r, hk, h => by
    simp only [Owns] at h
    simp only [Kind.Ok] at hk
    simp only [resetOpt, fin_fst]
    exact resetAll_same c l s a r hk h
theorem resetAll_same (c : Call) (l : Loc) : ∀ (s : Specs) (b : Nat) (r : Rec), s.Ok → ¬ OwnsAll s b l →
    Same r (resetAll c s b r).1 l
  | .nil, _, r, _, _ => by simp only [resetAll]; exact Same.refl r l
  | .cons n o f k s, b, r, hk, h => by
    simp only [OwnsAll, not_or] at h
    simp only [Specs.Ok] at hk
    have h1 := resetOpt_same c l k (b + o) r hk.1 h.1
    simp only [resetAll]
    generalize resetOpt c k (b + o) r = p at h1 ⊢
    obtain ⟨r1, e⟩ := p
    cases e
    · exact h1.trans (resetAll_same c l s b r1 hk.2 h.2)
    · exact h1
    · exact h1
end

mutual
theorem clearOpt_same (l : Loc) : ∀ (f : SFlags) (k : Kind) (a : Nat) (r : Rec), k.Ok → ¬ Owns k a l →
    Same r (clearOpt f k a r) l
  | f, .bool, a, r, _, h => by
    simp only [Owns] at h
    simp only [clearOpt]
    split
    · exact Same.refl r l
    · exact same_store r a 1 1 _ l (Nat.le_refl _) (by rintro ⟨i, hi, e⟩; obtain rfl : i = 0 := by omega
                                                       exact h e)
  | f, .int sg n, a, r, _, h => by
    simp only [Owns] at h
    simp only [clearOpt]
    split
    · exact Same.refl r l
    · exact same_store r a n n _ l (Nat.le_refl _) h
  | f, .number, a, r, _, h => by
    simp only [Owns] at h; simp only [clearOpt]
    split
    · exact Same.refl r l
    · exact same_num r a _ l h
  | f, .ref _, a, r, _, h => by
    simp only [Owns] at h; simp only [clearOpt]
    split
    · exact Same.refl r l
    · exact same_ref r a _ l h
  | f, .strbuf n, a, r, hk, h => by
    simp only [Owns] at h
    simp only [Kind.Ok] at hk
    simp only [clearOpt]
    split
    · exact Same.refl r l
    · exact same_store r a n 1 _ l hk h
  | _, .enum .., _, r, _, _ => by simp only [clearOpt]; exact Same.refl r l
  | _, .bitset .., _, r, _, _ => by simp only [clearOpt]; exact Same.refl r l
  | f, .sub s, a, r, hk, h => by
    simp only [Owns] at h
    simp only [Kind.Ok] at hk
    simp only [clearOpt]
    split
    · exact Same.refl r l
    · exact clearAll_same l s a r hk h
theorem clearAll_same (l : Loc) : ∀ (s : Specs) (b : Nat) (r : Rec), s.Ok → ¬ OwnsAll s b l →
    Same r (clearAll s b r) l
  | .nil, _, r, _, _ => by simp only [clearAll]; exact Same.refl r l
  | .cons n o f k s, b, r, hk, h => by
    simp only [OwnsAll, not_or] at h
    simp only [Specs.Ok] at hk
    simp only [clearAll]
    exact (clearOpt_same l f k (b + o) r hk.1 h.1).trans (clearAll_same l s b _ hk.2 h.2)
end

/-! ### What a call may change -/

mutual
/-- Giving `v` to an option of type `k` at `a` may change this place. -/
def Touch (c : Call) (k : Kind) (a : Nat) (v : V) (l : Loc) : Prop :=
  match k, v with
  | .sub s, .undef => Owns (.sub s) a l
  | .sub s, .null => Owns (.sub s) a l
  | .sub s, .bool _ => Owns (.sub s) a l
  | .sub s, .num _ => Owns (.sub s) a l
  | .sub s, .str _ => Owns (.sub s) a l
  | .sub s, .arr _ => Owns (.sub s) a l
  | .sub s, .func _ => Owns (.sub s) a l
  | .sub s, .obj ms => Touches c s a ms l
  | k, _ => Owns k a l
/-- The members of an object of options may change this place: one of them names an option that is open to the call,
and its value may change the place. -/
def Touches (c : Call) (s : Specs) (b : Nat) (ms : Mems) (l : Loc) : Prop :=
  match ms with
  | .nil => False
  | .cons name v rest =>
    (∃ o, optFind s name = some o ∧ otherPass c o.fl = false ∧ barred c o.fl = false ∧ Touch c o.k (b + o.off) v l) ∨
      Touches c s b rest l
end

theorem findLoop_mem (name : Str) : ∀ (l : List Opt) (m : Option Opt) (o : Opt), findLoop name m l = some o →
    o ∈ l ∨ m = some o
  | [], m, o, h => Or.inr h
  | q :: l, m, o, h => by
    rw [findLoop] at h
    split at h
    · exact (findLoop_mem name l m o h).imp (List.mem_cons_of_mem _) id
    · split at h
      · exact Or.inl (by injection h with h; rw [h]; simp)
      · split at h
        · cases h
        · rcases findLoop_mem name l _ o h with h2 | h2
          · exact Or.inl (List.mem_cons_of_mem _ h2)
          · injection h2 with h2; exact Or.inl (by rw [h2]; simp)

theorem optFind_mem {s : Specs} {name : Str} {o : Opt} (h : optFind s name = some o) : o ∈ s.list := by
  rcases findLoop_mem name _ _ _ h with h | h
  · exact h
  · cases h

theorem Specs.Ok.mem : ∀ {s : Specs} {o : Opt}, s.Ok → o ∈ s.list → o.k.Ok
  | .nil, _, _, h => by simp [Specs.list] at h
  | .cons n f off k s, o, hk, h => by
    simp only [Specs.Ok] at hk
    simp only [Specs.list, List.mem_cons] at h
    rcases h with rfl | h
    · exact hk.1
    · exact Specs.Ok.mem hk.2 h

theorem OwnsAll.of_mem : ∀ {s : Specs} {o : Opt} {b : Nat} {l : Loc}, o ∈ s.list → Owns o.k (b + o.off) l → OwnsAll s b l
  | .nil, _, _, _, h, _ => by simp [Specs.list] at h
  | .cons n f off k s, o, b, l, h, ho => by
    simp only [Specs.list, List.mem_cons] at h
    simp only [OwnsAll]
    rcases h with rfl | h
    · exact Or.inl ho
    · exact Or.inr (OwnsAll.of_mem h ho)

theorem finish_same (c : Call) (s : Specs) (b : Nat) (p : Rec × Rc × List Str) (l : Loc) (r : Rec) (hk : s.Ok)
    (h : Same r p.1 l) (hu : c.update = true ∨ ¬ OwnsAll s b l) : Same r (finish c s b p).1 l := by
  obtain ⟨r1, e, d⟩ := p
  cases e with
  | ok =>
    simp only [finish]
    split
    · rename_i hm
      rcases hu with hu | hu
      · simp [missing, hu] at hm
      · exact h.trans (clearAll_same l s b r1 hk hu)
    · exact h
  | err =>
    simp only [finish]
    split
    · exact h
    · rename_i hm
      rcases hu with hu | hu
      · exact absurd hu hm
      · exact h.trans (clearAll_same l s b r1 hk hu)
  | crash => exact h

theorem step_same (c : Call) (o : Opt) (set : Rec → Rec × Rc) (r : Rec) (l : Loc)
    (h : otherPass c o.fl = false → barred c o.fl = false → Same r (set r).1 l) : Same r (step c o set r).1 l := by
  unfold step
  split
  · exact Same.refl r l
  · split
    · exact Same.refl r l
    · rename_i h1 h2
      have := h (by simpa using h1) (by simpa using h2)
      generalize set r = p at this ⊢
      obtain ⟨r1, e⟩ := p
      cases e <;> exact this

theorem andThen_same (p : Rec × Rc × List Str) (next : Rec → Rec × Rc × List Str) (r : Rec) (l : Loc)
    (h : Same r p.1 l) (hn : Same p.1 (next p.1).1 l) : Same r (andThen p next).1 l := by
  obtain ⟨r1, e, d⟩ := p
  cases e with
  | ok =>
    simp only [andThen]
    exact h.trans hn
  | err => exact h
  | crash => exact h

mutual
theorem setOpt_same (c : Call) (k : Kind) (a : Nat) (v : V) (r : Rec) (l : Loc) (hk : k.Ok) (hu : c.update = true)
    (h : ¬ Touch c k a v l) : Same r (setOpt c k a v r).1 l := by
  cases k with
  | sub s =>
    simp only [Kind.Ok] at hk
    cases v with
    | obj ms =>
      simp only [Touch] at h
      simp only [setOpt, fin_fst]
      exact finish_same c s a _ l r hk (procLoop_same c s a ms r l hk hu h) (Or.inl hu)
    | null =>
      simp only [Touch, Owns] at h
      simp only [setOpt, fin_fst]
      exact resetAll_same c l s a r hk h
    | undef => simp only [setOpt]; exact Same.refl r l
    | bool _ => simp only [setOpt]; exact Same.refl r l
    | num _ => simp only [setOpt]; exact Same.refl r l
    | str _ => simp only [setOpt]; exact Same.refl r l
    | arr _ => simp only [setOpt]; exact Same.refl r l
    | func _ => simp only [setOpt]; exact Same.refl r l
  | bool => simp only [Touch] at h; simp only [setOpt]; exact setLeaf_same c _ a v r l hk h
  | int sg n => simp only [Touch] at h; simp only [setOpt]; exact setLeaf_same c _ a v r l hk h
  | number => simp only [Touch] at h; simp only [setOpt]; exact setLeaf_same c _ a v r l hk h
  | ref q => simp only [Touch] at h; simp only [setOpt]; exact setLeaf_same c _ a v r l hk h
  | strbuf n => simp only [Touch] at h; simp only [setOpt]; exact setLeaf_same c _ a v r l hk h
  | enum _ _ _ _ _ _ => simp only [Touch] at h; simp only [setOpt]; exact setLeaf_same c _ a v r l hk h
  | bitset _ _ _ => simp only [Touch] at h; simp only [setOpt]; exact setLeaf_same c _ a v r l hk h
theorem procLoop_same (c : Call) (s : Specs) (b : Nat) (ms : Mems) (r : Rec) (l : Loc) (hk : s.Ok)
    (hu : c.update = true) (h : ¬ Touches c s b ms l) : Same r (procLoop c s b ms r).1 l := by
  cases ms with
  | nil => simp only [procLoop]; exact Same.refl r l
  | cons name v rest =>
    simp only [Touches, not_or, not_exists, not_and] at h
    simp only [procLoop]
    split
    · split
      · exact procLoop_same c s b rest r l hk hu h.2
      · exact Same.refl r l
    · rename_i o ho
      refine andThen_same _ _ r l ?_ (procLoop_same c s b rest _ l hk hu h.2)
      refine step_same c o _ r l (fun h1 h2 => ?_)
      exact setOpt_same c o.k _ v r l (hk.mem (optFind_mem ho)) hu (h.1 o ho h1 h2)
end

mutual
theorem setOpt_own (c : Call) (k : Kind) (a : Nat) (v : V) (r : Rec) (l : Loc) (hk : k.Ok)
    (h : ¬ Owns k a l) : Same r (setOpt c k a v r).1 l := by
  cases k with
  | sub s =>
    simp only [Kind.Ok] at hk
    simp only [Owns] at h
    cases v with
    | obj ms =>
      simp only [setOpt, fin_fst]
      exact finish_same c s a _ l r hk (procLoop_own c s a ms r l hk h) (Or.inr h)
    | null =>
      simp only [setOpt, fin_fst]
      exact resetAll_same c l s a r hk h
    | undef => simp only [setOpt]; exact Same.refl r l
    | bool _ => simp only [setOpt]; exact Same.refl r l
    | num _ => simp only [setOpt]; exact Same.refl r l
    | str _ => simp only [setOpt]; exact Same.refl r l
    | arr _ => simp only [setOpt]; exact Same.refl r l
    | func _ => simp only [setOpt]; exact Same.refl r l
  | bool => simp only [setOpt]; exact setLeaf_same c _ a v r l hk h
  | int sg n => simp only [setOpt]; exact setLeaf_same c _ a v r l hk h
  | number => simp only [setOpt]; exact setLeaf_same c _ a v r l hk h
  | ref q => simp only [setOpt]; exact setLeaf_same c _ a v r l hk h
  | strbuf n => simp only [setOpt]; exact setLeaf_same c _ a v r l hk h
  | enum _ _ _ _ _ _ => simp only [setOpt]; exact setLeaf_same c _ a v r l hk h
  | bitset _ _ _ => simp only [setOpt]; exact setLeaf_same c _ a v r l hk h
theorem procLoop_own (c : Call) (s : Specs) (b : Nat) (ms : Mems) (r : Rec) (l : Loc) (hk : s.Ok)
    (h : ¬ OwnsAll s b l) : Same r (procLoop c s b ms r).1 l := by
  cases ms with
  | nil => simp only [procLoop]; exact Same.refl r l
  | cons name v rest =>
    simp only [procLoop]
    split
    · split
      · exact procLoop_own c s b rest r l hk h
      · exact Same.refl r l
    · rename_i o ho
      refine andThen_same _ _ r l ?_ (procLoop_own c s b rest _ l hk h)
      refine step_same c o _ r l (fun _ _ => ?_)
      exact setOpt_own c o.k _ v r l (hk.mem (optFind_mem ho)) (fun h2 => h (OwnsAll.of_mem (optFind_mem ho) h2))
end

/-- C124: whatever is passed, nothing outside the fields of the table is written. -/
theorem C124_record (c : Call) (s : Specs) (b : Nat) (v : Option V) (r : Rec) (l : Loc) (hs : s.Ok)
    (hl : ¬ OwnsAll s b l) : Same r (process c s b v r).1 l := by
  unfold process
  split
  · exact resetAll_same c l s b r hs hl
  · exact resetAll_same c l s b r hs hl
  · exact finish_same c s b _ l r hs (procLoop_own c s b _ r l hs hl) (Or.inr hl)
  · exact Same.refl r l

/-- The members of an object. -/
def Mems.list : Mems → List (Str × V)
  | .nil => []
  | .cons k v m => (k, v) :: m.list

theorem Touches.named {c : Call} {s : Specs} {b : Nat} {l : Loc} : ∀ {ms : Mems}, Touches c s b ms l →
    ∃ kv ∈ ms.list, ∃ o, optFind s kv.1 = some o ∧ otherPass c o.fl = false ∧ barred c o.fl = false ∧
      Touch c o.k (b + o.off) kv.2 l
  | .nil, h => by simp [Touches] at h
  | .cons k v m, h => by
    simp only [Touches] at h
    rcases h with ⟨o, h⟩ | h
    · exact ⟨(k, v), by simp [Mems.list], o, h⟩
    · obtain ⟨kv, hm, h⟩ := Touches.named h
      exact ⟨kv, by simp [Mems.list, hm], h⟩

mutual
theorem Touch.owns {c : Call} {l : Loc} : ∀ {v : V} {k : Kind} {a : Nat}, Touch c k a v l → Owns k a l
  | .obj ms, .sub s, a, h => by
    simp only [Touch] at h
    simp only [Owns]
    exact Touches.owns h
  | .undef, .sub s, a, h => by simpa only [Touch] using h
  | .null, .sub s, a, h => by simpa only [Touch] using h
  | .bool _, .sub s, a, h => by simpa only [Touch] using h
  | .num _, .sub s, a, h => by simpa only [Touch] using h
  | .str _, .sub s, a, h => by simpa only [Touch] using h
  | .arr _, .sub s, a, h => by simpa only [Touch] using h
  | .func _, .sub s, a, h => by simpa only [Touch] using h
  | _, .bool, a, h => by simpa only [Touch] using h
  | _, .int _ _, a, h => by simpa only [Touch] using h
  | _, .number, a, h => by simpa only [Touch] using h
  | _, .ref _, a, h => by simpa only [Touch] using h
  | _, .strbuf _, a, h => by simpa only [Touch] using h
  | _, .enum .., a, h => by simpa only [Touch] using h
  | _, .bitset .., a, h => by simpa only [Touch] using h
theorem Touches.owns {c : Call} {l : Loc} : ∀ {ms : Mems} {s : Specs} {b : Nat}, Touches c s b ms l → OwnsAll s b l
  | .nil, s, b, h => by simp [Touches] at h
  | .cons k v m, s, b, h => by
    simp only [Touches] at h
    rcases h with ⟨o, h, -, -, h2⟩ | h
    · exact OwnsAll.of_mem (optFind_mem h) (Touch.owns h2)
    · exact Touches.owns h
end

/-- The fields of the options of the table do not overlap. -/
def Apart (s : Specs) (b : Nat) : Prop :=
  ∀ o ∈ s.list, ∀ o' ∈ s.list, o' = o ∨ ∀ l, ¬ (Owns o.k (b + o.off) l ∧ Owns o'.k (b + o'.off) l)

/-- C124: after `conf` with an object, whether it succeeds or not, an option that no member names is as before. -/
theorem C124_only_named (c : Call) (s : Specs) (b : Nat) (ms : Mems) (r : Rec) (o : Opt) (hs : s.Ok) (ha : Apart s b)
    (hu : c.update = true) (ho : o ∈ s.list) (hn : ∀ kv ∈ ms.list, optFind s kv.1 ≠ some o) (l : Loc)
    (hl : Owns o.k (b + o.off) l) : Same r (process c s b (some (.obj ms)) r).1 l := by
  simp only [process]
  refine finish_same c s b _ l r hs (procLoop_same c s b ms r l hs hu ?_) (Or.inl hu)
  intro h
  obtain ⟨kv, hm, o', h1, -, -, h2⟩ := h.named
  rcases ha o ho o' (optFind_mem h1) with h3 | h3
  · exact hn kv hm (by rw [h1, h3])
  · exact h3 l ⟨hl, h2.owns⟩

/-- Is the option closed to the script: read-only, or set only when the object is made, or locked in a safe
interpreter. -/
def Locked (c : Call) (f : SFlags) : Prop :=
  f.readOnly = true ∨ f.initOnly = true ∨ (c.isSafe = true ∧ f.lockSafe = true)

theorem Locked.barred {c : Call} {f : SFlags} (h : Locked c f) (hu : c.update = true) : barred c f = true := by
  unfold Opt.barred
  rw [hu]
  rcases h with h | h | ⟨h, h2⟩
  · simp [h]
  · simp [h]
  · simp [h, h2]

/-- C125: `conf` does not change a locked option of the table, whatever it is passed. -/
theorem C125_locked (c : Call) (s : Specs) (b : Nat) (ms : Mems) (r : Rec) (o : Opt) (hs : s.Ok) (ha : Apart s b)
    (hu : c.update = true) (ho : o ∈ s.list) (hk : Locked c o.fl) (l : Loc) (hl : Owns o.k (b + o.off) l) :
    Same r (process c s b (some (.obj ms)) r).1 l := by
  simp only [process]
  refine finish_same c s b _ l r hs (procLoop_same c s b ms r l hs hu ?_) (Or.inl hu)
  intro h
  obtain ⟨kv, hm, o', h1, -, h4, h2⟩ := h.named
  rcases ha o ho o' (optFind_mem h1) with h3 | h3
  · rw [h3, hk.barred hu] at h4; cases h4
  · exact h3 l ⟨hl, h2.owns⟩

/-- C125: and a call that names a locked option (of the pass) fails. -/
theorem C125_refused (c : Call) (s : Specs) (b : Nat) (ms : Mems) (r : Rec) (o : Opt) (kv : Str × V)
    (hu : c.update = true) (hm : kv ∈ ms.list) (ho : optFind s kv.1 = some o) (hp : o.fl.pass2 = c.pass2)
    (hk : Locked c o.fl) : (process c s b (some (.obj ms)) r).2 ≠ .ok := by
  have hb := hk.barred hu
  have hop : otherPass c o.fl = false := by unfold otherPass; rw [hp]; cases c.pass2 <;> rfl
  have key : ∀ (ms : Mems) (r : Rec), kv ∈ ms.list → (procLoop c s b ms r).2.1 ≠ .ok := by
    intro ms
    induction ms using Mems.rec (motive_1 := fun _ => True) with
    | nil => intro r h; simp [Mems.list] at h
    | cons k v m _ ih =>
      intro r h
      simp only [Mems.list, List.mem_cons] at h
      simp only [procLoop]
      rcases h with rfl | h
      · simp only [ho]
        unfold step
        rw [if_neg (by rw [hop]; simp), if_pos hb]
        simp [andThen]
      · split
        · split
          · exact ih r h
          · simp
        · rename_i o' _
          generalize step c o' _ r = p
          obtain ⟨r1, e, d⟩ := p
          cases e with
          | ok => simp only [andThen]; exact ih r1 h
          | err => simp [andThen]
          | crash => simp [andThen]
    | _ => trivial
  have := key ms r hm
  simp only [process]
  generalize procLoop c s b ms r = p at this ⊢
  obtain ⟨r1, e, d⟩ := p
  cases e
  · simp at this
  · simp [finish]
  · simp [finish]

end Verif.Opt
