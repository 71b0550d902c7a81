import Verif.Opt.Find

/-!
C176-C178: options named by a path, `conf("logOpts.file")` and the command line's `-I logOpts.file:true`.

Not modelled: C arrays of options (`a[3]`); no table of the program itself has one, so that a path with a `[` behind its
first character is always refused.
-/

namespace Verif.Opt

/-! ### The code -/

/-- `Jsi_Strchr(option, '.')`: what is before and after the first dot. -/
def dot : Str → Option (Str × Str)
  | [] => none
  | c :: s => if c = 46 then some ([], s) else (dot s).map fun q => (c :: q.1, q.2)

theorem dot_len : ∀ {s : Str} {q : Str × Str}, dot s = some q → q.2.length < s.length
  | [], q, h => by simp [dot] at h
  | c :: s, q, h => by
    rw [dot] at h
    split at h
    · injection h with h; subst h; simp
    · cases hd : dot s with
      | none => rw [hd] at h; simp at h
      | some q' =>
        rw [hd] at h
        simp only [Option.map_some, Option.some.injEq] at h
        subst h
        have := dot_len hd
        simp only [List.length_cons]; omega

/-- The sub-table of an option (src/jsiOptions.c:600, 830), and its offset. -/
def subOf : Option Opt → Option (Specs × Nat)
  | some ⟨_, o, _, .sub s⟩ => some (s, o)
  | _ => none

/-- src/jsiOptions.c:606-607, 836-837: `cb && cb != option`. -/
def bracket (p : Str) : Bool := p.contains 91 && p.headD 0 != 91

/-- The walk that src/jsiOptions.c:592-604 and 822-834 (`Jsi_OptionsSet`, `Jsi_OptionsGet`) have in common: the option
meant by a path and its address. -/
def locate (s : Specs) (b : Nat) (p : Str) : Option (Opt × Nat) :=
  match _h : dot p with
  | some q =>
    if q.1.contains 91 then (if bracket p then none else (optFind s p).map fun o => (o, b + o.off))
    else match subOf (optFind s q.1) with
      | some t => locate t.1 (b + t.2) q.2
      | none => none
  | none => if bracket p then none else (optFind s p).map fun o => (o, b + o.off)
termination_by p.length
decreasing_by exact dot_len _h

/-- src/jsiOptions.c:813-879  `Jsi_OptionsGet`. -/
def getPath (s : Specs) (b : Nat) (p : Str) (r : Rec) : Option V :=
  match locate s b p with
  | some q => getOpt q.1.k q.2 r
  | none => none

/-- src/jsiOptions.c:581-645  `Jsi_OptionsSet`. -/
def setPath (c : Call) (s : Specs) (b : Nat) (p : Str) (v : V) (r : Rec) : Rec × Rc :=
  match locate s b p with
  | some q => setOpt c q.1.k q.2 v r
  | none => (r, .err)

/-! ### The specification -/

/-- The member of an object with a name. -/
def Mems.get : Mems → Str → Option V
  | .nil, _ => none
  | .cons k v m, n => if k = n then some v else m.get n

/-- `m.a.b.c`. -/
def Mems.path : Mems → List Str → Option V
  | _, [] => none
  | m, [n] => m.get n
  | m, n :: l => match m.get n with
    | some (.obj m') => m'.path l
    | _ => none

/-- The words with dots between them. -/
def dotted : List Str → Str
  | [] => []
  | [w] => w
  | w :: l => w ++ 46 :: dotted l

/-- Every option of the table is found by its own name (see C132). -/
def Finds (s : Specs) : Prop := ∀ o ∈ s.list, optFind s o.name = some o

/-- `l` are the names, from the outermost, of an option in a table or in its sub-tables; `a` is where it is.  The names
have no dot or bracket. -/
inductive At : Specs → Nat → List Str → Opt → Nat → Prop where
  | here {s : Specs} {b : Nat} {o : Opt} : Finds s → o ∈ s.list → (46 : UInt8) ∉ o.name → (91 : UInt8) ∉ o.name →
      At s b [o.name] o (b + o.off)
  | sub {s s' : Specs} {b a : Nat} {o p : Opt} {l : List Str} : Finds s → o ∈ s.list → (46 : UInt8) ∉ o.name →
      (91 : UInt8) ∉ o.name → o.k = .sub s' → At s' (b + o.off) l p a → At s b (o.name :: l) p a

/-! ### The walk -/

theorem dot_none : ∀ {s : Str}, (46 : UInt8) ∉ s → dot s = none
  | [], _ => rfl
  | c :: s, h => by
    simp only [List.mem_cons, not_or] at h
    rw [dot, if_neg (fun e => h.1 e.symm), dot_none h.2]; rfl

theorem dot_append : ∀ {w : Str} (t : Str), (46 : UInt8) ∉ w → dot (w ++ 46 :: t) = some (w, t)
  | [], t, _ => by simp [dot]
  | c :: s, t, h => by
    simp only [List.mem_cons, not_or] at h
    rw [List.cons_append, dot, if_neg (fun e => h.1 e.symm), dot_append t h.2]; rfl

theorem dot_sound : ∀ {s : Str} {q : Str × Str}, dot s = some q → s = q.1 ++ 46 :: q.2
  | [], q, h => by simp [dot] at h
  | c :: s, q, h => by
    rw [dot] at h
    split at h
    · rename_i hc; injection h with h; subst h; simp [hc]
    · cases hd : dot s with
      | none => rw [hd] at h; simp at h
      | some q' =>
        rw [hd] at h
        simp only [Option.map_some, Option.some.injEq] at h
        subst h
        rw [dot_sound hd]; rfl

theorem contains_no {w : Str} {c : UInt8} (h : c ∉ w) : w.contains c = false := by
  simpa using h

theorem locate_one (s : Specs) (b : Nat) (w : Str) (h1 : (46 : UInt8) ∉ w) (h2 : (91 : UInt8) ∉ w) :
    locate s b w = (optFind s w).map fun o => (o, b + o.off) := by
  rw [locate]
  split
  · rename_i q hq; rw [dot_none h1] at hq; cases hq
  · rw [if_neg]
    simp only [bracket, contains_no h2, Bool.false_and]; decide

theorem locate_cons (s : Specs) (b : Nat) (w t : Str) (h1 : (46 : UInt8) ∉ w) (h2 : (91 : UInt8) ∉ w) :
    locate s b (w ++ 46 :: t) = match subOf (optFind s w) with
      | some q => locate q.1 (b + q.2) t
      | none => none := by
  rw [locate]
  split
  · rename_i q hq
    rw [dot_append t h1] at hq
    injection hq with hq
    subst hq
    rw [if_neg (by rw [contains_no h2]; decide)]
  · rename_i hq; rw [dot_append t h1] at hq; cases hq

theorem At.ne {s : Specs} {b a : Nat} {l : List Str} {o : Opt} (h : At s b l o a) : l ≠ [] := by
  cases h <;> simp

/-- The dotted names lead to the option. -/
theorem locate_at {s : Specs} {b a : Nat} {l : List Str} {o : Opt} (h : At s b l o a) :
    locate s b (dotted l) = some (o, a) := by
  induction h with
  | here hf hm h1 h2 => rw [dotted, locate_one _ _ _ h1 h2, hf _ hm]; rfl
  | @sub s s' b a o p l hf hm h1 h2 hk ht ih =>
    rw [dotted, locate_cons _ _ _ _ h1 h2, hf _ hm]
    · obtain ⟨n, f, x, k⟩ := o
      simp only [] at hk
      subst hk
      exact ih
    · exact ht.ne

/-! ### C176 -/

theorem dump_get {b : Nat} {r : Rec} (n : Str) : ∀ {s : Specs} {m : Mems}, dump s b r = some m →
    ∀ o, s.list.find? (fun o => decide (o.name = n)) = some o →
      ∃ v, m.get n = some v ∧ getOpt o.k (b + o.off) r = some v
  | .nil, m, _, o, ho => by simp [Specs.list] at ho
  | .cons k off f kd s, m, h, o, ho => by
    rw [dump] at h
    cases hv : getOpt kd (b + off) r with
    | none => rw [hv] at h; cases h
    | some v =>
      rw [hv] at h
      simp only [] at h
      cases hm : dump s b r with
      | none => rw [hm] at h; cases h
      | some m' =>
        rw [hm] at h
        simp only [Option.some.injEq] at h
        subst h
        rw [Specs.list, List.find?_cons] at ho
        by_cases hk : k = n
        · simp only [hk, decide_true, Option.some.injEq] at ho
          subst ho
          exact ⟨v, by rw [Mems.get, if_pos hk], hv⟩
        · simp only [hk, decide_false] at ho
          obtain ⟨v', h1, h2⟩ := dump_get n hm o ho
          exact ⟨v', by rw [Mems.get, if_neg hk]; exact h1, h2⟩

theorem find_of_finds {s : Specs} {o : Opt} (hf : Finds s) (hm : o ∈ s.list) :
    s.list.find? (fun p => decide (p.name = o.name)) = some o := by
  cases h : s.list.find? (fun p => decide (p.name = o.name)) with
  | none =>
    have := List.find?_eq_none.1 h o hm
    simp at this
  | some p =>
    have h1 := List.mem_of_find?_eq_some h
    have h2 := List.find?_some h
    simp only [decide_eq_true_eq] at h2
    have h3 := hf _ h1
    rw [h2, hf _ hm] at h3
    exact h3.symm

theorem path_cons {m m' : Mems} {n : Str} {l : List Str} (hl : l ≠ []) (h : m.get n = some (.obj m')) :
    m.path (n :: l) = m'.path l := by
  cases l with
  | nil => exact absurd rfl hl
  | cons x l => rw [Mems.path]; rw [h]; intro e; cases e

/-- C176: for every option of the table and its sub-tables, `conf("a.b.c")` is what `conf().a.b.c` is. -/
theorem C176_full {s : Specs} {b a : Nat} {l : List Str} {o : Opt} (h : At s b l o a) (r : Rec) (m : Mems)
    (hm : dump s b r = some m) : ∃ v, m.path l = some v ∧ getPath s b (dotted l) r = some v := by
  have hg : getPath s b (dotted l) r = getOpt o.k a r := by rw [getPath, locate_at h]
  rw [hg]
  clear hg
  induction h generalizing m with
  | here hf ho _ _ => exact dump_get _ hm _ (find_of_finds hf ho)
  | @sub s s' b a o p l hf ho _ _ hk ht ih =>
    obtain ⟨v, h1, h2⟩ := dump_get _ hm _ (find_of_finds hf ho)
    rw [hk, getOpt] at h2
    cases hd : dump s' (b + o.off) r with
    | none => rw [hd] at h2; cases h2
    | some m' =>
      rw [hd] at h2
      simp only [Option.map_some, Option.some.injEq] at h2
      subst h2
      obtain ⟨v, h3, h4⟩ := ih m' hd
      exact ⟨v, by rw [path_cons ht.ne h1]; exact h3, h4⟩

mutual
/-- No two options of a table have the same name, nor in the sub-tables. -/
def Kind.Uniq : Kind → Prop
  | .sub s => s.Uniq
  | _ => True
/-- The same for a table. -/
def Specs.Uniq : Specs → Prop
  | .nil => True
  | .cons n _ _ k s => (∀ o ∈ s.list, o.name ≠ n) ∧ k.Uniq ∧ s.Uniq
end

theorem Specs.Uniq.mem : ∀ {s : Specs} {o : Opt}, s.Uniq → o ∈ s.list →
    s.list.find? (fun p => decide (p.name = o.name)) = some o ∧ o.k.Uniq
  | .nil, o, _, h => by simp [Specs.list] at h
  | .cons n off f k s, o, hu, h => by
    rw [Specs.Uniq] at hu
    rw [Specs.list, List.mem_cons] at h
    rw [Specs.list, List.find?_cons]
    rcases h with rfl | h
    · simp [hu.2.1]
    · have := hu.1 o h
      simp only [Ne.symm this, decide_false]
      exact Specs.Uniq.mem hu.2.2 h

/-- C176: what a path shows is a member of what `conf()` shows, and the words of the path are the names of the members
that lead there, or beginnings of them. -/
theorem C176_sound (s : Specs) (b : Nat) (p : Str) (r : Rec) (v : V) (m : Mems) (hu : s.Uniq)
    (hm : dump s b r = some m) (h : getPath s b p r = some v) :
    ∃ ws l, p = dotted ws ∧ List.Forall₂ (fun w n => w <+: n) ws l ∧ m.path l = some v := by
  have fin : ∀ (s : Specs) (b : Nat) (p : Str) (m : Mems), s.Uniq → dump s b r = some m → ∀ x : Opt × Nat,
      (optFind s p).map (fun o => (o, b + o.off)) = some x → getOpt x.1.k x.2 r = some v →
      ∃ ws l, p = dotted ws ∧ List.Forall₂ (fun w n => w <+: n) ws l ∧ m.path l = some v := by
    intro s b p m hu hm x hx hv
    cases ho : optFind s p with
    | none => rw [ho] at hx; cases hx
    | some o =>
      rw [ho] at hx
      simp only [Option.map_some, Option.some.injEq] at hx
      subst hx
      have hmem := optFind_mem ho
      obtain ⟨v', h1, h2⟩ := dump_get _ hm o (Specs.Uniq.mem hu hmem).1
      simp only [] at hv
      rw [h2] at hv
      injection hv with hv
      subst hv
      refine ⟨[p], [o.name], rfl, .cons ?_ .nil, h1⟩
      by_cases hp : p = []
      · rw [hp]; exact List.nil_prefix
      · exact (C132_sound s p hp o ho).2.2
  obtain ⟨n, hn⟩ : ∃ n, p.length ≤ n := ⟨_, Nat.le_refl _⟩
  induction n generalizing s b p m with
  | zero =>
    have hp : p = [] := List.length_eq_zero_iff.1 (by omega)
    subst hp
    rw [getPath] at h
    cases hl : locate s b [] with
    | none => rw [hl] at h; cases h
    | some x =>
      rw [hl] at h
      rw [locate_one s b [] (by simp) (by simp)] at hl
      exact fin s b [] m hu hm x hl h
  | succ n ih =>
    rw [getPath] at h
    cases hl : locate s b p with
    | none => rw [hl] at h; cases h
    | some x =>
      rw [hl] at h
      simp only [] at h
      rw [locate] at hl
      split at hl
      · rename_i q hq
        split at hl
        · split at hl
          · cases hl
          · exact fin s b p m hu hm x hl h
        · cases ho : optFind s q.1 with
          | none => rw [ho] at hl; simp [subOf] at hl
          | some o =>
            rw [ho] at hl
            have hmem := optFind_mem ho
            obtain ⟨v', h1, h2⟩ := dump_get _ hm o (Specs.Uniq.mem hu hmem).1
            have huk := (Specs.Uniq.mem hu hmem).2
            obtain ⟨nm, off, fl, k⟩ := o
            cases k with
            | sub s' =>
              simp only [subOf] at hl
              simp only [getOpt] at h2
              simp only [Kind.Uniq] at huk
              cases hd : dump s' (b + off) r with
              | none => rw [hd] at h2; cases h2
              | some m' =>
                rw [hd] at h2
                simp only [Option.map_some, Option.some.injEq] at h2
                subst h2
                have hlen := dot_len hq
                obtain ⟨ws, l, h3, h4, h5⟩ := ih s' (b + off) q.2 m' huk hd (by rw [getPath, hl]; exact h) (by omega)
                have hl0 : l ≠ [] := by
                  intro e; subst e; rw [Mems.path] at h5; cases h5
                have hw0 : ws ≠ [] := by
                  intro e; subst e; cases h4; exact hl0 rfl
                refine ⟨q.1 :: ws, nm :: l, ?_, .cons ?_ h4, ?_⟩
                · rw [dotted, ← h3, ← dot_sound hq]
                  exact hw0
                · by_cases hp : q.1 = []
                  · rw [hp]; exact List.nil_prefix
                  · exact (C132_sound s q.1 hp _ ho).2.2
                · rw [path_cons hl0 h1]; exact h5
            | bool => simp [subOf] at hl
            | int _ _ => simp [subOf] at hl
            | number => simp [subOf] at hl
            | ref _ => simp [subOf] at hl
            | strbuf _ => simp [subOf] at hl
            | enum _ _ _ _ _ _ => simp [subOf] at hl
            | bitset _ _ _ => simp [subOf] at hl
      · split at hl
        · cases hl
        · exact fin s b p m hu hm x hl h

end Verif.Opt
