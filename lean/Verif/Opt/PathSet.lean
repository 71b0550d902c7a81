import Verif.Opt.PathName
import Verif.Opt.Lock

/-!
C176-C178, continued: values inside objects, setting by path, and the argument of `-I`.
-/

namespace Verif.Opt

open Verif.Value (Num)

/-- A record whose option at 0 holds the object `{x:1}`. -/
def holds : Rec := ⟨fun _ => 0, fun _ => .fin 0, fun i => if i = 0 then some (.obj (.cons (asc "x") (.bool true) .nil)) else none⟩

/-- A table with one option for an object. -/
def objTab : Specs := .cons (asc "udata") 0 {} (.ref .obj) .nil

/-- C176: a path ends at the options: `conf("udata.x")` fails although `conf().udata.x` is there. -/
theorem C176_value_refuted : ∃ m, dump objTab 0 holds = some m ∧ m.path [asc "udata", asc "x"] = some (.bool true) ∧
    getPath objTab 0 (dotted [asc "udata", asc "x"]) holds = none := by
  refine ⟨.cons (asc "udata") (.obj (.cons (asc "x") (.bool true) .nil)) .nil, rfl, rfl, ?_⟩
  have e : dotted [asc "udata", asc "x"] = asc "udata" ++ 46 :: asc "x" := rfl
  rw [getPath, e, locate_cons _ _ _ _ (by decide +kernel) (by decide +kernel)]
  rfl

/-! ### C177: setting by path -/

/-- C177: setting an option by its path writes only that option, whether it succeeds or not. -/
theorem C177_frame (c : Call) {s : Specs} {b a : Nat} {names : List Str} {o : Opt} (h : At s b names o a) (v : V)
    (r : Rec) (l : Loc) (hk : o.k.Ok) (hl : ¬ Owns o.k a l) : Same r (setPath c s b (dotted names) v r).1 l := by
  rw [setPath, locate_at h]
  exact setOpt_own c o.k a v r l hk hl

/-- `l` are the names, from the outermost, of an option in a table or in its sub-tables; `a` is where it is. -/
inductive Reach : Specs → Nat → List Str → Opt → Nat → Prop where
  | here {s : Specs} {b : Nat} {o : Opt} : o ∈ s.list → Reach s b [o.name] o (b + o.off)
  | sub {s s' : Specs} {b a : Nat} {o p : Opt} {l : List Str} : o ∈ s.list → o.k = .sub s' →
      Reach s' (b + o.off) l p a → Reach s b (o.name :: l) p a

theorem Reach.ne {s : Specs} {b a : Nat} {l : List Str} {o : Opt} (h : Reach s b l o a) : l ≠ [] := by
  cases h <;> simp

theorem begins_of_find {s : Specs} {w : Str} {o : Opt} (h : optFind s w = some o) : w <+: o.name := by
  by_cases hp : w = []
  · rw [hp]; exact List.nil_prefix
  · exact (C132_sound s w hp o h).2.2

theorem locate_reach (n : Nat) : ∀ (s : Specs) (b : Nat) (p : Str) (x : Opt × Nat), p.length ≤ n →
    locate s b p = some x → ∃ ws l, p = dotted ws ∧ List.Forall₂ (fun w n => w <+: n) ws l ∧ Reach s b l x.1 x.2 := by
  have leaf : ∀ (s : Specs) (b : Nat) (p : Str) (x : Opt × Nat),
      (optFind s p).map (fun o => (o, b + o.off)) = some x →
      ∃ ws l, p = dotted ws ∧ List.Forall₂ (fun w n => w <+: n) ws l ∧ Reach s b l x.1 x.2 := by
    intro s b p x hx
    cases ho : optFind s p with
    | none => rw [ho] at hx; cases hx
    | some o =>
      rw [ho] at hx
      simp only [Option.map_some, Option.some.injEq] at hx
      subst hx
      exact ⟨[p], [o.name], rfl, .cons (begins_of_find ho) .nil, .here (optFind_mem ho)⟩
  induction n with
  | zero =>
    intro s b p x hn hl
    have hp : p = [] := List.length_eq_zero_iff.1 (by omega)
    subst hp
    rw [locate_one s b [] (by simp) (by simp)] at hl
    exact leaf s b [] x hl
  | succ n ih =>
    intro s b p x hn hl
    rw [locate] at hl
    split at hl
    · rename_i q hq
      split at hl
      · split at hl
        · cases hl
        · exact leaf s b p x hl
      · cases ho : optFind s q.1 with
        | none => rw [ho] at hl; simp [subOf] at hl
        | some o =>
          rw [ho] at hl
          have hmem := optFind_mem ho
          have hpre := begins_of_find ho
          obtain ⟨nm, off, fl, k⟩ := o
          cases k with
          | sub s' =>
            simp only [subOf] at hl
            have hlen := dot_len hq
            obtain ⟨ws, l, h3, h4, h5⟩ := ih s' (b + off) q.2 x (by omega) hl
            have hw0 : ws ≠ [] := by
              intro e; subst e; cases h4; exact h5.ne rfl
            refine ⟨q.1 :: ws, nm :: l, ?_, .cons hpre h4, .sub hmem rfl h5⟩
            rw [dotted, ← h3, ← dot_sound hq]
            exact hw0
          | bool => simp [subOf] at hl
          | int _ _ => simp [subOf] at hl
          | number => simp [subOf] at hl
          | ref _ => simp [subOf] at hl
          | strbuf _ => simp [subOf] at hl
          | enum _ _ _ _ _ _ => simp [subOf] at hl
          | bitset _ _ _ => simp [subOf] at hl
    · split at hl
      · cases hl
      · exact leaf s b p x hl

/-- C177: a path either is refused and changes nothing, or its words are the names (or beginnings of the names) that lead
to an option, and this option is set. -/
theorem C177_names (c : Call) (s : Specs) (b : Nat) (p : Str) (v : V) (r : Rec) :
    setPath c s b p v r = (r, .err) ∨ ∃ ws l o a, p = dotted ws ∧ List.Forall₂ (fun w n => w <+: n) ws l ∧
      Reach s b l o a ∧ setPath c s b p v r = setOpt c o.k a v r := by
  cases h : locate s b p with
  | none => left; rw [setPath, h]
  | some x =>
    right
    obtain ⟨ws, l, h1, h2, h3⟩ := locate_reach _ s b p x (Nat.le_refl _) h
    exact ⟨ws, l, x.1, x.2, h1, h2, h3, by rw [setPath, h]⟩

/-- `{a: {b: {c: v}}}` for the names `a`, `b`, `c`. -/
def nest : List Str → V → V
  | [], v => v
  | n :: l, v => .obj (.cons n (nest l v) .nil)

/-- The call may set this option. -/
def Free (c : Call) (f : SFlags) : Prop :=
  f.readOnly = false ∧ f.pass2 = c.pass2 ∧ (c.update = true → f.initOnly = false) ∧
    (c.update = true → c.isSafe = true → f.lockSafe = false)

/-- The options on the way are all open to the call, and no option beside them is required. -/
inductive Opened (c : Call) : Specs → List Str → Prop where
  | here {s : Specs} {o : Opt} : o ∈ s.list → Free c o.fl → (c.update = true ∨ ∀ p ∈ s.list, p.fl.required = false) →
      Opened c s [o.name]
  | sub {s s' : Specs} {o : Opt} {l : List Str} : o ∈ s.list → Free c o.fl →
      (c.update = true ∨ ∀ p ∈ s.list, p.fl.required = false) → o.k = .sub s' → Opened c s' l → Opened c s (o.name :: l)

theorem Free.pass {c : Call} {f : SFlags} (h : Free c f) : otherPass c f = false := by
  simp [otherPass, h.2.1]

theorem Free.bar {c : Call} {f : SFlags} (h : Free c f) : barred c f = false := by
  obtain ⟨h1, -, h2, h3⟩ := h
  simp only [barred, h1, Bool.false_or, Bool.or_eq_false_iff, Bool.and_eq_false_iff]
  constructor
  · cases hc : c.update
    · exact Or.inl rfl
    · exact Or.inr (h2 hc)
  · cases hc : c.update
    · exact Or.inl (Or.inr rfl)
    · cases hs : c.isSafe
      · exact Or.inl (Or.inl rfl)
      · exact Or.inr (h3 hc hs)

/-- An object with one member for an open option does what setting the option does. -/
theorem process_one (c : Call) (s : Specs) (b : Nat) (o : Opt) (v : V) (r : Rec) (hf : optFind s o.name = some o)
    (ho : Free c o.fl) (hr : c.update = true ∨ ∀ p ∈ s.list, p.fl.required = false) :
    (finish c s b (procLoop c s b (.cons o.name v .nil) r)).2 = (setOpt c o.k (b + o.off) v r).2 ∧
    (c.update = true ∨ (setOpt c o.k (b + o.off) v r).2 = .ok →
      (finish c s b (procLoop c s b (.cons o.name v .nil) r)).1 = (setOpt c o.k (b + o.off) v r).1) := by
  have hmiss : ∀ d, missing c s d = false := by
    intro d
    rcases hr with hr | hr
    · simp [missing, hr]
    · simp only [missing, Bool.and_eq_false_iff, List.any_eq_false]
      right
      intro x hx
      simp [hr x hx]
  rw [procLoop, hf]
  simp only [step, ho.pass, ho.bar, Bool.false_eq_true, if_false]
  generalize setOpt c o.k (b + o.off) v r = q
  obtain ⟨r', e⟩ := q
  cases e with
  | ok => simp [andThen, procLoop, finish, hmiss]
  | err =>
    simp only [andThen, finish, true_and]
    intro h
    rcases h with h | h
    · simp [h]
    · cases h
  | crash => simp [andThen, finish]

theorem nest_obj {l : List Str} (h : l ≠ []) (v : V) : ∃ ms, nest l v = .obj ms := by
  cases l with
  | nil => exact absurd rfl h
  | cons n l => exact ⟨_, rfl⟩

/-- C177: setting an option by its path does what an object with that option does (at creation: `-I a.b:v` and
`{a:{b:v}}`), if the options on the way are open. -/
theorem C177_object (c : Call) {s : Specs} {b a : Nat} {names : List Str} {o : Opt} (h : At s b names o a)
    (hopen : Opened c s names) (hc : c.incr = false) (v : V) (r : Rec) :
    (process c s b (some (nest names v)) r).2 = (setPath c s b (dotted names) v r).2 ∧
    (c.update = true ∨ (setPath c s b (dotted names) v r).2 = .ok →
      (process c s b (some (nest names v)) r).1 = (setPath c s b (dotted names) v r).1) := by
  have hset : setPath c s b (dotted names) v r = setOpt c o.k a v r := by rw [setPath, locate_at h]
  rw [hset]
  clear hset
  have hfin : ∀ p : Rec × Rc, fin c p = p := by
    rintro ⟨r, e⟩
    cases e <;> simp [fin, hc]
  induction h with
  | @here s b o hf hm _ _ =>
    generalize hn : [o.name] = l at hopen
    cases hopen with
    | @here _ o' ho' hfree hreq =>
      simp only [List.cons.injEq, and_true] at hn
      have e := hf _ ho'
      rw [← hn, hf _ hm] at e
      injection e with e
      subst e
      exact process_one c s b o v r (hf _ hm) hfree hreq
    | sub ho' hfree hreq hk hrest =>
      simp only [List.cons.injEq] at hn
      rw [← hn.2] at hrest
      cases hrest
  | @sub s s' b a o p l hf hm _ _ hk ht ih =>
    generalize hn : o.name :: l = l0 at hopen
    cases hopen with
    | @here _ o' ho' hfree hreq =>
      simp only [List.cons.injEq] at hn
      exact absurd hn.2 ht.ne
    | @sub _ s2 o' l' ho' hfree hreq hk' hrest =>
      simp only [List.cons.injEq] at hn
      have e := hf _ ho'
      rw [← hn.1, hf _ hm] at e
      injection e with e
      subst e
      rw [hk] at hk'
      injection hk' with hk'
      subst hk'
      rw [← hn.2] at hrest
      obtain ⟨ms, hms⟩ := nest_obj ht.ne v
      obtain ⟨i1, i2⟩ := ih hrest
      rw [hms] at i1 i2
      simp only [process] at i1 i2
      obtain ⟨p1, p2⟩ := process_one c s b o (.obj ms) r (hf _ hm) hfree hreq
      have e1 : setOpt c o.k (b + o.off) (.obj ms) r = finish c s' (b + o.off) (procLoop c s' (b + o.off) ms r) := by
        rw [hk, setOpt, hfin]
      rw [e1] at p1 p2
      rw [← hn.2, nest, hms]
      simp only [process]
      rw [p1, i1]
      refine ⟨rfl, fun h => ?_⟩
      rw [p2 (by rw [i1]; exact h), i2 h]

/-- A table with a sub-table. -/
def logTab : Specs := .cons (asc "logOpts") 8 {} (.sub (.cons (asc "time") 0 {} .bool (.cons (asc "file") 1 {} .bool .nil)))
  (.cons (asc "opCnt") 0 { readOnly := true } (.int true 4) .nil)

theorem logTab_finds : Finds logTab := by
  intro o ho
  simp only [logTab, Specs.list, List.mem_cons, List.not_mem_nil, or_false] at ho
  rcases ho with rfl | rfl <;> rfl

theorem logTab_sub_finds : Finds (.cons (asc "time") 0 {} .bool (.cons (asc "file") 1 {} .bool .nil)) := by
  intro o ho
  simp only [Specs.list, List.mem_cons, List.not_mem_nil, or_false] at ho
  rcases ho with rfl | rfl <;> rfl

/-- The hypotheses of C176 and C177 can be met. -/
theorem logTab_at : At logTab 0 [asc "logOpts", asc "file"] ⟨asc "file", 1, {}, .bool⟩ 9 :=
  .sub (o := ⟨asc "logOpts", 8, {}, .sub (.cons (asc "time") 0 {} .bool (.cons (asc "file") 1 {} .bool .nil))⟩)
    logTab_finds (by simp [logTab, Specs.list]) (by decide +kernel) (by decide +kernel) rfl
    (.here (o := ⟨asc "file", 1, {}, .bool⟩) logTab_sub_finds (by simp [Specs.list]) (by decide +kernel) (by decide +kernel))

example : Opened {} logTab [asc "logOpts", asc "file"] :=
  .sub (o := ⟨asc "logOpts", 8, {}, .sub (.cons (asc "time") 0 {} .bool (.cons (asc "file") 1 {} .bool .nil))⟩)
    (by simp [logTab, Specs.list]) (by simp [Free]) (by simp [logTab, Specs.list]) rfl
    (.here (o := ⟨asc "file", 1, {}, .bool⟩) (by simp [Specs.list]) (by simp [Free]) (by simp [Specs.list]))

/-- C177: a read-only option is set by its path: `-I opCnt:…` is accepted, the object `{opCnt:…}` refused. -/
theorem C177_readonly_refuted (r : Rec) (x : Num) (hx : toWide x = 7) :
    (setPath {} logTab 0 (asc "opCnt") (.num x) r).2 = .ok ∧
    loadI true 4 (setPath {} logTab 0 (asc "opCnt") (.num x) r).1 0 = 7 ∧
    (process {} logTab 0 (some (nest [asc "opCnt"] (.num x))) r).2 = .err := by
  have hl : locate logTab 0 (asc "opCnt") = some (⟨asc "opCnt", 0, { readOnly := true }, .int true 4⟩, 0) := by
    rw [locate_one _ _ _ (by decide +kernel) (by decide +kernel)]; rfl
  have hf : optFind logTab (asc "opCnt") = some ⟨asc "opCnt", 0, { readOnly := true }, .int true 4⟩ := rfl
  have e : setPath {} logTab 0 (asc "opCnt") (.num x) r = (storeI 4 r 0 7, .ok) := by
    rw [setPath, hl]
    simp only [setOpt, setLeaf, setInt, hx, Bool.false_eq_true, if_false]
    rw [if_pos (by decide +kernel)]
  rw [e]
  refine ⟨rfl, ?_, ?_⟩
  · rw [load_store]; decide +kernel
  · simp only [nest, process, procLoop, hf, step, andThen]
    rfl

/-! ### C178: the argument of `-I` -/

/-- What is before and after the first `d`. -/
def cutAt (d : UInt8) : Str → Option (Str × Str)
  | [] => none
  | c :: s => if c = d then some ([], s) else (cutAt d s).map fun q => (c :: q.1, q.2)

/-- src/jsiInterp.c:1282-1285: at the first `:`, else at the first `=`. -/
def cutArg (a : Str) : Option (Str × Str) :=
  match cutAt 58 a with
  | some q => some q
  | none => cutAt 61 a

/-- src/jsiUtils.c:2490-2502  `Jsi_GetBool`: a beginning of `true` or `false`, in any case. -/
def getBool (t : Str) : Option Bool :=
  if t ≠ [] ∧ (t.map tolower).isPrefixOf (asc "true") then some true
  else if t ≠ [] ∧ (t.map tolower).isPrefixOf (asc "false") then some false
  else none

/-- src/jsiInterp.c:1299-1307: the value; `dbl` is `Jsi_GetDouble`. -/
def argV (dbl : Str → Option Num) (t : Str) : V :=
  match getBool t with
  | some x => .bool x
  | none => if t = asc "null" then .null else match dbl t with
    | some x => .num x
    | none => .str t

/-- src/jsiInterp.c:1280-1312: `-I`, other than `-I traceCall`.  The name is copied to a buffer of 50 bytes. -/
def dashI (dbl : Str → Option Num) (s : Specs) (b : Nat) (a : Str) (r : Rec) : Rec × Rc :=
  match cutArg a with
  | some q => setPath {} s b (q.1.take 49) (argV dbl q.2) r
  | none => setPath {} s b a (.bool true) r

theorem cutAt_append (d : UInt8) : ∀ {w : Str} (t : Str), d ∉ w → cutAt d (w ++ d :: t) = some (w, t)
  | [], t, _ => by simp [cutAt]
  | c :: s, t, h => by
    simp only [List.mem_cons, not_or] at h
    rw [List.cons_append, cutAt, if_neg (fun e => h.1 e.symm), cutAt_append d t h.2]; rfl

theorem cutAt_none (d : UInt8) : ∀ {w : Str}, d ∉ w → cutAt d w = none
  | [], _ => rfl
  | c :: s, h => by
    simp only [List.mem_cons, not_or] at h
    rw [cutAt, if_neg (fun e => h.1 e.symm), cutAt_none d h.2]; rfl

/-- The value a word stands for: a beginning of `true` or of `false`, `null`, a number, else the word. -/
inductive Word (dbl : Str → Option Num) : Str → V → Prop where
  | yes {t : Str} : t ≠ [] → t.map tolower <+: asc "true" → Word dbl t (.bool true)
  | no {t : Str} : t ≠ [] → t.map tolower <+: asc "false" → Word dbl t (.bool false)
  | null : Word dbl (asc "null") .null
  | num {t : Str} {x : Num} : dbl t = some x → t ≠ asc "null" → (t ≠ [] → ¬ t.map tolower <+: asc "true") →
      (t ≠ [] → ¬ t.map tolower <+: asc "false") → Word dbl t (.num x)
  | word {t : Str} : dbl t = none → t ≠ asc "null" → (t ≠ [] → ¬ t.map tolower <+: asc "true") →
      (t ≠ [] → ¬ t.map tolower <+: asc "false") → Word dbl t (.str t)

theorem tolower_eq (t : Str) (h : t.map tolower <+: asc "true") (h' : t.map tolower <+: asc "false") : t = [] := by
  cases t with
  | nil => rfl
  | cons c l =>
    obtain ⟨x, hx⟩ := h
    obtain ⟨y, hy⟩ := h'
    rw [List.map_cons, List.cons_append] at hx hy
    have h1 := (List.cons.inj (hx.trans (show asc "true" = 116 :: asc "rue" from rfl))).1
    have h2 := (List.cons.inj (hy.trans (show asc "false" = 102 :: asc "alse" from rfl))).1
    rw [h1] at h2
    exact absurd h2 (by decide)

theorem argV_word {dbl : Str → Option Num} {t : Str} {v : V} (h : Word dbl t v) : argV dbl t = v := by
  unfold argV getBool
  cases h with
  | yes h1 h2 => rw [if_pos ⟨h1, by simpa using h2⟩]
  | no h1 h2 =>
    rw [if_neg (fun h => h1 (tolower_eq t (by simpa using h.2) h2)), if_pos ⟨h1, by simpa using h2⟩]
  | null => rfl
  | num h1 h2 h3 h4 =>
    rw [if_neg (fun h => h3 h.1 (by simpa using h.2)), if_neg (fun h => h4 h.1 (by simpa using h.2))]
    simp only [if_neg h2, h1]
  | word h1 h2 h3 h4 =>
    rw [if_neg (fun h => h3 h.1 (by simpa using h.2)), if_neg (fun h => h4 h.1 (by simpa using h.2))]
    simp only [if_neg h2, h1]

/-- C178: `-I path:word` sets the option of that path to the value the word stands for, for names of up to 49 bytes. -/
theorem C178_colon_partial (dbl : Str → Option Num) {s : Specs} {b a : Nat} {names : List Str} {o : Opt}
    (h : At s b names o a) (h1 : (58 : UInt8) ∉ dotted names) (h2 : (dotted names).length ≤ 49) (t : Str) (v : V)
    (hv : Word dbl t v) (r : Rec) : dashI dbl s b (dotted names ++ 58 :: t) r = setOpt {} o.k a v r := by
  simp only [dashI, cutArg, cutAt_append 58 t h1, argV_word hv, List.take_of_length_le h2, setPath, locate_at h]

/-- C178: `-I path=word` does the same if there is no colon. -/
theorem C178_equals_partial (dbl : Str → Option Num) {s : Specs} {b a : Nat} {names : List Str} {o : Opt}
    (h : At s b names o a) (h1 : (58 : UInt8) ∉ dotted names) (h3 : (61 : UInt8) ∉ dotted names)
    (h2 : (dotted names).length ≤ 49) (t : Str) (ht : (58 : UInt8) ∉ t) (v : V) (hv : Word dbl t v) (r : Rec) :
    dashI dbl s b (dotted names ++ 61 :: t) r = setOpt {} o.k a v r := by
  have hn : cutAt 58 (dotted names ++ 61 :: t) = none := cutAt_none 58 (by
    simp only [List.mem_append, List.mem_cons, not_or]; exact ⟨h1, by decide, ht⟩)
  simp only [dashI, cutArg, hn, cutAt_append 61 t h3, argV_word hv, List.take_of_length_le h2, setPath, locate_at h]

/-- C178: `-I path` sets the option to true. -/
theorem C178_alone (dbl : Str → Option Num) {s : Specs} {b a : Nat} {names : List Str} {o : Opt} (h : At s b names o a)
    (h1 : (58 : UInt8) ∉ dotted names) (h3 : (61 : UInt8) ∉ dotted names) (r : Rec) :
    dashI dbl s b (dotted names) r = setOpt {} o.k a (.bool true) r := by
  simp only [dashI, cutArg, cutAt_none 58 h1, cutAt_none 61 h3, setPath, locate_at h]

example : dashI (fun _ => none) logTab 0 (asc "logOpts.file:T") = setOpt {} .bool 9 (.bool true) := by
  funext r
  exact C178_colon_partial (fun _ => none) logTab_at (by decide +kernel) (by decide +kernel) (asc "T") (.bool true)
    (.yes (by decide +kernel) ⟨asc "rue", by decide +kernel⟩) r

/-- A table with one option for a string. -/
def fileTab : Specs := .cons (asc "historyFile") 0 {} (.ref .strkey) .nil

theorem fileTab_at : At fileTab 0 [asc "historyFile"] ⟨asc "historyFile", 0, {}, .ref .strkey⟩ 0 :=
  .here (o := ⟨asc "historyFile", 0, {}, .ref .strkey⟩)
    (by intro o ho; simp only [fileTab, Specs.list, List.mem_cons, List.not_mem_nil, or_false] at ho; subst ho; rfl)
    (by simp [fileTab, Specs.list]) (by decide +kernel) (by decide +kernel)

/-- C178: `-I historyFile=c:f` is refused: the colon is taken for the one after the name. -/
theorem C178_equals_refuted (dbl : Str → Option Num) (r : Rec) :
    dashI dbl fileTab 0 (asc "historyFile=c:f") r = (r, .err) := by
  have hc : cutArg (asc "historyFile=c:f") = some (asc "historyFile=c", asc "f") := by decide +kernel
  have hl : locate fileTab 0 ((asc "historyFile=c").take 49) = none := by
    rw [show (asc "historyFile=c").take 49 = asc "historyFile=c" from by decide +kernel,
      locate_one _ _ _ (by decide +kernel) (by decide +kernel)]
    rfl
  simp only [dashI, hc, setPath, hl]

/-- C178: a file named `f` (or `t`, `fal`, `TRUE`, `null`, `12`) cannot be given with `-I historyFile:f`. -/
theorem C178_word_refuted (dbl : Str → Option Num) (r : Rec) :
    dashI dbl fileTab 0 (asc "historyFile:f") r = (r, .err) := by
  have := C178_colon_partial dbl fileTab_at (by decide +kernel) (by decide +kernel) (asc "f") (.bool false)
    (.no (by decide +kernel) ⟨asc "alse", by decide +kernel⟩) r
  rw [show asc "historyFile:f" = dotted [asc "historyFile"] ++ 58 :: asc "f" from by decide +kernel, this]
  rfl

end Verif.Opt
