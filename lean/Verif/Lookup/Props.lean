import Verif.Lookup.Model
/-! Finding a value by its path: proofs (C200). -/
namespace Verif.Lookup

/-- Nothing, or something that begins with a dot or a bracket. -/
def Sep (r : Bytes) : Prop := r = [] ∨ ∃ c t, r = c :: t ∧ (c = 46 ∨ c = 91)

theorem nextSep_plain (n r : Bytes) (hn : Plain n) (hr : Sep r) : nextSep (n ++ r) = (n, if r = [] then none else some r) := by
  induction n with
  | nil =>
    rcases hr with rfl | ⟨c, t, rfl, h⟩
    · rfl
    · rw [List.nil_append, nextSep, if_pos h, if_neg (by simp)]
  | cons c n ih =>
    obtain ⟨h1, h2⟩ := hn
    have hc : ¬(c = 46 ∨ c = 91) := by
      rintro (rfl | rfl)
      · exact h1 (List.mem_cons_self ..)
      · exact h2 (List.mem_cons_self ..)
    rw [List.cons_append, nextSep, if_neg hc,
      ih ⟨fun h => h1 (List.mem_cons_of_mem _ h), fun h => h2 (List.mem_cons_of_mem _ h)⟩]

theorem quoted_plain (q : UInt8) (hq : q ≠ 92) (s r : Bytes) (h1 : q ∉ s) (h2 : 92 ∉ s) : quoted q (s ++ q :: r) = some (s ++ [q], r) := by
  induction s with
  | nil => rw [List.nil_append, quoted.eq_def]; simp
  | cons c s ih =>
    have hc : c ≠ q := fun e => h1 (e ▸ List.mem_cons_self ..)
    have hb : c ≠ 92 := fun e => h2 (e ▸ List.mem_cons_self ..)
    rw [List.cons_append, quoted.eq_def]
    dsimp only
    rw [if_neg hc, if_neg hb, ih (fun h => h1 (List.mem_cons_of_mem _ h)) (fun h => h2 (List.mem_cons_of_mem _ h))]
    rfl

theorem bracket_plain (n r : Bytes) (h : 93 ∉ n) : bracket (n ++ 93 :: r) = some (n, r) := by
  induction n with
  | nil => rw [List.nil_append, bracket, if_pos rfl]
  | cons c n ih =>
    have hc : c ≠ 93 := fun e => h (e ▸ List.mem_cons_self ..)
    rw [List.cons_append, bracket, if_neg hc, ih (fun h' => h (List.mem_cons_of_mem _ h'))]
    rfl

theorem findEnd_plain (n r : Bytes) (h : 93 ∉ n) (hq : ∀ c, n.head? = some c → c ≠ 34 ∧ c ≠ 39) : findEnd (n ++ 93 :: r) = some (n, r) := by
  cases n with
  | nil => rw [List.nil_append, findEnd, if_neg (by decide)]; exact bracket_plain [] r h
  | cons c n =>
    have hc := hq c rfl
    rw [List.cons_append, findEnd, if_neg (fun e => e.elim hc.1 hc.2)]
    exact bracket_plain (c :: n) r h

theorem findEnd_quoted (q : UInt8) (hq : q = 34 ∨ q = 39) (s r : Bytes) (h1 : q ∉ s) (h2 : 92 ∉ s) :
    findEnd (q :: (s ++ [q, 93]) ++ r) = some (q :: (s ++ [q]), r) := by
  have e : q :: (s ++ [q, 93]) ++ r = q :: (s ++ q :: (93 :: r)) := by simp
  rw [e, findEnd, if_pos hq, quoted_plain q (by rcases hq with rfl | rfl <;> decide) s (93 :: r) h1 h2]
  dsimp only
  rw [if_pos rfl]

theorem not_quoted (s : Bytes) (h : ∀ c, s.head? = some c → c ≠ 34 ∧ c ≠ 39) : isQuoted s = false := by
  unfold isQuoted
  cases s with
  | nil => rfl
  | cons c t =>
    have hc := h c rfl
    simp [hc.1, hc.2]

theorem is_quoted (q : UInt8) (hq : q = 34 ∨ q = 39) (s : Bytes) : isQuoted (q :: (s ++ [q])) = true := by
  unfold isQuoted
  have hl : (q :: (s ++ [q])).getLast? = some q := by
    rw [show q :: (s ++ [q]) = (q :: s) ++ [q] by simp, List.getLast?_concat]
  rw [hl]
  rcases hq with rfl | rfl <;> simp

theorem digit_head {ds : Bytes} (hd : ∀ c ∈ ds, digit c = true) (c : UInt8) (h : ds.head? = some c) : c ≠ 34 ∧ c ≠ 39 := by
  have hm : c ∈ ds := List.mem_of_mem_head? h
  have := hd c hm
  constructor <;> rintro rfl <;> exact absurd this (by decide)

theorem getInt_digits (o : Bytes → Option Int) (ds : Bytes) (h0 : ds ≠ []) (hd : ∀ c ∈ ds, digit c = true) (hs : decVal ds < 2147483648) :
    getInt o ds = some (decVal ds) := by
  unfold getInt
  rw [if_pos ⟨h0, List.all_eq_true.2 hd⟩]
  have e : min (decVal ds) 18446744073709551615 = decVal ds := by omega
  rw [e, toInt, if_pos (by omega)]
  congr 1
  omega

/-- One step. -/
theorem loop_step {V : Type} (e : Env V) (n : Nat) (v : V) (s : Step) (r : Bytes) (hr : Sep r) (hs : s.Ok)
    (ha : ∀ ds, s = .index ds → e.isArr v = true) :
    loop e (n + 1) v (s.text ++ r) = (s.eval e v).bind fun w => if r = [] then some w else loop e n w r := by
  have inb : ∀ (a : Bytes) (t : Bytes), t = a ++ 93 :: r → findEnd t = some (a, r) → inBrackets e v a = s.eval e v →
      loop e (n + 1) v (91 :: t) = (s.eval e v).bind fun w => if r = [] then some w else loop e n w r := by
    intro a t _ hf hi
    rw [loop]
    rw [if_pos rfl, hf]
    dsimp only
    rw [hi]
    cases s.eval e v <;> rfl
  cases s with
  | name m =>
    show loop e (n + 1) v (46 :: (m ++ r)) = (e.sub v m).bind fun w => if r = [] then some w else loop e n w r
    rw [loop]
    rw [if_neg (by decide), if_pos rfl, nextSep_plain m r hs hr]
    dsimp only
    cases e.sub v m with
    | none => rfl
    | some w =>
      by_cases h : r = []
      · simp [h]
      · simp [h]
  | index ds =>
    obtain ⟨h0, hd, hb⟩ := hs
    have h93 : 93 ∉ ds := fun h => absurd (hd 93 h) (by decide)
    have he : Step.text (.index ds) ++ r = 91 :: (ds ++ 93 :: r) := by simp [Step.text]
    rw [he]
    refine inb ds _ rfl (findEnd_plain ds r h93 (digit_head hd)) ?_
    unfold inBrackets
    rw [not_quoted ds (digit_head hd), getInt_digits e.other ds h0 hd hb, ha ds rfl]
    have hh : ds.head?.any digit = true := by
      cases ds with
      | nil => exact absurd rfl h0
      | cons c t => exact hd c (List.mem_cons_self ..)
    rw [hh]
    rfl
  | key q m =>
    obtain ⟨hq, h1, h2⟩ := hs
    have he : Step.text (.key q m) ++ r = 91 :: (q :: (m ++ [q, 93]) ++ r) := by simp [Step.text]
    rw [he]
    refine inb (q :: (m ++ [q])) _ (by simp) (findEnd_quoted q hq m r h1 h2) ?_
    unfold inBrackets
    rw [is_quoted q hq m]
    show e.sub v ((q :: (m ++ [q])).drop 1).dropLast = e.sub v m
    congr 1
    simp
  | var m =>
    obtain ⟨h1, h2⟩ := hs
    have he : Step.text (.var m) ++ r = 91 :: (m ++ 93 :: r) := by simp [Step.text]
    rw [he]
    have hh : ∀ c, m.head? = some c → c ≠ 34 ∧ c ≠ 39 := fun c hc => (h2 c hc).2
    refine inb m _ rfl (findEnd_plain m r h1 hh) ?_
    unfold inBrackets
    rw [not_quoted m hh]
    have hd : m.head?.any digit = false := by
      cases m with
      | nil => rfl
      | cons c t => exact (h2 c rfl).1
    rw [hd]
    show (match e.var m with | none => none | some k => e.subv v k) = (e.var m).bind (e.subv v)
    cases e.var m <;> rfl

theorem sep_path : ∀ p : List Step, Sep (p.flatMap Step.text)
  | [] => Or.inl rfl
  | s :: p => by
    right
    cases s with
    | name n => exact ⟨46, n ++ p.flatMap Step.text, rfl, Or.inl rfl⟩
    | index ds => exact ⟨91, ds ++ [93] ++ p.flatMap Step.text, by simp [Step.text], Or.inr rfl⟩
    | key q m => exact ⟨91, q :: (m ++ [q, 93]) ++ p.flatMap Step.text, by simp [Step.text], Or.inr rfl⟩
    | var n => exact ⟨91, n ++ [93] ++ p.flatMap Step.text, by simp [Step.text], Or.inr rfl⟩

theorem path_ne (s : Step) (p : List Step) : (s :: p).flatMap Step.text ≠ [] := by
  cases s <;> simp [Step.text]

theorem loop_path {V : Type} (e : Env V) : ∀ (p : List Step) (n : Nat) (v : V), p ≠ [] → p.length ≤ n → (∀ s ∈ p, s.Ok) → ArrOk e v p →
    loop e n v (p.flatMap Step.text) = evalSteps e v p
  | [], _, _, h, _, _, _ => absurd rfl h
  | s :: p, 0, _, _, h, _, _ => by simp at h
  | s :: p, n + 1, v, _, hl, hok, ha => by
    rw [List.flatMap_cons, loop_step e n v s _ (sep_path p) (hok s (List.mem_cons_self ..)) ha.1, evalSteps]
    cases hs : s.eval e v with
    | none => rfl
    | some w =>
      simp only [Option.bind_some]
      cases p with
      | nil => simp [evalSteps]
      | cons s' p' =>
        rw [if_neg (path_ne s' p')]
        exact loop_path e (s' :: p') n w (by simp) (by simpa using hl) (fun x hx => hok x (List.mem_cons_of_mem _ hx)) (ha.2 w hs)

/-- **C200 (part).** A path of at most 1000 steps has the value of the expression, and none if that has none; with numbers in the
brackets of arrays only. -/
theorem C200_lookup_partial {V : Type} (e : Env V) (x : Bytes) (p : List Step) (hx : Plain x) (hp : ∀ s ∈ p, s.Ok) (hl : p.length ≤ 1000)
    (ha : ∀ v, e.var x = some v → ArrOk e v p) : lookup e (text x p) = eval e x p := by
  unfold lookup text eval
  rw [nextSep_plain x _ hx (sep_path p)]
  cases p with
  | nil =>
    dsimp only
    rw [List.flatMap_nil, if_pos rfl, List.append_nil]
    cases e.var x <;> rfl
  | cons s p =>
    dsimp only
    rw [if_neg (path_ne s p)]
    dsimp only
    cases hv : e.var x with
    | none => rfl
    | some v => exact loop_path e (s :: p) 1000 v (by simp) hl hp (ha v hv)

/-- **C200** … and of a path with more steps the value of the first 1000. -/
theorem loop_stop {V : Type} (e : Env V) : ∀ (p q : List Step) (v : V), q ≠ [] → (∀ s ∈ p, s.Ok) → ArrOk e v p →
    loop e p.length v ((p ++ q).flatMap Step.text) = evalSteps e v p
  | [], q, v, _, _, _ => rfl
  | s :: p, q, v, hq, hok, ha => by
    rw [List.cons_append, List.flatMap_cons, List.length_cons,
      loop_step e p.length v s _ (sep_path (p ++ q)) (hok s (List.mem_cons_self ..)) ha.1, evalSteps]
    cases hs : s.eval e v with
    | none => rfl
    | some w =>
      simp only [Option.bind_some]
      have hne : (p ++ q).flatMap Step.text ≠ [] := by
        cases h : p ++ q with
        | nil => exact absurd (List.append_eq_nil_iff.1 h).2 hq
        | cons s' p' => exact path_ne s' p'
      rw [if_neg hne]
      exact loop_stop e p q w hq (fun x hx => hok x (List.mem_cons_of_mem _ hx)) (ha.2 w hs)

theorem C200_limit_refuted {V : Type} (e : Env V) (x : Bytes) (p q : List Step) (hx : Plain x) (hp : ∀ s ∈ p, s.Ok) (hl : p.length = 1000)
    (hq : q ≠ []) (ha : ∀ v, e.var x = some v → ArrOk e v p) : lookup e (text x (p ++ q)) = eval e x p := by
  unfold lookup text eval
  rw [nextSep_plain x _ hx (sep_path (p ++ q))]
  have hne : (p ++ q).flatMap Step.text ≠ [] := by
    cases h : p ++ q with
    | nil => exact absurd (List.append_eq_nil_iff.1 h).2 hq
    | cons s' p' => exact path_ne s' p'
  dsimp only
  rw [if_neg hne]
  dsimp only
  cases hv : e.var x with
  | none => rfl
  | some v =>
    have := loop_stop e p q v hq hp (ha v hv)
    rw [hl] at this
    exact this

/-! ## Where it is not so -/

/-- Values: `o`, an object that gives for each key the key, and `a`, an array of numbers. -/
inductive Val where
  | obj
  | arr
  | num (i : Int)
  | str (s : Bytes)
  deriving DecidableEq

/-- The variables `o` and `a`; `k` is "key". -/
def env0 : Env Val where
  var := fun n => if n = asc "o" then some .obj else if n = asc "a" then some .arr else if n = asc "k" then some (.str (asc "key")) else none
  isArr := fun v => v = .arr
  idx := fun v i => if v = .arr ∧ 0 ≤ i ∧ i < 3 then some (.num i) else none
  sub := fun v s => if v = .obj then some (.str s) else none
  subv := fun v k => match v, k with | .obj, .str s => some (.str s) | _, _ => none
  other := fun _ => none

/-- **C200 refuted.** `o[1]`, where `o` is no array: the variable `1` is looked for. -/
theorem C200_number_refuted : env0.sub .obj (asc "1") = some (.str (asc "1")) ∧ lookup env0 (asc "o[1]") = none := by
  constructor <;> decide +kernel

/-- **C200 refuted.** `a[4294967297]` is `a[1]`. -/
theorem C200_wrap_refuted : lookup env0 (asc "a[4294967297]") = some (.num 1) ∧ env0.idx .arr 4294967297 = none := by
  constructor <;> decide +kernel

/-- **C200 refuted.** Escapes in a key in quotes stay as they are. -/
theorem C200_escape_refuted : lookup env0 (asc "o[\"x\\\"y\"]") = some (.str (asc "x\\\"y")) := by decide +kernel

/-! ## Cases -/

example : lookup env0 (text (asc "o") [.key 34 (asc "a.]b")]) = some (.str (asc "a.]b")) := by
  rw [C200_lookup_partial env0 (asc "o") [.key 34 (asc "a.]b")] (by constructor <;> decide +kernel)
    (by intro s hs; simp only [List.mem_singleton] at hs; subst hs; exact ⟨Or.inl rfl, by decide +kernel, by decide +kernel⟩)
    (by decide) (by intro v _; refine ⟨fun ds h => ?_, fun w _ => trivial⟩; cases h)]
  decide +kernel

example : text (asc "o") [.key 34 (asc "a.]b")] = asc "o[\"a.]b\"]" := by decide +kernel

example : lookup env0 (asc "a[2]") = some (.num 2) ∧ lookup env0 (asc "o[k]") = some (.str (asc "key")) ∧
    lookup env0 (asc "o.x") = some (.str (asc "x")) := by refine ⟨?_, ?_, ?_⟩ <;> decide +kernel

example : ArrOk env0 .arr [.index (asc "2")] := ⟨fun _ _ => rfl, fun _ _ => trivial⟩

end Verif.Lookup
