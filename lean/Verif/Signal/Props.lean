import Verif.Signal.Model
/-!
# Signals: theorems (C203–C205)
-/
namespace Verif.Signal

/-! ## Names -/

/-- Equal but for the case of letters. -/
def Same (a b : Bytes) : Prop := a.map lower = b.map lower

theorem all8 {p : UInt8 → Prop} (h : ∀ n : Fin 256, p (UInt8.ofNat n.val)) (c : UInt8) : p c := by
  have := h ⟨c.toNat, c.toNat_lt⟩
  rwa [UInt8.ofNat_toNat] at this

theorem lower_digit (c : UInt8) (h : digit c = true) : lower c = c := by
  revert h
  exact all8 (p := fun c => digit c = true → lower c = c) (by decide +kernel) c

theorem find_id : ∀ e ∈ ids, ((List.range (maxSignals - 1)).map (· + 1)).find?
    (fun i => ((signalName i).drop 3).map lower == (e.2.drop 3).map lower) = some e.1 := by decide +kernel

theorem id_letter : ∀ e ∈ ids, (((e.2.drop 3).map lower).head?.any fun c => !digit c) = true := by decide +kernel

theorem id_plain : ∀ e ∈ ids, (e.2.drop 3).head? ≠ some 45 ∧ ((e.2.drop 3).take 3).map lower ≠ asc "sig" ∧ (e.2.take 3).map lower = asc "sig" := by
  decide +kernel

/-- What `find` gives depends on the letters only. -/
theorem find_stem {s : Bytes} {e : Nat × Bytes} (he : e ∈ ids) (h : Same (stem s) (e.2.drop 3)) : find s = some e.1 := by
  have hl := id_letter e he
  unfold Same at h
  have hd : (stem s).head?.any digit = false := by
    cases hs : stem s with
    | nil => rfl
    | cons c t =>
      rw [hs] at h
      rw [← h] at hl
      have hl : (!digit (lower c)) = true := hl
      cases hc : digit c with
      | false => exact hc
      | true => rw [lower_digit c hc, hc] at hl; exact absurd hl (by decide)
  unfold find
  rw [hd, if_neg (by decide), h]
  exact find_id e he

theorem head_lower (s : Bytes) : (s.map lower).head? = s.head?.map lower := by cases s <;> rfl

theorem minus_lower (c : UInt8) : lower c = 45 ↔ c = 45 := by
  exact all8 (p := fun c => lower c = 45 ↔ c = 45) (by decide +kernel) c

theorem no_minus {s t : Bytes} (h : Same s t) (ht : t.head? ≠ some 45) : s.head? ≠ some 45 := by
  intro hs
  apply ht
  have e : s.head?.map lower = t.head?.map lower := by rw [← head_lower, ← head_lower, h]
  rw [hs] at e
  cases hh : t.head? with
  | none => rw [hh] at e; exact absurd e (by simp)
  | some c =>
    rw [hh] at e
    have : lower 45 = lower c := by simpa using e
    exact congrArg some ((minus_lower c).1 (this ▸ (by decide)))

theorem same_drop {s t : Bytes} (h : Same s t) (n : Nat) : Same (s.drop n) (t.drop n) := by
  unfold Same at *
  rw [List.map_drop, List.map_drop, h]

theorem same_take {s t : Bytes} (h : Same s t) (n : Nat) : Same (s.take n) (t.take n) := by
  unfold Same at *
  rw [List.map_take, List.map_take, h]

theorem lower_lower (c : UInt8) : lower (lower c) = lower c := by
  exact all8 (p := fun c => lower (lower c) = lower c) (by decide +kernel) c

theorem stem_minus (s : Bytes) : stem (45 :: s) = s := by
  have h : ((45 :: s).take 3).map lower ≠ asc "sig" := by
    intro x
    exact absurd (List.cons.inj x).1 (by decide)
  unfold stem
  rw [if_neg h]
  simp [noMinus]

theorem stem_plain {c : UInt8} (t : Bytes) (n1 : c ≠ 45) (n2 : lower c ≠ 115) : stem (c :: t) = c :: t := by
  have h : ((c :: t).take 3).map lower ≠ asc "sig" := fun x => n2 (List.cons.inj x).1
  unfold stem
  rw [if_neg h]
  simp [noMinus, n1]

/-- **C203 (part).** A name of `Signal.names()`, with or without `SIG`, in letters of any case, and the name without `SIG` after a `-`. -/
theorem C203_names_partial {e : Nat × Bytes} (he : e ∈ ids) {s : Bytes} :
    (Same s e.2 → find s = some e.1) ∧ (Same s (e.2.drop 3) → find s = some e.1) ∧ (Same s (e.2.drop 3) → find (45 :: s) = some e.1) := by
  obtain ⟨h1, h2, h3⟩ := id_plain e he
  have hm : e.2.head? ≠ some 45 := by
    intro h
    cases h4 : e.2 with
    | nil => rw [h4] at h; exact absurd h (by simp)
    | cons c t =>
      rw [h4] at h h3
      have : c = 45 := by simpa using h
      subst this
      exact absurd (List.cons.inj h3).1 (by decide)
  refine ⟨fun h => find_stem he ?_, fun h => find_stem he ?_, fun h => find_stem he ?_⟩
  · have hs : stem s = s.drop 3 := by
      unfold stem
      rw [if_pos ((same_take h 3).trans h3), noMinus, if_neg (no_minus h hm)]
    rw [hs]
    exact same_drop h 3
  · have hs : stem s = s := by
      unfold stem
      rw [if_neg (fun x => h2 ((same_take h 3).symm.trans x)), noMinus, if_neg (no_minus h h1)]
    rw [hs]
    exact h
  · rw [stem_minus]
    exact h

theorem takeWhile_all {p : UInt8 → Bool} : ∀ s : Bytes, (∀ c ∈ s, p c = true) → s.takeWhile p = s
  | [], _ => rfl
  | c :: t, h => by
    rw [List.takeWhile_cons_of_pos (h c (List.mem_cons_self ..)), takeWhile_all t (fun x hx => h x (List.mem_cons_of_mem _ hx))]

/-- **C203 (part).** The number of a signal, in digits, also after a `-`. -/
theorem C203_numbers_partial {ds : Bytes} (h0 : ds ≠ []) (hd : ∀ c ∈ ds, digit c = true) :
    (0 < decVal ds ∧ decVal ds < 64 → find ds = some (decVal ds) ∧ find (45 :: ds) = some (decVal ds)) ∧
      (decVal ds = 0 ∨ 64 ≤ decVal ds ∧ decVal ds < 2147483648 → find ds = none ∧ find (45 :: ds) = none) := by
  have hs : stem ds = ds ∧ stem (45 :: ds) = ds := by
    cases ds with
    | nil => exact absurd rfl h0
    | cons c t =>
      have hc := hd c (List.mem_cons_self ..)
      have n1 : c ≠ 45 := by rintro rfl; exact absurd hc (by decide)
      have n2 : lower c ≠ 115 := by rw [lower_digit c hc]; rintro rfl; exact absurd hc (by decide)
      exact ⟨stem_plain t n1 n2, stem_minus _⟩
  have hh : ds.head?.any digit = true := by
    cases ds with
    | nil => exact absurd rfl h0
    | cons c t => exact hd c (List.mem_cons_self ..)
  have ha : decVal ds < 2147483648 → atoi ds = (decVal ds : Int) := by
    intro h
    unfold atoi
    rw [takeWhile_all ds hd]
    have e : min (decVal ds) 9223372036854775807 % 4294967296 = decVal ds := by omega
    rw [e]
    dsimp only
    rw [if_pos h]
  have key : decVal ds < 2147483648 → ∀ x, stem x = ds → find x = if 0 < decVal ds ∧ decVal ds < 64 then some (decVal ds) else none := by
    intro h x hx
    unfold find
    rw [hx, if_pos hh, ha h]
    have e : (0 < (decVal ds : Int) ∧ (decVal ds : Int) < (maxSignals : Int)) = (0 < decVal ds ∧ decVal ds < 64) := by
      apply propext; unfold maxSignals; omega
    simp only [e, Int.toNat_natCast]
  constructor
  · intro h
    have := key (by omega)
    rw [if_pos h] at this
    exact ⟨this _ hs.1, this _ hs.2⟩
  · intro h
    have := key (by omega)
    rw [if_neg (by omega)] at this
    exact ⟨this _ hs.1, this _ hs.2⟩

/-- **C203 (part).** What is found is a signal the text stands for. -/
theorem C203_found_partial {s : Bytes} {n : Nat} (h : find s = some n) :
    0 < n ∧ n < 64 ∧ ((stem s).head?.any digit = true ∧ atoi (stem s) = n ∨ Same ((signalName n).drop 3) (stem s)) := by
  unfold find at h
  split at h
  · rename_i hd
    split at h
    · rename_i hr
      unfold maxSignals at hr
      have : (atoi (stem s)).toNat = n := Option.some.inj h
      exact ⟨by omega, by omega, Or.inl ⟨hd, by omega⟩⟩
    · exact absurd h (by simp)
  · have hm := List.mem_of_find?_eq_some h
    have hp := List.find?_some h
    simp only [List.mem_map, List.mem_range, maxSignals] at hm
    obtain ⟨i, hi, rfl⟩ := hm
    exact ⟨by omega, by omega, Or.inr (eq_of_beq hp)⟩

/-- **C203 (part).** The numbers POSIX gives, and those of Linux. -/
theorem C203_table_partial :
    (["HUP", "INT", "QUIT", "ABRT", "KILL", "ALRM", "TERM", "ILL", "TRAP", "BUS", "FPE", "USR1", "SEGV", "USR2", "PIPE", "CONT", "STOP", "TSTP", "TTIN",
      "TTOU", "URG", "XCPU", "XFSZ", "VTALRM", "PROF", "WINCH", "IO", "PWR", "SYS"].map fun x => find (asc x)) =
    [1, 2, 3, 6, 9, 14, 15, 4, 5, 7, 8, 10, 11, 12, 13, 18, 19, 20, 21, 22, 23, 24, 25, 26, 27, 28, 29, 30, 31].map some := by decide +kernel

/-- **C203 refuted.** `-SIGINT` is not known, though `SIGINT` and `-INT` are; nor is `SIGCHLD`; but `9x` is 9, and `nown signal` is 16. -/
theorem C203_refuted : find (asc "-SIGINT") = none ∧ find (asc "SIGINT") = some 2 ∧ find (asc "-INT") = some 2 ∧ find (asc "SIGCHLD") = none ∧
    find (asc "9x") = some 9 ∧ find (asc "nown signal") = some 16 := by decide +kernel

/-! ## Actions -/

theorem signalSub_fold (can : Nat → Bool) (a : Action) : ∀ (l : List Bytes) (s : St),
    (signalSub can a s l).1 = (known l).foldl (fun s n => setAction can s a n) s
  | [], _ => rfl
  | x :: r, s => by
    unfold signalSub known
    cases find x with
    | none => rfl
    | some n => exact signalSub_fold can a r _

theorem step_fold (can : Nat → Bool) (s : St) (o : Op) : step can s o = (sets o).foldl (fun s e => setAction can s e.2 e.1) s := by
  cases o with
  | sub a l =>
    show (signalSub can a s l).1 = ((known l).map fun n => (n, a)).foldl _ s
    rw [signalSub_fold, List.foldl_map]
  | callback n =>
    unfold step sets
    dsimp only
    split <;> rfl

theorem run_fold (can : Nat → Bool) : ∀ (h : List Op) (s : St),
    h.foldl (step can) s = (h.flatMap sets).foldl (fun s e => setAction can s e.2 e.1) s
  | [], _ => rfl
  | o :: h, s => by
    rw [List.foldl_cons, run_fold can h, List.flatMap_cons, List.foldl_append, step_fold]

/-- What holds of one signal: the table has the action; the process does what it says; and what it did at first is kept. -/
def Inv (can : Nat → Bool) (d0 : Nat → Disp) (s : St) (f : Nat → Action) : Prop :=
  ∀ n, s.handling n = f n ∧ (can n = true →
    (f n = .dflt → s.disp n = d0 n) ∧ (f n ≠ .dflt → s.old n = d0 n ∧ s.disp n = dispOf (f n))) ∧ (can n = false → s.disp n = d0 n)

theorem upd_same {α : Type} (f : Nat → α) (n : Nat) (a : α) : upd f n a n = a := by unfold upd; rw [if_pos rfl]
theorem upd_other {α : Type} (f : Nat → α) {n m : Nat} (a : α) (h : m ≠ n) : upd f n a m = f m := by unfold upd; rw [if_neg h]

/-- Other signals are as before. -/
theorem setAction_other (can : Nat → Bool) (s : St) (a : Action) {n m : Nat} (h : m ≠ n) :
    (setAction can s a n).disp m = s.disp m ∧ (setAction can s a n).handling m = s.handling m ∧ (setAction can s a n).old m = s.old m := by
  unfold setAction
  split
  · exact ⟨rfl, rfl, rfl⟩
  · cases a <;> simp only [sigactionOld, sigaction] <;> (repeat' split) <;> simp [upd_other _ _ h]

theorem setAction_inv (can : Nat → Bool) (d0 : Nat → Disp) (s : St) (f : Nat → Action) (a : Action) (n : Nat) (h : Inv can d0 s f) :
    Inv can d0 (setAction can s a n) (upd f n a) := by
  intro m
  by_cases hm : m = n
  · subst hm
    rw [upd_same]
    obtain ⟨h1, h2, h3⟩ := h m
    unfold setAction
    split
    · rename_i ha
      have hf : f m = a := by rw [← h1, ha]
      rw [← hf]
      exact ⟨h1, h2, h3⟩
    · rename_i ha
      have hf : f m ≠ a := fun e => ha (by rw [h1, e])
      cases hc : can m with
      | false =>
        have hd := h3 hc
        refine ⟨by dsimp only; rw [upd_same], fun x => absurd x (by decide), fun _ => ?_⟩
        rw [← hd]
        cases a <;> simp [sigactionOld, sigaction, hc]
      | true =>
        have h2 := h2 hc
        refine ⟨by dsimp only; rw [upd_same], fun _ => ?_, fun x => absurd x (by decide)⟩
        cases a with
        | dflt =>
          refine ⟨fun _ => ?_, fun x => absurd rfl x⟩
          dsimp only
          unfold sigaction
          rw [if_pos hc]
          dsimp only
          rw [upd_same]
          exact (h2.2 hf).1
        | handle =>
          refine ⟨fun x => absurd x (by decide), fun _ => ?_⟩
          dsimp only
          by_cases hz : s.handling m = .dflt
          · rw [if_pos hz]
            unfold sigactionOld
            rw [if_pos hc]
            dsimp only
            rw [upd_same, upd_same]
            exact ⟨h2.1 (by rw [← h1, hz]), rfl⟩
          · rw [if_neg hz]
            unfold sigaction
            rw [if_pos hc]
            dsimp only
            rw [upd_same]
            exact ⟨(h2.2 (fun e => hz (by rw [h1, e]))).1, rfl⟩
        | ignore =>
          refine ⟨fun x => absurd x (by decide), fun _ => ?_⟩
          dsimp only
          by_cases hz : s.handling m = .dflt
          · rw [if_pos hz]
            unfold sigactionOld
            rw [if_pos hc]
            dsimp only
            rw [upd_same, upd_same]
            exact ⟨h2.1 (by rw [← h1, hz]), rfl⟩
          · rw [if_neg hz]
            unfold sigaction
            rw [if_pos hc]
            dsimp only
            rw [upd_same]
            exact ⟨(h2.2 (fun e => hz (by rw [h1, e]))).1, rfl⟩
  · obtain ⟨e1, e2, e3⟩ := setAction_other can s a hm
    rw [e1, e2, e3, upd_other _ _ hm]
    exact h m

theorem fold_inv (can : Nat → Bool) (d0 : Nat → Disp) : ∀ (es : List (Nat × Action)) (s : St) (f : Nat → Action), Inv can d0 s f →
    Inv can d0 (es.foldl (fun s e => setAction can s e.2 e.1) s) (es.foldl (fun f e => upd f e.1 e.2) f)
  | [], _, _, h => h
  | e :: es, s, f, h => fold_inv can d0 es _ _ (setAction_inv can d0 s f e.2 e.1 h)

theorem fold_last (n : Nat) : ∀ (es : List (Nat × Action)) (f : Nat → Action),
    es.foldl (fun f e => upd f e.1 e.2) f n = ((es.filter fun e => e.1 = n).getLast?.map (·.2)).getD (f n)
  | [], _ => rfl
  | e :: es, f => by
    rw [List.foldl_cons, fold_last n es]
    by_cases h : e.1 = n
    · rw [List.filter_cons_of_pos (by simpa using h), List.getLast?_cons, ← h, upd_same]
      cases (es.filter fun x => x.1 = e.1).getLast? <;> rfl
    · rw [List.filter_cons_of_neg (by simpa using h), upd_other _ _ (Ne.symm h)]

theorem run_inv (can : Nat → Bool) (d0 : Nat → Disp) (h : List Op) (n : Nat) :
    (run can d0 h).handling n = lastAction h n ∧ (can n = true →
      (lastAction h n = .dflt → (run can d0 h).disp n = d0 n) ∧
        (lastAction h n ≠ .dflt → (run can d0 h).old n = d0 n ∧ (run can d0 h).disp n = dispOf (lastAction h n))) ∧
      (can n = false → (run can d0 h).disp n = d0 n) := by
  have h0 : Inv can d0 (start d0) (fun _ => .dflt) :=
    fun n => ⟨rfl, fun _ => ⟨fun _ => rfl, fun x => absurd rfl x⟩, fun _ => rfl⟩
  have := fold_inv can d0 (h.flatMap sets) (start d0) _ h0 n
  rw [fold_last] at this
  unfold run
  rw [run_fold]
  exact this

/-- **C204** After any history a signal does what the last call that named it said: `handle` and `callback` the handler, `ignore` nothing,
and `reset`, or no call, what it did when the program began. -/
theorem C204_action_partial (can : Nat → Bool) (d0 : Nat → Disp) (h : List Op) (n : Nat) (hc : can n = true) :
    (run can d0 h).disp n = match lastAction h n with
      | .dflt => d0 n
      | .handle => .handler
      | .ignore => .ignorer := by
  have := (run_inv can d0 h n).2.1 hc
  cases hl : lastAction h n with
  | dflt => exact this.1 hl
  | handle => exact (this.2 (by rw [hl]; decide)).2.trans (by rw [hl]; rfl)
  | ignore => exact (this.2 (by rw [hl]; decide)).2.trans (by rw [hl]; rfl)

/-- **C204** The lists that `handle()`, `ignore()` and `reset()` give. -/
theorem C204_list (can : Nat → Bool) (d0 : Nat → Disp) (h : List Op) (a : Action) (n : Nat) :
    n ∈ listed (run can d0 h) a ↔ n < 64 ∧ lastAction h n = a := by
  unfold listed
  rw [List.mem_filter, List.mem_range, decide_eq_true_eq, (run_inv can d0 h n).1]
  rfl

/-- **C204 refuted.** A signal the system does not let be changed is in the list all the same. -/
theorem C204_kill_refuted (can : Nat → Bool) (d0 : Nat → Disp) (hc : can 9 = false) :
    9 ∈ listed (run can d0 [.sub .handle [asc "SIGKILL"]]) .handle ∧ (run can d0 [.sub .handle [asc "SIGKILL"]]).disp 9 = d0 9 := by
  have hl : lastAction [.sub .handle [asc "SIGKILL"]] 9 = .handle := by decide +kernel
  exact ⟨(C204_list can d0 _ .handle 9).2 ⟨by decide, hl⟩, (run_inv can d0 _ 9).2.2 hc⟩

/-- **C204 refuted.** A call with an unknown name is an error, but the names before it are set. -/
theorem C204_error_refuted (can : Nat → Bool) (d0 : Nat → Disp) (hc : can 2 = true) :
    (signalSub can .handle (start d0) [asc "INT", asc "CHLD"]).2 = false ∧
      (run can d0 [.sub .handle [asc "INT", asc "CHLD"]]).disp 2 = .handler := by
  have e1 : find (asc "INT") = some 2 := by decide +kernel
  have e2 : find (asc "CHLD") = none := by decide +kernel
  have hl : lastAction [.sub .handle [asc "INT", asc "CHLD"]] 2 = .handle := by decide +kernel
  constructor
  · unfold signalSub; rw [e1]; dsimp only; unfold signalSub; rw [e2]
  · rw [C204_action_partial can d0 _ 2 hc, hl]

/-- A case: handled, ignored, reset. -/
example : lastAction [.sub .handle [asc "INT", asc "hup"], .callback 15, .sub .ignore [asc "SIGHUP"], .sub .dflt [asc "2"]] 1 = .ignore ∧
    lastAction [.sub .handle [asc "INT", asc "hup"], .callback 15, .sub .ignore [asc "SIGHUP"], .sub .dflt [asc "2"]] 2 = .dflt ∧
    lastAction [.sub .handle [asc "INT", asc "hup"], .callback 15, .sub .ignore [asc "SIGHUP"], .sub .dflt [asc "2"]] 15 = .handle := by
  decide +kernel

end Verif.Signal
