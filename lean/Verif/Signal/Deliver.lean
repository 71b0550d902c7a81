import Verif.Signal.Model
/-!
# Callbacks of signals: theorems (C205)
-/
namespace Verif.Signal

theorem upd_at {α : Type} (f : Nat → α) (n : Nat) (a : α) : upd f n a n = a := by unfold upd; rw [if_pos rfl]
theorem upd_ne {α : Type} (f : Nat → α) {n m : Nat} (a : α) (h : m ≠ n) : upd f n a m = f m := by unfold upd; rw [if_neg h]

/-- `Jsi_EventProcess` never comes to callback `k` while its function is running. -/
def NoNest (sig : Nat → Nat) (k : Nat) : Dl → List Ev → Prop
  | _, [] => True
  | d, e :: h => (e = .look k → d.busy k = false) ∧ NoNest sig k (dstep sig d e).1 h

/-- How often signal `s` arrives. -/
def arrivals (s : Nat) : List Ev → Nat
  | [] => 0
  | .arrive t :: h => (if t = s then 1 else 0) + arrivals s h
  | _ :: h => arrivals s h

theorem nonest_append {sig k} : ∀ (a b : List Ev) (d : Dl), NoNest sig k d (a ++ b) → NoNest sig k (dafter sig d a) b
  | [], _, _, h => h
  | e :: a, b, d, h => nonest_append a b _ h.2

/-- A bit that is set leads to a call. -/
theorem set_called {sig : Nat → Nat} {k : Nat} (hu : ∀ j, sig j = sig k → j = k) : ∀ (h : List Ev) (d : Dl),
    d.set (sig k) = true → NoNest sig k d (h ++ [.look k]) → k ∈ calls sig d (h ++ [.look k])
  | [], d, hs, hn => by
    have hb := hn.1 rfl
    show k ∈ (dstep sig d (.look k)).2.toList ++ _
    have : (dstep sig d (.look k)).2 = some k := by
      simp only [dstep, hs, hb, if_true]
      rfl
    rw [this]
    simp
  | e :: h, d, hs, hn => by
    show k ∈ (dstep sig d e).2.toList ++ calls sig (dstep sig d e).1 (h ++ [.look k])
    cases e with
    | arrive s =>
      refine List.mem_append_right _ (set_called hu h _ ?_ hn.2)
      show upd d.set s true (sig k) = true
      unfold upd
      split
      · rfl
      · exact hs
    | ret j => exact List.mem_append_right _ (set_called hu h _ hs hn.2)
    | look j =>
      by_cases hj : j = k
      · subst hj
        have hb := hn.1 rfl
        have : (dstep sig d (.look j)).2 = some j := by
          simp only [dstep, hs, hb, if_true]
          rfl
        rw [this]
        simp
      · refine List.mem_append_right _ (set_called hu h _ ?_ hn.2)
        have hne : sig k ≠ sig j := fun e => hj (hu j e.symm)
        unfold dstep
        dsimp only
        split
        · split
          · exact (upd_ne _ _ hne).trans hs
          · exact (upd_ne _ _ hne).trans hs
        · exact hs

/-- No more calls than arrivals, and one if the bit is set. -/
theorem calls_count {sig : Nat → Nat} {k : Nat} : ∀ (h : List Ev) (d : Dl),
    (calls sig d h).count k ≤ arrivals (sig k) h + (if d.set (sig k) then 1 else 0)
  | [], _ => Nat.zero_le _
  | e :: h, d => by
    have ih := calls_count (sig := sig) (k := k) h (dstep sig d e).1
    show ((dstep sig d e).2.toList ++ calls sig (dstep sig d e).1 h).count k ≤ _
    rw [List.count_append]
    cases e with
    | arrive s =>
      have e2 : (dstep sig d (.arrive s)).2 = none := rfl
      have e3 : arrivals (sig k) (.arrive s :: h) = (if s = sig k then 1 else 0) + arrivals (sig k) h := rfl
      rw [e2, e3]
      have hs : (dstep sig d (.arrive s)).1.set (sig k) = upd d.set s true (sig k) := rfl
      rw [hs] at ih
      by_cases h1 : s = sig k
      · rw [h1, upd_at] at ih
        rw [if_pos h1]
        simp only [if_true] at ih
        rw [h1]
        simp only [Option.toList_none, List.count_nil]
        split <;> omega
      · rw [upd_ne _ _ (Ne.symm h1)] at ih
        rw [if_neg h1]
        simp only [Option.toList_none, List.count_nil]
        omega
    | ret j =>
      have e2 : (dstep sig d (.ret j)).2 = none := rfl
      have e3 : arrivals (sig k) (.ret j :: h) = arrivals (sig k) h := rfl
      have hs : (dstep sig d (.ret j)).1.set = d.set := rfl
      rw [e2, e3]
      rw [hs] at ih
      simp only [Option.toList_none, List.count_nil]
      omega
    | look j =>
      have e3 : arrivals (sig k) (.look j :: h) = arrivals (sig k) h := rfl
      rw [e3]
      cases hset : d.set (sig j) with
      | false =>
        have e1 : dstep sig d (.look j) = (d, none) := by simp [dstep, hset]
        rw [e1] at ih ⊢
        simp only [Option.toList_none, List.count_nil]
        have ih' : (calls sig d h).count k ≤ arrivals (sig k) h + (if d.set (sig k) then 1 else 0) := ih
        show 0 + (calls sig d h).count k ≤ _
        omega
      | true =>
        by_cases hk : sig j = sig k
        · have hz : (dstep sig d (.look j)).1.set (sig k) = false := by
            simp only [dstep, hset, if_true]
            split
            · show upd d.set (sig j) false (sig k) = false
              rw [hk, upd_at]
            · show upd d.set (sig j) false (sig k) = false
              rw [hk, upd_at]
          rw [hz] at ih
          have hc : ((dstep sig d (.look j)).2.toList).count k ≤ 1 := by
            cases (dstep sig d (.look j)).2 with
            | none => simp
            | some x => simp only [Option.toList_some]; exact List.count_le_length
          rw [← hk, hset]
          simp only [if_true]
          rw [hk]
          simp only [Bool.false_eq_true, if_false] at ih
          omega
        · have hz : (dstep sig d (.look j)).1.set (sig k) = d.set (sig k) := by
            simp only [dstep, hset, if_true]
            split
            · exact upd_ne _ _ (Ne.symm hk)
            · exact upd_ne _ _ (Ne.symm hk)
          have hjk : j ≠ k := fun e => hk (by rw [e])
          have hc : ((dstep sig d (.look j)).2.toList).count k = 0 := by
            simp only [dstep, hset, if_true]
            split
            · simp
            · simp [List.count_cons, hjk]
          rw [hz] at ih
          omega

/-- **C205 (part).** A signal that arrives is followed by a call of its callback, if it has one only and `Jsi_EventProcess` does not come to the
callback while it is running. -/
theorem C205_called_partial {sig : Nat → Nat} {k : Nat} (hu : ∀ j, sig j = sig k → j = k) (h1 h2 : List Ev)
    (hn : NoNest sig k dstart (h1 ++ [.arrive (sig k)] ++ (h2 ++ [.look k]))) :
    k ∈ calls sig (dafter sig dstart (h1 ++ [.arrive (sig k)])) (h2 ++ [.look k]) := by
  refine set_called hu h2 _ ?_ (nonest_append _ _ _ hn)
  unfold dafter
  rw [List.foldl_append]
  exact upd_at _ _ _

theorem dafter_append {sig : Nat → Nat} (d : Dl) (a b : List Ev) : dafter sig d (a ++ b) = dafter sig (dafter sig d a) b := List.foldl_append ..

/-- A callback is only started at its place in the table. -/
theorem idle_kept {sig : Nat → Nat} {k : Nat} : ∀ (g : List Ev) (d : Dl), d.busy k = false → .look k ∉ g → NoNest sig k d (g ++ [.look k])
  | [], d, hb, _ => ⟨fun _ => hb, trivial⟩
  | e :: g, d, hb, hg => by
    have he : e ≠ .look k := fun h => hg (h ▸ List.mem_cons_self ..)
    refine ⟨fun h => absurd h he, idle_kept g _ ?_ (fun h => hg (List.mem_cons_of_mem _ h))⟩
    cases e with
    | arrive s => exact hb
    | ret j =>
      show upd d.busy j false k = false
      unfold upd
      split
      · rfl
      · exact hb
    | look j =>
      have hj : k ≠ j := fun h => he (by rw [h])
      unfold dstep
      dsimp only
      split
      · split
        · exact hb
        · exact (upd_ne _ _ hj).trans hb
      · exact hb

/-- **C205 (part).** When a callback has returned it is called for the next arrival, as soon as `Jsi_EventProcess` comes to it. -/
theorem C205_after_return_partial {sig : Nat → Nat} {k : Nat} (hu : ∀ j, sig j = sig k → j = k) (h g1 g2 : List Ev)
    (hg : .look k ∉ g1 ++ .arrive (sig k) :: g2) :
    k ∈ calls sig (dafter sig dstart (h ++ .ret k :: g1 ++ [.arrive (sig k)])) (g2 ++ [.look k]) := by
  refine set_called hu g2 _ ?_ ?_
  · rw [dafter_append]
    exact upd_at _ _ _
  · have hb : (dafter sig dstart (h ++ [.ret k])).busy k = false := by
      rw [dafter_append]
      exact upd_at _ _ _
    have hn := idle_kept (sig := sig) _ _ hb hg
    have e1 : g1 ++ Ev.arrive (sig k) :: g2 ++ [.look k] = (g1 ++ [Ev.arrive (sig k)]) ++ (g2 ++ [.look k]) := by simp
    rw [e1] at hn
    have := nonest_append _ _ _ hn
    have e2 : h ++ Ev.ret k :: g1 ++ [.arrive (sig k)] = (h ++ [.ret k]) ++ (g1 ++ [Ev.arrive (sig k)]) := by simp
    rw [e2, dafter_append]
    exact this

/-- The hypothesis is met after the callback ran for a first arrival. -/
example : Ev.look 3 ∉ [Ev.look 5] ++ .arrive (id 3) :: [.look 5] ∧
    calls id dstart ([.arrive 3, .look 3] ++ .ret 3 :: [.look 5] ++ [.arrive 3] ++ ([.look 5] ++ [.look 3])) = [3, 3] := by
  refine ⟨by simp, by decide +kernel⟩

/-- **C205** A callback is not called more often than its signal arrives, in any history. -/
theorem C205_not_more {sig : Nat → Nat} (k : Nat) (h : List Ev) : (calls sig dstart h).count k ≤ arrivals (sig k) h :=
  calls_count h dstart

/-- **C205** … and also not after a time at which `Jsi_EventProcess` came to it: there is an arrival before each call. -/
theorem C205_not_again {sig : Nat → Nat} (k : Nat) (h1 h2 : List Ev) :
    (calls sig (dafter sig dstart (h1 ++ [.look k])) h2).count k ≤ arrivals (sig k) h2 := by
  have hz : (dafter sig dstart (h1 ++ [.look k])).set (sig k) = false := by
    unfold dafter
    rw [List.foldl_append]
    show (dstep sig _ (.look k)).1.set (sig k) = false
    generalize List.foldl (fun d e => (dstep sig d e).1) dstart h1 = d
    cases hs : d.set (sig k) with
    | false => simp [dstep, hs]
    | true =>
      simp only [dstep, hs, if_true]
      split
      · exact upd_at _ _ _
      · exact upd_at _ _ _
  have := calls_count (sig := sig) (k := k) h2 (dafter sig dstart (h1 ++ [.look k]))
  rw [hz] at this
  simpa using this

/-- The hypotheses are met: two signals, the second arrives while the first's callback is running. -/
example : NoNest id 3 dstart ([.arrive 5, .look 5] ++ [.arrive 3] ++ ([.ret 5] ++ [.look 3])) ∧
    calls id dstart ([.arrive 5, .look 5] ++ [.arrive 3] ++ ([.ret 5] ++ [.look 3])) = [5, 3] := by
  refine ⟨⟨fun e => ?_, fun e => ?_, fun e => ?_, fun e => ?_, fun e => ?_, trivial⟩, by decide +kernel⟩
  · cases e
  · cases e
  · cases e
  · cases e
  · decide +kernel

/-- **C205 refuted.** Of two callbacks for one signal only that which comes first in the table is called. -/
theorem C205_two_refuted {sig : Nat → Nat} {j k : Nat} (h : sig j = sig k) : calls sig dstart [.arrive (sig k), .look j, .look k] = [j] := by
  have e1 : (dstep sig dstart (.arrive (sig k))).1 = ⟨upd dstart.set (sig k) true, dstart.busy⟩ := rfl
  have e2 : dstep sig ⟨upd dstart.set (sig k) true, dstart.busy⟩ (.look j) =
      (⟨upd (upd dstart.set (sig k) true) (sig j) false, upd dstart.busy j true⟩, some j) := by
    have : upd dstart.set (sig k) true (sig j) = true := by rw [h, upd_at]
    simp only [dstep, this, if_true]
    rfl
  have e3 : dstep sig ⟨upd (upd dstart.set (sig k) true) (sig j) false, upd dstart.busy j true⟩ (.look k) =
      (⟨upd (upd dstart.set (sig k) true) (sig j) false, upd dstart.busy j true⟩, none) := by
    have : upd (upd dstart.set (sig k) true) (sig j) false (sig k) = false := by rw [h, upd_at]
    simp [dstep, this]
  show (none : Option Nat).toList ++ calls sig (dstep sig dstart (.arrive (sig k))).1 [.look j, .look k] = [j]
  rw [e1]
  show [] ++ ((dstep sig ⟨upd dstart.set (sig k) true, dstart.busy⟩ (.look j)).2.toList ++
    calls sig (dstep sig ⟨upd dstart.set (sig k) true, dstart.busy⟩ (.look j)).1 [.look k]) = [j]
  rw [e2]
  show [] ++ ([j] ++ ((dstep sig ⟨upd (upd dstart.set (sig k) true) (sig j) false, upd dstart.busy j true⟩ (.look k)).2.toList ++ [])) = [j]
  rw [e3]
  rfl

/-- **C205 refuted.** The signal arrives again while the callback is running, and that calls `update` or `sleep`: the second arrival is lost. -/
theorem C205_busy_refuted : calls id dstart [.arrive 3, .look 3, .arrive 3, .look 3, .ret 3, .look 3, .look 3] = [3] := by decide +kernel

/-- **C205 refuted.** `(*sigloc) &= ~nsig` reads and writes: another signal `b` that arrives in between is lost. -/
theorem C205_race_refuted (m : Nat → Bool) {a b : Nat} (h : b ≠ a) (hb : m b = false) :
    upd m b true b = true ∧ clearStore m a b = false :=
  ⟨upd_at _ _ _, (upd_ne _ _ h).trans hb⟩

end Verif.Signal
