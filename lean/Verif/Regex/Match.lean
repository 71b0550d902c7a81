import Verif.Regex.Func

/-! C136 to C139: String.match, RegExp.exec, search and test, and the making of RegExp objects. -/

namespace Verif.Regex

open Verif.Str (Bytes cstr)

/-! ### match -/

/-- null for no match, otherwise the array. -/
def asArr (l : List Bytes) : MOut := if l = [] then .null else .arr l

theorem matchLoop_listed {r : Rx} (hr : r.noM = true) (hne : NonEmpty r) {s : Bytes} (hs : NoNul s) :
    ∀ n p, p.length = n → ∀ i nb acc o, i ≤ s.length → p = s.drop i → nb = decide (0 < i) →
      ∃ l o', Listed r s i l ∧
        matchLoop (posix r) true true false p (p.length : Int) nb acc o = some (asArr (acc ++ l), o') := by
  intro n
  induction n using Nat.strongRecOn with
  | ind n ih =>
    intro p hn i nb acc o hi hp hnb
    have hpn : NoNul p := by rw [hp]; exact hs.drop _
    rw [matchLoop, cstr_noNul hpn]
    subst hp; subst hnb
    rcases posix_spec r (decide (0 < i)) (s.drop i) with ⟨a, b, h1, h2⟩ | ⟨h1, h2⟩
    · have hle := h2.2.2.1.le
      have hbd := h2.2.2.1.bound h2.2.1
      have hlt : a < b := by
        rcases Nat.lt_or_ge a b with h | h
        · exact h
        · have h3 := h2.2.2.1
          rw [show b = a by omega] at h3
          exact absurd h3 (hne _ _ _)
      have hF := first_shift hr hi h2
      have hpt : part (s.drop i) a b = part s (i + a) (i + b) := by
        rw [part, part, List.drop_drop]; congr 1; omega
      rw [h1]
      simp only
      have hin : Span.In ⟨a, b⟩ (s.drop i).length := ⟨by simp, by simp only; omega, by simp only; omega⟩
      rw [dif_pos (show 0 ≤ (a : Int) ∧ (a : Int) ≤ b ∧ (b : Int) ≤ (s.drop i).length from hin)]
      have hcol : collect (true && true) (s.drop i) none [⟨a, b⟩] = some [(part s (i + a) (i + b), (b : Int))] := by
        rw [collect, if_neg (by simp only; omega), if_neg (by simp), substrDup_eq hpn hin]
        simp [hpt]
      rw [hcol]
      simp only [List.map_cons, List.map_nil]
      rw [if_neg (by simp)]
      rw [List.length_drop] at hbd
      by_cases hd : s.length - i = b
      · rw [dif_neg (by rw [List.length_drop]; omega)]
        refine ⟨[part s (i + a) (i + b)], lastEnd o [(part s (i + a) (i + b), (b : Int))], .step _ _ _ _ hF (by omega) (.done _ ?_), ?_⟩
        · intro x y hx hy hm
          have := hm.bound hy
          have := hm.le
          have e : y = x := by omega
          rw [e] at hm
          exact hne _ _ _ hm
        · rw [asArr, if_neg (by simp)]
      · rw [dif_pos (by rw [List.length_drop]; omega)]
        have hlen : ((s.drop i).length : Int) - (b : Int) = (s.drop (i + b)).length := by
          rw [List.length_drop, List.length_drop]; omega
        obtain ⟨l, o', hl, hx⟩ := ih (s.drop (i + b)).length (by rw [List.length_drop, ← hn, List.length_drop]; omega)
          (s.drop (i + b)) rfl (i + b) true (acc ++ [part s (i + a) (i + b)])
          (lastEnd o [(part s (i + a) (i + b), (b : Int))]) (by omega) rfl (by simp; omega)
        refine ⟨_, o', .step _ _ _ _ hF (by omega) hl, ?_⟩
        rw [hlen, Int.toNat_natCast, List.drop_drop, hx]
        simp
    · rw [h1]
      exact ⟨[], o, .done _ (none_shift hr hi h2), by simp [asArr]⟩

/-- C136.  `s.match(re)` with the flag g is the array of all successive leftmost, longest matches, and null if there
is none; for every regular expression that matches no empty text and has no `^` with flag m, and every string without
NUL. -/
theorem C136_match_all_partial (r : Rx) (hr : r.noM = true) (hne : NonEmpty r) (s : Bytes) (hs : NoNul s) :
    ∃ l, Listed r s 0 l ∧ strMatch (posix r) true s = some (asArr l) := by
  obtain ⟨l, o, h1, h2⟩ := matchLoop_listed hr hne hs _ s rfl 0 false [] 0 (Nat.zero_le _) rfl rfl
  exact ⟨l, h1, by rw [strMatch, h2]; simp⟩

example : ∃ l, Listed exRx (asc "xabbya") 0 l ∧ strMatch (posix exRx) true (asc "xabbya") = some (asArr l) :=
  C136_match_all_partial exRx rfl exRx_nonEmpty _ (by unfold NoNul; decide)

example : strMatch (posix exRx) true (asc "xabbya") = some (.arr [asc "abb", asc "a"]) := by decide +kernel

/-- Spans in which every group took part, none is empty at the beginning of the text and none is the same as the
one before it. -/
def Distinct (n : Nat) : Option Span → List Span → Prop
  | _, [] => True
  | prev, g :: gs => g.In n ∧ 0 < g.eo ∧ prev ≠ some g ∧ Distinct n (some g) gs

theorem collect_distinct {p : Bytes} (hp : NoNul p) (k : Nat) : ∀ (l : List Span) (prev : Option Span),
    Distinct p.length prev l → collect false p prev (l ++ List.replicate k ⟨-1, -1⟩) =
      some (l.map fun g => (part p g.so.toNat g.eo.toNat, g.eo))
  | [], prev, _ => by
    cases k with
    | zero => rfl
    | succ k => rw [List.nil_append, List.replicate_succ, collect, if_pos (by decide)]; rfl
  | g :: gs, prev, h => by
    obtain ⟨h1, h2, h3, h4⟩ := h
    rw [List.cons_append, collect, if_neg (by omega), if_neg h3, substrDup_eq hp h1, Option.bind_some,
      collect_distinct hp k gs (some g) h4]
    simp

/-- C136.  Without the flag g, match returns the text of the first match followed by the texts of its groups; for
every engine, if all groups took part, none is empty at the beginning of the string and none is the same as the one
before it.  `k` entries behind the groups are unused. -/
theorem C136_match_first_partial (E : Engine) (s : Bytes) (hs : NoNul s) (m : Span) (gs : List Span) (k : Nat)
    (hE : E false s = .found (m :: gs ++ List.replicate k ⟨-1, -1⟩)) (hd : Distinct s.length none (m :: gs)) :
    strMatch E false s = some (.arr ((m :: gs).map fun g => part s g.so.toNat g.eo.toNat)) := by
  rw [strMatch, matchLoop, cstr_noNul hs, hE]
  obtain ⟨h1, h2, h3⟩ := hd.1
  simp only [List.cons_append]
  rw [dif_pos ⟨h1, h2, h3⟩]
  have := collect_distinct hs k (m :: gs) none hd
  rw [List.cons_append] at this
  rw [show (true && false) = false from rfl, this]
  simp only
  rw [if_pos (.inl (by simp))]
  simp

/-- C136, no match. -/
theorem C136_match_none (E : Engine) (glob : Bool) (s : Bytes) (hs : NoNul s) (hE : E false s = .miss) :
    strMatch E glob s = some .null := by
  rw [strMatch, matchLoop, cstr_noNul hs, hE]; rfl

/-- `/(a)(b)c/` on "xabc" -/
example : strMatch (fun _ s => if s = asc "xabc" then .found [⟨1, 4⟩, ⟨1, 2⟩, ⟨2, 3⟩, ⟨-1, -1⟩] else .miss) false
    (asc "xabc") = some (.arr [asc "abc", asc "a", asc "b"]) :=
  C136_match_first_partial _ _ (by unfold NoNul; decide) ⟨1, 4⟩ [⟨1, 2⟩, ⟨2, 3⟩] 1 (by decide)
    (by simp [Distinct, Span.In]; decide)

/-- C136.  An empty match at the beginning of the string gives an empty array: `"abc".match(/x*/)`, with and without
flag g. -/
theorem C136_empty_match_refuted (glob : Bool) :
    strMatch (posix (.star (lit 120))) glob (asc "abc") = some (.arr []) := by
  cases glob <;> decide +kernel

/-- C136.  A group with the same extent as the match (or the group before it) is left out: `"ab".match(/(ab)/)` is
["ab"] and not ["ab","ab"]; in general, whatever the text. -/
theorem C136_same_group_refuted (E : Engine) (s : Bytes) (hs : NoNul s) (m : Span) (hm : m.In s.length)
    (h0 : 0 < m.eo) (hE : E false s = .found [m, m]) :
    strMatch E false s = some (.arr [part s m.so.toNat m.eo.toNat]) := by
  obtain ⟨h1, h2, h3⟩ := hm
  rw [strMatch, matchLoop, cstr_noNul hs, hE]
  simp only
  rw [dif_pos ⟨h1, h2, h3⟩]
  have : collect false s none [m, m] = some [(part s m.so.toNat m.eo.toNat, m.eo)] := by
    rw [collect, if_neg (by omega), if_neg (by simp), substrDup_eq hs ⟨h1, h2, h3⟩, Option.bind_some,
      if_neg (by simp), collect, if_neg (by omega), if_pos rfl]
    rfl
  rw [show (true && false) = false from rfl, this]
  simp only
  rw [if_pos (.inl (by simp))]
  simp

/-- C136.  The groups behind one that took no part are lost: `"ab".match(/(x)?a(b)/)` is ["ab"]. -/
theorem C136_unused_group_refuted (E : Engine) (s : Bytes) (hs : NoNul s) (m : Span) (gs : List Span)
    (hm : m.In s.length) (h0 : 0 < m.eo) (hE : E false s = .found (m :: ⟨-1, -1⟩ :: gs)) :
    strMatch E false s = some (.arr [part s m.so.toNat m.eo.toNat]) := by
  obtain ⟨h1, h2, h3⟩ := hm
  rw [strMatch, matchLoop, cstr_noNul hs, hE]
  simp only
  rw [dif_pos ⟨h1, h2, h3⟩]
  have : collect false s none (m :: ⟨-1, -1⟩ :: gs) = some [(part s m.so.toNat m.eo.toNat, m.eo)] := by
    rw [collect, if_neg (by omega), if_neg (by simp), substrDup_eq hs ⟨h1, h2, h3⟩, Option.bind_some,
      if_neg (by simp), collect, if_pos (by decide)]
    rfl
  rw [show (true && false) = false from rfl, this]
  simp only
  rw [if_pos (.inl (by simp))]
  simp

/-! ### exec -/

/-- No `^` at all. -/
def Rx.noB : Rx → Bool
  | .seq a b => a.noB && b.noB
  | .alt a b => a.noB && b.noB
  | .star a => a.noB
  | .mbol => false
  | .bol => false
  | _ => true

theorem noM_of_noB : ∀ {r : Rx}, r.noB = true → r.noM = true
  | .seq a b, h => by
    simp only [Rx.noB, Bool.and_eq_true] at h
    simp [Rx.noM, noM_of_noB h.1, noM_of_noB h.2]
  | .alt a b, h => by
    simp only [Rx.noB, Bool.and_eq_true] at h
    simp [Rx.noM, noM_of_noB h.1, noM_of_noB h.2]
  | .star a, h => by simp only [Rx.noB] at h; simp [Rx.noM, noM_of_noB h]
  | .eps, _ => rfl
  | .set _, _ => rfl
  | .eol, _ => rfl
  | .meol, _ => rfl
  | .bol, h => by simp [Rx.noB] at h
  | .mbol, h => by simp [Rx.noB] at h

theorem Matches.anyStart {nb nb' s r i j} (hr : r.noB = true) (h : Matches nb s r i j) : Matches nb' s r i j := by
  induction h with
  | eps => exact .eps _
  | set f a c h hf => exact .set f a c h hf
  | seq x y a k b _ _ ih1 ih2 =>
    simp only [Rx.noB, Bool.and_eq_true] at hr; exact .seq _ _ _ _ _ (ih1 hr.1) (ih2 hr.2)
  | altL x y a b _ ih => simp only [Rx.noB, Bool.and_eq_true] at hr; exact .altL _ _ _ _ (ih hr.1)
  | altR x y a b _ ih => simp only [Rx.noB, Bool.and_eq_true] at hr; exact .altR _ _ _ _ (ih hr.2)
  | starNil => exact .starNil _ _
  | starCons x a k b _ _ ih1 ih2 => exact .starCons _ _ _ _ (ih1 hr) (ih2 hr)
  | bol => simp [Rx.noB] at hr
  | eol => exact .eol
  | mbol0 => simp [Rx.noB] at hr
  | mbolNl => simp [Rx.noB] at hr
  | meolEnd => exact .meolEnd
  | meolNl a h => exact .meolNl _ h

theorem FirstFrom.anyStart {nb nb' s r i a b} (hr : r.noB = true) (h : FirstFrom nb s r i a b) :
    FirstFrom nb' s r i a b :=
  ⟨h.1, h.2.1, h.2.2.1.anyStart hr, fun a' b' h1 h2 h3 => h.2.2.2.1 a' b' h1 h2 (h3.anyStart hr),
    fun b' h1 => h.2.2.2.2 b' (h1.anyStart hr)⟩

theorem NoneFrom.anyStart {nb nb' s r i} (hr : r.noB = true) (h : NoneFrom nb s r i) : NoneFrom nb' s r i :=
  fun a b h1 h2 h3 => h a b h1 h2 (h3.anyStart hr)

/-- Where the next call of exec on object `o` begins. -/
def Memo.at (w : Memo) (o : Nat) : Int := (w.prop o).getD w.shared

theorem exec_found {E : Engine} {p : Bytes} (hp : NoNul p) {m : Span} (hm : m.In p.length) (h0 : 0 < m.eo)
    (hE : E false p = .found [m]) (glob ofs : Bool) (h : ofs = true ∨ glob = false) (n : Int) :
    matchLoop E glob false ofs p n false [] 0 = some (.arr [part p m.so.toNat m.eo.toNat], m.eo) := by
  obtain ⟨h1, h2, h3⟩ := hm
  rw [matchLoop, cstr_noNul hp, hE]
  simp only
  rw [dif_pos ⟨h1, h2, h3⟩]
  have : collect (false && glob) p none [m] = some [(part p m.so.toNat m.eo.toNat, m.eo)] := by
    rw [collect, if_neg (by omega), if_neg (by simp), substrDup_eq hp ⟨h1, h2, h3⟩]
    rfl
  rw [this]
  simp only
  rw [if_pos (.inr ⟨by simp, h⟩)]
  simp [lastEnd]

/-- C137.  With the flag g, exec returns the first match that begins at lastIndex or later and sets lastIndex to its
end, or returns null and sets it to 0 if there is none.  For every regular expression without groups that matches no
empty text and has no `^`. -/
theorem C137_exec_next_partial (r : Rx) (hr : r.noB = true) (hne : NonEmpty r) (s : Bytes) (hs : NoNul s) (o : Nat)
    (w : Memo) (i : Nat) (hi : i ≤ s.length) (hw : w.at o = i) :
    (∀ a b, FirstFrom false s r i a b →
      ∃ w', exec (posix r) true o s w = some (.arr [part s a b], w') ∧ w'.at o = b) ∧
    (NoneFrom false s r i → ∃ w', exec (posix r) true o s w = some (.null, w') ∧ w'.at o = 0) := by
  have htext : execText s ((w.prop o).getD w.shared) = some (s.drop i) := by
    rw [Memo.at] at hw
    rw [execText, hw]
    split
    · rw [if_neg (by omega), Int.toNat_natCast]
    · rw [List.drop_of_length_le (by omega)]
  have hpn : NoNul (s.drop i) := hs.drop _
  have hM := noM_of_noB hr
  rw [exec, if_pos rfl, htext, Option.bind_some]
  rcases posix_spec r false (s.drop i) with ⟨a, b, h1, h2⟩ | ⟨h1, h2⟩
  · have hF := first_shift hM hi (h2.anyStart (nb' := decide (0 < i)) hr)
    have hle := h2.2.2.1.le
    have hbd := h2.2.2.1.bound h2.2.1
    have hlt : a < b := by
      rcases Nat.lt_or_ge a b with h | h
      · exact h
      · have h3 := h2.2.2.1
        rw [show b = a by omega] at h3
        exact absurd h3 (hne _ _ _)
    have hin : Span.In ⟨a, b⟩ (s.drop i).length := ⟨by simp, by simp only; omega, by simp only; omega⟩
    rw [exec_found hpn hin (by simp only; omega) h1 true true (.inl rfl)]
    constructor
    · intro a' b' hf
      obtain ⟨rfl, rfl⟩ := hF.unique hf
      have hpt : part (s.drop i) a b = part s (i + a) (i + b) := by
        rw [part, part, List.drop_drop]; congr 1; omega
      refine ⟨_, by simp only [Option.map_some]; rw [if_neg (by simp)]; rw [Int.toNat_natCast, Int.toNat_natCast, hpt], ?_⟩
      rw [Memo.at] at hw
      simp [Memo.at, Memo.set, hw]
    · intro hn; exact absurd hn hF.not_none
  · rw [matchLoop, cstr_noNul hpn, h1]
    constructor
    · intro a b hf
      exact absurd (none_shift hM hi (h2.anyStart (nb' := decide (0 < i)) hr)) hf.not_none
    · intro _
      refine ⟨Memo.set ⟨0, w.prop⟩ o 0, ?_, ?_⟩
      · simp
      · simp [Memo.at, Memo.set]

/-- Calling exec `n` times on one object and string: the results. -/
def execs (E : Engine) (o : Nat) (s : Bytes) : Nat → Memo → Option (List MOut)
  | 0, _ => some []
  | n + 1, w => (exec E true o s w).bind fun r => (execs E o s n r.2).map (r.1 :: ·)

/-- C137.  The loop `while (m = re.exec(s))` sees exactly the successive matches, one at a time, and ends. -/
theorem C137_exec_loop_partial (r : Rx) (hr : r.noB = true) (hne : NonEmpty r) (s : Bytes) (hs : NoNul s) (o : Nat)
    {l : List Bytes} {i : Nat} (hl : Listed r s i l) : ∀ (w : Memo), i ≤ s.length → w.at o = i →
      execs (posix r) o s (l.length + 1) w = some (l.map (fun t => .arr [t]) ++ [.null]) := by
  induction hl with
  | done i h =>
    intro w hi hw
    obtain ⟨w', h1, _⟩ := (C137_exec_next_partial r hr hne s hs o w i hi hw).2 h
    simp [execs, h1]
  | step i a b l hF hab _ ih =>
    intro w hi hw
    obtain ⟨w', h1, h2⟩ := (C137_exec_next_partial r hr hne s hs o w i hi hw).1 a b hF
    have hb := hF.2.2.1.bound hF.2.1
    have := ih w' hb h2
    rw [List.length_cons, execs, h1, Option.bind_some, this]
    simp
  | empty i a l hF => exact absurd hF.2.2.1 (hne _ _ _)
  | last i hF => exact absurd hF.2.2.1 (hne _ _ _)

/-- C137.  Once an object has a lastIndex of its own, calls of exec on other objects do not move it (before that it
follows the one all objects of the same text share, see `C137_shared_index_refuted`). -/
theorem C137_other_objects_partial (E : Engine) (glob : Bool) (o o' : Nat) (s : Bytes) (w w' : Memo) (out : MOut)
    (h : exec E glob o s w = some (out, w')) (ho : o' ≠ o) (hp : (w.prop o').isSome = true) :
    w'.prop o' = w.prop o' ∧ w'.at o' = w.at o' := by
  have key : w'.prop o' = w.prop o' := by
    unfold exec at h
    split at h
    · simp only [Option.bind_eq_some_iff, Option.map_eq_some_iff] at h
      obtain ⟨t, _, r, _, h3⟩ := h
      split at h3
      · simp only [Prod.mk.injEq] at h3
        rw [← h3.2]
      · simp only [Prod.mk.injEq] at h3
        rw [← h3.2]
        simp only [Memo.set, if_neg ho]
    · simp only [Option.bind_eq_some_iff, Option.map_eq_some_iff] at h
      obtain ⟨t, _, r, _, h3⟩ := h
      simp only [Prod.mk.injEq] at h3
      rw [← h3.2]
  refine ⟨key, ?_⟩
  unfold Memo.at
  rw [key]
  cases e : w.prop o' with
  | none => rw [e] at hp; simp at hp
  | some i => rfl

/-- C137, without the flag g: exec returns the first match and remembers nothing. -/
theorem C137_exec_first_partial (r : Rx) (hne : NonEmpty r) (s : Bytes) (hs : NoNul s) (o : Nat) (w : Memo)
    (hw : w.shared = 0) :
    (∀ a b, FirstFrom false s r 0 a b → exec (posix r) false o s w = some (.arr [part s a b], w)) ∧
    (NoneFrom false s r 0 → exec (posix r) false o s w = some (.null, w)) := by
  have htext : execText s w.shared = some s := by
    rw [execText, hw]
    split
    · rw [if_neg (by omega)]; rfl
    · have : s.length = 0 := by omega
      rw [List.length_eq_zero_iff.mp this]
  rw [exec, if_neg (by simp), htext, Option.bind_some]
  rcases posix_spec r false s with ⟨a, b, h1, h2⟩ | ⟨h1, h2⟩
  · have hle := h2.2.2.1.le
    have hbd := h2.2.2.1.bound h2.2.1
    have hlt : a < b := by
      rcases Nat.lt_or_ge a b with h | h
      · exact h
      · have h3 := h2.2.2.1
        rw [show b = a by omega] at h3
        exact absurd h3 (hne _ _ _)
    have hin : Span.In ⟨a, b⟩ s.length := ⟨by simp, by simp only; omega, by simp only; omega⟩
    rw [exec_found hs hin (by simp only; omega) h1 false false (.inr rfl)]
    refine ⟨?_, fun hn => absurd hn h2.not_none⟩
    intro a' b' hf
    obtain ⟨rfl, rfl⟩ := h2.unique hf
    simp
  · rw [matchLoop, cstr_noNul hs, h1]
    exact ⟨fun a b hf => absurd h2 hf.not_none, fun _ => rfl⟩

example : execs (posix exRx) 0 (asc "xabbya") 3 .fresh = some [.arr [asc "abb"], .arr [asc "a"], .null] :=
  C137_exec_loop_partial exRx rfl exRx_nonEmpty (asc "xabbya") (by unfold NoNul; decide) 0
    (l := [asc "abb", asc "a"]) (i := 0)
    (.step 0 1 4 _ (firstFrom_of_seek (by decide) (by decide +kernel)) (by decide)
      (.step 4 5 6 _ (firstFrom_of_seek (by decide) (by decide +kernel)) (by decide)
        (.done 6 (noneFrom_of_seek (by decide) (by decide +kernel))))) .fresh (by decide) rfl

/-- The result of exec without the memory. -/
def resOf (x : Option (MOut × Memo)) : Option MOut := x.map (·.1)

/-- C137.  `^` matches wherever the search goes on: `/^a/g` finds two matches in "aa" when exec is called
repeatedly. -/
theorem C137_line_start_refuted :
    execs (posix (.seq .bol (lit 97))) 0 (asc "aa") 3 .fresh = some [.arr [asc "a"], .arr [asc "a"], .null] ∧
    Listed (.seq .bol (lit 97)) (asc "aa") 0 [asc "a"] :=
  ⟨by decide +kernel, .step 0 0 1 _ (firstFrom_of_seek (by decide) (by decide +kernel)) (by decide)
    (.done 1 (noneFrom_of_seek (by decide) (by decide +kernel)))⟩

theorem execs_stuck (n : Nat) : ∀ w : Memo, w.at 0 = 0 →
    execs (posix (.star (lit 120))) 0 (asc "abc") n w = some (List.replicate n (.arr [])) := by
  have hm : matchLoop (posix (.star (lit 120))) true false true (asc "abc") (-1) false [] 0 = some (.arr [], 0) := by
    decide +kernel
  induction n with
  | zero => intro w _; rfl
  | succ n ih =>
    intro w hw
    have hx : exec (posix (.star (lit 120))) true 0 (asc "abc") w =
        some (.arr [], Memo.set ⟨0, w.prop⟩ 0 0) := by
      rw [Memo.at] at hw
      rw [exec, if_pos rfl, hw, show execText (asc "abc") 0 = some (asc "abc") from rfl, Option.bind_some, hm]
      simp
    rw [execs, hx, Option.bind_some, ih _ (by simp [Memo.at, Memo.set])]
    rfl

/-- C137.  A pattern that matches the empty text never lets the loop end: `/x*/g.exec("abc")` returns an empty array
every time. -/
theorem C137_empty_match_refuted (n : Nat) :
    execs (posix (.star (lit 120))) 0 (asc "abc") n .fresh = some (List.replicate n (.arr [])) :=
  execs_stuck n _ rfl

/-- What `/(a)b/` answers for two texts. -/
def groupEngine : Engine := fun _ s =>
  if s = asc "abxab" then .found [⟨0, 2⟩, ⟨0, 1⟩]
  else if s = asc "xab" then .found [⟨1, 3⟩, ⟨1, 2⟩]
  else .miss

/-- C137.  With groups exec returns the following matches too: the engine of `/(a)b/` on "abxab" gives
["ab","a","ab","a"], without flag g; with flag g the same, and lastIndex is 2 although the
last match ends at 5. -/
theorem C137_groups_refuted :
    resOf (exec groupEngine false 0 (asc "abxab") .fresh) = some (.arr [asc "ab", asc "a", asc "ab", asc "a"]) ∧
    (exec groupEngine true 0 (asc "abxab") .fresh).map (fun r => (r.1, r.2.at 0)) =
      some (.arr [asc "ab", asc "a", asc "ab", asc "a"], 2) := by
  constructor <;> decide +kernel

/-- C137.  A negative lastIndex reads memory before the string, whatever the pattern and the string. -/
theorem C137_negative_index_refuted (E : Engine) (o : Nat) (s : Bytes) (w : Memo) (i : Int) (hi : i < 0) :
    exec E true o s (w.set o i) = none := by
  rw [exec, if_pos rfl]
  have : (w.set o i).prop o = some i := by simp [Memo.set]
  rw [this, Option.getD_some, execText, if_pos (by omega), if_pos hi]
  rfl

/-- C137.  Two RegExp objects made from the same text share the position: after a match with the first, the second,
never used before, does not begin at the beginning: `/a/g.exec("ab")` gives ["a"] and a second `/a/g` gives null. -/
theorem C137_shared_index_refuted :
    resOf (exec (posix (lit 97)) true 0 (asc "ab") .fresh) = some (.arr [asc "a"]) ∧
    ((exec (posix (lit 97)) true 0 (asc "ab") .fresh).bind fun r =>
      resOf (exec (posix (lit 97)) true 1 (asc "ab") r.2)) = some .null := by
  constructor <;> decide +kernel

/-! ### search and test -/

/-- C138.  test says whether there is a match, and search where the first one begins (in bytes), or -1; for all
regular expressions and strings without NUL. -/
theorem C138_search_test_partial (r : Rx) (s : Bytes) (hs : NoNul s) :
    (∃ b, test (posix r) s = some b ∧ (b = true ↔ ∃ i j, i ≤ s.length ∧ Matches false s r i j)) ∧
    (∀ a b, FirstFrom false s r 0 a b → search (posix r) s = some a) ∧
    (NoneFrom false s r 0 → search (posix r) s = some (-1)) := by
  rw [test, search, cstr_noNul hs]
  rcases posix_spec r false s with ⟨a, b, h1, h2⟩ | ⟨h1, h2⟩
  · rw [h1]
    refine ⟨⟨true, rfl, by simp; exact ⟨a, h2.2.1, b, h2.2.2.1⟩⟩, ?_, fun h => absurd h h2.not_none⟩
    intro a' b' h3
    obtain ⟨rfl, rfl⟩ := h2.unique h3
    rfl
  · rw [h1]
    refine ⟨⟨false, rfl, by simp; intro i hi j hm; exact h2 i j (Nat.zero_le _) hi hm⟩, ?_, fun _ => rfl⟩
    intro a b h3
    exact absurd h2 h3.not_none

/-- C138.  The position counts bytes, not characters: `"éb".search(/b/)` is 2. -/
theorem C138_bytes_refuted : search (posix (lit 98)) ("éb".toUTF8.toList) = some 2 ∧
    "éb".toList.findIdx? (· = 'b') = some 1 := by
  constructor <;> decide +kernel

/-! ### new RegExp -/

theorem lastSlash_append : ∀ (a b : Bytes), (47 : UInt8) ∉ b → lastSlash (a ++ 47 :: b) = some (a, b)
  | [], b, h => by
    have hn : ∀ b : Bytes, (47 : UInt8) ∉ b → lastSlash b = none := by
      intro b
      induction b with
      | nil => intro _; rfl
      | cons c b ih =>
        intro h
        simp only [List.mem_cons, not_or] at h
        rw [lastSlash, ih h.2]
        simp only
        rw [if_neg (fun e => h.1 e.symm)]
    rw [List.nil_append, lastSlash, hn b h]; simp
  | c :: a, b, h => by rw [List.cons_append, lastSlash, lastSlash_append a b h]

/-- What the flags should be: those whose letter occurs. -/
def flagsOf (mods : Bytes) : Flags :=
  ⟨decide (105 ∈ mods), decide (103 ∈ mods), decide (109 ∈ mods), decide (115 ∈ mods)⟩

theorem foldl_flags : ∀ (mods : Bytes) (f : Flags), mods.foldl addFlag f =
    ⟨f.icase || decide (105 ∈ mods), f.glob || decide (103 ∈ mods), f.newline || decide (109 ∈ mods),
      f.dotNewline || decide (115 ∈ mods)⟩
  | [], f => by simp
  | c :: mods, f => by
    rw [List.foldl_cons, foldl_flags mods (addFlag f c)]
    unfold addFlag
    by_cases h1 : c = 105
    · subst h1; simp
    · by_cases h2 : c = 103
      · subst h2; simp
      · by_cases h3 : c = 109
        · subst h3; simp
        · by_cases h4 : c = 115
          · subst h4; simp
          · rw [if_neg h1, if_neg h2, if_neg h3, if_neg h4]
            simp [Ne.symm h1, Ne.symm h2, Ne.symm h3, Ne.symm h4]

/-- C139.  `new RegExp(text, flags)` compiles exactly the given text, slashes in it included, with exactly the given
flags, whatever their order; for all texts but the empty one and all flags without a slash. -/
theorem C139_construct_partial (txt mods : Bytes) (ht : NoNul txt) (hm : NoNul mods) (h0 : txt ≠ [])
    (hs : (47 : UInt8) ∉ mods) : construct txt mods = some (txt, flagsOf mods) := by
  have hn : NoNul ([47] ++ txt ++ [47] ++ mods) := by
    intro c hc
    simp only [List.mem_append, List.mem_singleton] at hc
    rcases hc with ((rfl | h) | rfl) | h
    · decide
    · exact ht c h
    · decide
    · exact hm c h
  rw [construct, cstr_noNul ht, cstr_noNul hm, cstr_noNul hn]
  have e : ([47] ++ txt ++ [47] ++ mods : Bytes) = 47 :: (txt ++ 47 :: mods) := by simp
  rw [e, parseText, if_neg (by simp), lastSlash_append _ _ hs, Option.bind_some, if_neg h0, foldl_flags]
  simp [flagsOf]

example : construct (asc "a/b") (asc "mg") = some (asc "a/b", ⟨false, true, true, false⟩) :=
  C139_construct_partial _ _ (by unfold NoNul; decide) (by unfold NoNul; decide) (by decide) (by decide)

/-- C139.  The empty pattern is refused, and a slash among the flags makes them part of the pattern:
`new RegExp("")` fails, `new RegExp("a", "g/i")` is `/a\/g/i`. -/
theorem C139_construct_refuted :
    (∀ mods : Bytes, NoNul mods → (47 : UInt8) ∉ mods → construct [] mods = none) ∧
    construct (asc "a") (asc "g/i") = some (asc "a/g", ⟨true, false, false, false⟩) := by
  refine ⟨?_, by decide +kernel⟩
  intro mods hm hs
  have hn : NoNul ([47] ++ [] ++ [47] ++ mods) := by
    intro c hc
    simp only [List.append_nil, List.mem_append, List.mem_singleton] at hc
    rcases hc with (rfl | rfl) | h
    · decide
    · decide
    · exact hm c h
  rw [construct, cstr_noNul hm, show cstr [] = [] from rfl, cstr_noNul hn]
  have e : ([47] ++ [] ++ [47] ++ mods : Bytes) = 47 :: ([] ++ 47 :: mods) := by simp
  rw [e, parseText, if_neg (by simp), lastSlash_append _ _ hs]
  simp

end Verif.Regex
