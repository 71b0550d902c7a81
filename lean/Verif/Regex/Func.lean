import Verif.Regex.Replace

/-! C135: String.replace with a function; and what goes wrong in replace. -/

namespace Verif.Regex

open Verif.Str (Bytes cstr)

/-- What the function is called with for a match with the spans `l` in `p`, which begins at `off` in `s`. -/
def argsOf (s : Bytes) (nsub params : Nat) (off : Int) (p : Bytes) : List Span → Args
  | [] => .one []
  | m :: l =>
    if params = 1 then .one (part p m.so.toNat m.eo.toNat)
    else .many (part p m.so.toNat m.eo.toNat) ((l.take nsub).map (Span.text p)) (off + m.so) s

/-- Replacing by what a function returns. -/
def byFn {σ : Type} (s : Bytes) (nsub params : Nat) (f : σ → Args → σ × Option Bytes) :
    σ → Int → Bytes → List Span → σ × Option Bytes :=
  fun st off p l => ((f st (argsOf s nsub params off p l)).1, (f st (argsOf s nsub params off p l)).2.map cstr)

theorem fgroup_eq {p : Bytes} (hp : NoNul p) {g : Span} (h : g = ⟨-1, -1⟩ ∨ g.In p.length) :
    fgroup p g = some (Span.text p g) := by
  rcases h with rfl | h
  · rfl
  · have := h.1
    rw [fgroup, if_neg (by omega), substrDup_eq hp h, Span.text, if_neg (by omega)]; rfl

theorem allSome_map {α β : Type} (f : α → Option β) (g : α → β) : ∀ l : List α, (∀ x ∈ l, f x = some (g x)) →
    allSome (l.map f) = some (l.map g)
  | [], _ => rfl
  | x :: l, h => by
    rw [List.map_cons, allSome, h x (by simp), allSome_map f g l (fun y hy => h y (List.mem_cons_of_mem _ hy))]; rfl

theorem subst_fn {σ : Type} {p : Bytes} (hp : NoNul p) {m l} (h : Good p.length m l) (hlt : m.so < m.eo)
    (nsub : Nat) (hn : nsub ≤ 252) (params : Nat) (f : σ → Args → σ × Option Bytes) (s : Bytes) (off : Int) (st : σ) :
    subst nsub (.fn params f) s p off m (m :: l) st = some (asOne (byFn s nsub params f st off p (m :: l))) := by
  have h1 := h.1.1
  simp only [subst]
  rw [callFn, if_neg (by omega), substrDup_eq hp h.1]
  have hg : allSome ((((m :: l).drop 1).take (min nsub 252)).map (fgroup p)) =
      some ((l.take nsub).map (Span.text p)) := by
    rw [List.drop_succ_cons, List.drop_zero, Nat.min_eq_left hn]
    exact allSome_map _ _ _ (fun x hx => fgroup_eq hp (h.2 x (List.mem_of_mem_take hx)))
  rw [hg]
  simp only [Option.bind_some]
  by_cases hp1 : params = 1
  · rw [if_pos hp1]
    simp only [Option.map_some, byFn, argsOf, if_pos hp1]
    cases hf : f st (.one (part p m.so.toNat m.eo.toNat)) with
    | mk st' t => cases t <;> rfl
  · rw [if_neg hp1]
    simp only [Option.map_some, byFn, argsOf, if_neg hp1]
    cases hf : f st (.many (part p m.so.toNat m.eo.toNat) ((l.take nsub).map (Span.text p)) (off + m.so) s) with
    | mk st' t => cases t <;> rfl

/-- C135.  A function given to replace with the flag g is called once for every match an engine finds, in order, with
the text of the match, of its groups (null for one that took no part), the offset and the string (or the match alone,
if it has one parameter); what it returns takes the place of the match; an error ends the call.  For every engine that
finds no empty match. -/
theorem C135_function_each {σ : Type} (E : Engine) (hE : Valid E) (hG : Eager E) (s : Bytes) (hs : NoNul s)
    (hl : s.length ≤ 10000000) (nsub : Nat) (hn : nsub ≤ 252) (params : Nat) (f : σ → Args → σ × Option Bytes)
    (st : σ) :
    ∃ chain rest, Chain E false s chain rest ∧
      replace E true nsub (.fn params f) s st =
        some (outcome [] rest (applyAll (byFn s nsub params f) chain 0 st)) := by
  obtain ⟨chain, rest, hc, hr⟩ := replLoop_chain E hE hG nsub (.fn params f) s (byFn s nsub params f)
    (fun p m l off st hp' hg hlt => subst_fn hp' hg hlt nsub hn params f s off st) _ s rfl 0 0 false [] st hs
    (by rw [maxMatches]; omega)
  exact ⟨chain, rest, hc, by rw [replace, hr]⟩

/-- Calling `f` for every successive match of `r` in `s` from position `i` on: the state at the end, and the resulting
text unless a call failed. -/
inductive Called {σ : Type} (r : Rx) (s : Bytes) (f : σ → Args → σ × Option Bytes) :
    Nat → σ → σ → Option Bytes → Prop where
  | done (i st) : NoneFrom false s r i → Called r s f i st st (some (s.drop i))
  | fail (i a b st st') : FirstFrom false s r i a b → a < b → f st (.many (part s a b) [] a s) = (st', none) →
      Called r s f i st st' none
  | step (i a b st st' st'' t u) : FirstFrom false s r i a b → a < b →
      f st (.many (part s a b) [] a s) = (st', some t) → Called r s f b st' st'' u →
      Called r s f i st st'' (u.map (part s i a ++ cstr t ++ ·))

theorem called_of_chain {σ : Type} {r : Rx} (hr : r.noM = true) (hne : NonEmpty r) {s : Bytes} (nsub params : Nat)
    (hp1 : params ≠ 1) (f : σ → Args → σ × Option Bytes) {nb : Bool} {p rest : Bytes}
    {chain : List (Bytes × List Span)} (h : Chain (posix r) nb p chain rest) :
    ∀ (i : Nat) (st : σ), i ≤ s.length → p = s.drop i → nb = decide (0 < i) →
      Called r s f i st (applyAll (byFn s nsub params f) chain i st).1
        ((applyAll (byFn s nsub params f) chain i st).2.map (· ++ rest)) := by
  induction h with
  | done nb p he =>
    intro i st hi hp hnb
    subst hp; subst hnb
    rcases posix_spec r (decide (0 < i)) (s.drop i) with ⟨a, b, h1, _⟩ | ⟨_, h2⟩
    · rw [h1] at he; cases he
    · simp only [applyAll, Option.map_some, List.nil_append]
      exact .done _ _ (none_shift hr hi h2)
  | step nb p m l cs rest he _ ih =>
    intro i st hi hp hnb
    subst hp; subst hnb
    rcases posix_spec r (decide (0 < i)) (s.drop i) with ⟨a, b, h1, h2⟩ | ⟨h1, _⟩
    · rw [h1] at he
      simp only [Res.found.injEq, List.cons.injEq] at he
      obtain ⟨rfl, rfl⟩ := he
      have hle := h2.2.2.1.le
      have hbd := h2.2.2.1.bound h2.2.1
      rw [List.length_drop] at hbd
      have hlt : a < b := by
        rcases Nat.lt_or_ge a b with h | h
        · exact h
        · have h3 := h2.2.2.1
          rw [show b = a by omega] at h3
          exact absurd h3 (hne _ _ _)
      have hpt : part (s.drop i) a b = part s (i + a) (i + b) := by
        rw [part, part, List.drop_drop]; congr 1; omega
      have hargs : argsOf s nsub params i (s.drop i) [⟨a, b⟩] = .many (part s (i + a) (i + b)) [] (i + a : Nat) s := by
        simp only [argsOf, if_neg hp1, Int.toNat_natCast, hpt]
        simp
      have hF := first_shift hr hi h2
      simp only [applyAll, byFn, hargs]
      cases hf : f st (.many (part s (i + a) (i + b)) [] (i + a : Nat) s) with
      | mk st' t =>
        cases t with
        | none => exact .fail _ _ _ _ _ hF (by omega) hf
        | some t =>
          have := ih (i + b) st' (by omega) (by simp) (by simp; omega)
          simp only [Option.map_some]
          have h4 := Called.step _ _ _ _ _ _ _ _ hF (by omega) hf this
          rw [show ((i : Int) + (b : Int)) = ((i + b : Nat) : Int) by simp]
          change Called r s f i st
            (match applyAll (byFn s nsub params f) cs ((i + b : Nat) : Int) st' with
              | (st, none) => (st, none)
              | (st, some u) => (st, some (List.take (Int.toNat (a : Int)) (s.drop i) ++ cstr t ++ u))).1
            ((match applyAll (byFn s nsub params f) cs ((i + b : Nat) : Int) st' with
              | (st, none) => (st, none)
              | (st, some u) => (st, some (List.take (Int.toNat (a : Int)) (s.drop i) ++ cstr t ++ u))).2.map (· ++ rest))
          cases hx : applyAll (byFn s nsub params f) cs ((i + b : Nat) : Int) st' with
          | mk st2 u =>
            rw [hx] at h4
            cases u with
            | none => exact h4
            | some u =>
              simp only [Option.map_some] at h4 ⊢
              have e : List.take (Int.toNat (a : Int)) (s.drop i) ++ cstr t ++ u ++ rest =
                  part s i (i + a) ++ cstr t ++ (u ++ rest) := by
                simp only [part, Int.toNat_natCast, List.append_assoc]; congr 2; omega
              rw [e]; exact h4
    · rw [h1] at he; cases he

/-- C135.  With the flag g, for every regular expression that matches no empty text and has no `^` with flag m: the
function is called for exactly the successive matches in the string, in order, each time with the text and the offset
of the match and the string, and its results take their places. -/
theorem C135_function_all_partial {σ : Type} (r : Rx) (hr : r.noM = true) (hne : NonEmpty r) (s : Bytes)
    (hs : NoNul s) (hl : s.length ≤ 10000000) (nsub : Nat) (hn : nsub ≤ 252) (params : Nat) (hp1 : params ≠ 1)
    (f : σ → Args → σ × Option Bytes) (st : σ) :
    ∃ st' out, Called r s f 0 st st' out ∧
      replace (posix r) true nsub (.fn params f) s st =
        some (match out with | some t => .str st' t | none => .err st') := by
  obtain ⟨chain, rest, hc, h⟩ := C135_function_each (posix r) (posix_valid r) (posix_eager hne) s hs hl nsub hn
    params f st
  refine ⟨_, _, called_of_chain hr hne nsub params hp1 f hc 0 st (Nat.zero_le _) rfl rfl, ?_⟩
  rw [h]
  change some (outcome [] rest (applyAll (byFn s nsub params f) chain 0 st)) = _
  simp only [Int.natCast_zero]
  cases hx : applyAll (byFn s nsub params f) chain 0 st with
  | mk st2 u => cases u <;> simp [outcome]

/-! ### A non-trivial case -/

/-- The character `c`. -/
def lit (c : UInt8) : Rx := .set (fun x => decide (x = c))

/-- `ab*` -/
def exRx : Rx := .seq (lit 97) (.star (lit 98))

theorem exRx_nonEmpty : NonEmpty exRx := by
  intro nb s i h
  cases h with
  | seq _ _ _ k _ h1 h2 =>
    cases h1 with
    | set => have := h2.le; omega

/-- `"xabbya".replace(/ab*/g, "<$&>")` -/
example : ∃ out, replace (posix exRx) true 0 (.text (asc "<$&>")) (asc "xabbya") () = some (.str () out) ∧
    Replaced exRx (asc "xabbya") (fun a b => meanOf (asc "xabbya") [⟨a, b⟩]
      [.byte 60 (by decide), .whole, .byte 62 (by decide)]) 0 out := by
  have := C134_replace_all_partial (σ := Unit) exRx rfl exRx_nonEmpty (asc "xabbya") (by unfold NoNul; decide) (by decide)
    [.byte 60 (by decide), .whole, .byte 62 (by decide)] (by unfold NoNul; decide)
    (by intro x hx; simp at hx; rcases hx with rfl | rfl | rfl <;> simp) 0 ()
  exact this

/-- The result as a string. -/
def ROut.text? {σ : Type} : Option (ROut σ) → Option Bytes
  | some (.str _ t) => some t
  | _ => none

example : ROut.text? (replace (posix exRx) true 0 (.text (asc "<$&>")) (asc "xabbya") ()) = some (asc "x<abb>y<a>") := by
  decide +kernel

/-! ### What goes wrong -/

/-- C133.  A `$` at the end of a template adds a NUL byte to the result:
`"abc".replace(/b/, "x$")` is "ax$\0c". -/
theorem C133_dollar_at_end_refuted :
    ROut.text? (replace (posix (lit 98)) false 0 (.text (asc "x$")) (asc "abc") ()) =
      some ([97, 120, 36, 0, 99] : Bytes) := by
  decide +kernel

/-- C134.  After an empty match at the place where the search began, replace stops:
`"abc".replace(/x*/g, "-")` is "-abc"; the right result is "-a-b-c-". -/
theorem C134_empty_match_refuted :
    ROut.text? (replace (posix (.star (lit 120))) true 0 (.text (asc "-")) (asc "abc") ()) = some (asc "-abc") ∧
    Replaced (.star (lit 120)) (asc "abc") (fun _ _ => asc "-") 0 (asc "-a-b-c-") ∧
    ¬ Replaced (.star (lit 120)) (asc "abc") (fun _ _ => asc "-") 0 (asc "-abc") := by
  have h : Replaced (.star (lit 120)) (asc "abc") (fun _ _ => asc "-") 0 (asc "-a-b-c-") := by
    have h3 : Replaced (.star (lit 120)) (asc "abc") (fun _ _ => asc "-") 3 (asc "-") :=
      .last 3 (firstFrom_of_seek (by decide) (by decide +kernel))
    have h2 : Replaced (.star (lit 120)) (asc "abc") (fun _ _ => asc "-") 2 (asc "-c-") :=
      .empty 2 2 _ (firstFrom_of_seek (by decide) (by decide +kernel)) (by decide) h3
    have h1 : Replaced (.star (lit 120)) (asc "abc") (fun _ _ => asc "-") 1 (asc "-b-c-") :=
      .empty 1 1 _ (firstFrom_of_seek (by decide) (by decide +kernel)) (by decide) h2
    exact .empty 0 0 _ (firstFrom_of_seek (by decide) (by decide +kernel)) (by decide) h1
  exact ⟨by decide +kernel, h, fun h' => absurd (h.unique h') (by decide)⟩

/-- C134.  With the flag m, `^` does not match behind a newline that was part of the match before:
`"a\nb".replace(/a\n|^b/gm, "-")` is "-b"; the right result is "--". -/
theorem C134_line_start_refuted :
    ROut.text? (replace (posix (.alt (.seq (lit 97) (lit 10)) (.seq .mbol (lit 98)))) true 0 (.text (asc "-"))
      (asc "a\nb") ()) = some (asc "-b") ∧
    Replaced (.alt (.seq (lit 97) (lit 10)) (.seq .mbol (lit 98))) (asc "a\nb") (fun _ _ => asc "-") 0 (asc "--") ∧
    ¬ Replaced (.alt (.seq (lit 97) (lit 10)) (.seq .mbol (lit 98))) (asc "a\nb") (fun _ _ => asc "-") 0 (asc "-b") := by
  have h : Replaced (.alt (.seq (lit 97) (lit 10)) (.seq .mbol (lit 98))) (asc "a\nb") (fun _ _ => asc "-") 0
      (asc "--") := by
    have h3 : Replaced (.alt (.seq (lit 97) (lit 10)) (.seq .mbol (lit 98))) (asc "a\nb") (fun _ _ => asc "-") 3 [] :=
      .done 3 (noneFrom_of_seek (by decide) (by decide +kernel))
    have h2 : Replaced (.alt (.seq (lit 97) (lit 10)) (.seq .mbol (lit 98))) (asc "a\nb") (fun _ _ => asc "-") 2
        (asc "-") := .step 2 2 3 _ (firstFrom_of_seek (by decide) (by decide +kernel)) (by decide) h3
    exact .step 0 0 2 _ (firstFrom_of_seek (by decide) (by decide +kernel)) (by decide) h2
  exact ⟨by decide +kernel, h, fun h' => absurd (h.unique h') (by decide)⟩

/-- C134.  With the flag g, `` $` `` is only what lies between the match before and this one:
``"abcb".replace(/b/g, "$`")`` is "aacc"; the right result is "aacabc". -/
theorem C134_text_before_refuted :
    ROut.text? (replace (posix (lit 98)) true 0 (.text (asc "$`")) (asc "abcb") ()) = some (asc "aacc") ∧
    Replaced (lit 98) (asc "abcb") (fun a b => meanOf (asc "abcb") [⟨a, b⟩] [.before]) 0 (asc "aacabc") := by
  refine ⟨by decide +kernel, ?_⟩
  have h4 : Replaced (lit 98) (asc "abcb") (fun a b => meanOf (asc "abcb") [⟨a, b⟩] [.before]) 4 [] :=
    .done 4 (noneFrom_of_seek (by decide) (by decide +kernel))
  have h2 : Replaced (lit 98) (asc "abcb") (fun a b => meanOf (asc "abcb") [⟨a, b⟩] [.before]) 2 (asc "cabc") :=
    .step 2 3 4 _ (firstFrom_of_seek (by decide) (by decide +kernel)) (by decide) h4
  exact .step 0 1 2 _ (firstFrom_of_seek (by decide) (by decide +kernel)) (by decide) h2

theorem posix_letter (c : UInt8) (nb : Bool) (s : Bytes) : posix (lit c) nb (c :: s) = .found [⟨0, 1⟩] := by
  rcases posix_spec (lit c) nb (c :: s) with ⟨a, b, h1, h2⟩ | ⟨_, h⟩
  · have hm : Matches nb (c :: s) (lit c) 0 1 := .set _ 0 c rfl (by simp)
    have h3 := h2.2.2.2.1 0 1 (Nat.le_refl _) (Nat.zero_le _) hm
    have h0 : a = 0 := by omega
    subst h0
    have h4 := h2.2.2.1
    cases h4
    rw [h1]; rfl
  · exact absurd (Matches.set _ 0 c rfl (by simp)) (h 0 1 (Nat.le_refl _) (Nat.zero_le _))

theorem letters_fail {σ : Type} (t : Bytes) (ht : (36 : UInt8) ∉ cstr t) (s : Bytes) (st : σ) :
    ∀ n k off nb out, k ≤ maxMatches → maxMatches < k + n →
      replLoop (posix (lit 97)) true 0 (.text t) s k (List.replicate (n + 1) 97) off nb out st = some (.err st) := by
  intro n
  induction n with
  | zero => intros; omega
  | succ n ih =>
    intro k off nb out hk hn
    have hc : NoNul (List.replicate (n + 2) (97 : UInt8)) := by
      intro c hc; rw [List.eq_of_mem_replicate hc]; decide
    rw [replLoop, if_neg (by omega), cstr_noNul hc, List.replicate_succ, posix_letter]
    simp only
    rw [dif_pos ⟨by decide, by decide, by simp; omega⟩]
    simp only [subst, if_neg ht]
    rw [dif_neg (by simp)]
    change replLoop (posix (lit 97)) true 0 (.text t) s (k + 1) (List.replicate (n + 1) 97) _ true _ st = _
    rcases Nat.lt_or_ge k maxMatches with h | h
    · exact ih _ _ _ _ (by omega) (by omega)
    · rw [replLoop, if_pos (by omega)]

/-- C134.  A string with more than 10000001 matches cannot be replaced: the call fails. -/
theorem C134_many_matches_refuted {σ : Type} (n : Nat) (hn : 10000001 < n) (t : Bytes) (ht : (36 : UInt8) ∉ cstr t)
    (st : σ) : replace (posix (lit 97)) true 0 (.text t) (List.replicate n 97) st = some (.err st) := by
  obtain ⟨m, rfl⟩ : ∃ m, n = m + 1 := ⟨n - 1, by omega⟩
  exact letters_fail t ht _ st m 0 0 false [] (Nat.zero_le _) (by rw [maxMatches]; omega)

/-- C135.  A function is not called for an empty match at the place where the search began, not even without flag g:
`"abc".replace(/x*/, f)` is "abc" and `f` is never called; the template "-" gives "-abc". -/
theorem C135_empty_match_refuted (f : Nat → Args → Nat × Option Bytes) :
    replace (posix (.star (lit 120))) false 0 (.fn 2 f) (asc "abc") 0 = some (.str 0 (asc "abc")) ∧
    ROut.text? (replace (posix (.star (lit 120))) false 0 (.text (asc "-")) (asc "abc") ()) = some (asc "-abc") := by
  refine ⟨?_, by decide +kernel⟩
  have hp : posix (.star (lit 120)) false (cstr (asc "abc")) = .found [⟨0, 0⟩] := by decide +kernel
  rw [replace, replLoop, if_neg (by decide), hp]
  simp only
  rw [dif_pos ⟨by decide, by decide, by simp⟩]
  simp only [subst, callFn]
  rw [if_pos ⟨by decide, by decide⟩]
  rfl

end Verif.Regex
