import Verif.Regex.Match

/-! C140: nothing outside the string is read, and every call ends. -/

namespace Verif.Regex

open Verif.Str (Bytes cstr)

theorem rd_some {p : Bytes} {so eo : Int} (h : 0 ≤ so ∧ so ≤ eo ∧ eo ≤ (cstr p).length) : (rd p so eo).isSome = true := by
  rw [rd, if_pos h]; rfl

theorem tgroup_some {p : Bytes} {m l} (h : Good (cstr p).length m l) (k : Nat) : (tgroup p (m :: l) k).isSome = true := by
  rw [tgroup]
  cases hg : (m :: l)[k]? with
  | none => rfl
  | some g =>
    simp only
    rcases h.get hg with rfl | hi
    · rfl
    · split
      · exact rd_some hi
      · rfl

theorem tdollar_some {p : Bytes} {m l} (h : Good (cstr p).length m l) (c : UInt8) :
    (tdollar p m (m :: l) c).isSome = true := by
  obtain ⟨h1, h2, h3⟩ := h.1
  rw [tdollar]
  split
  · exact tgroup_some h _
  · split
    · exact tgroup_some h _
    · split
      · rfl
      · split
        · rw [tpost]
          split
          · exact rd_some ⟨by omega, by omega, by omega⟩
          · exact rd_some ⟨by omega, by omega, by omega⟩
        · split
          · exact rd_some ⟨by omega, by omega, by omega⟩
          · rfl

theorem expand_some {p : Bytes} {m l} (h : Good (cstr p).length m l) (t : Bytes) :
    (expand p m (m :: l) t).isSome = true := by
  fun_induction expand p m (m :: l) t with
  | case1 => rfl
  | case2 c => rfl
  | case3 d r ih =>
    obtain ⟨a, ha⟩ := Option.isSome_iff_exists.mp (tdollar_some h d)
    obtain ⟨b, hb⟩ := Option.isSome_iff_exists.mp ih
    rw [ha, hb]; rfl
  | case4 c d r hc ih =>
    obtain ⟨b, hb⟩ := Option.isSome_iff_exists.mp ih
    rw [hb]; rfl

theorem substrDup_some {p : Bytes} {so len : Int} (h : 0 ≤ so) : ∃ t, Utf8.substrDup p so len = some t := by
  rw [Utf8.substrDup]
  split
  · exact ⟨_, rfl⟩
  · rw [if_neg (by omega)]
    simp only
    split
    · exact ⟨_, rfl⟩
    · exact ⟨_, rfl⟩

theorem allSome_some {α : Type} : ∀ {l : List (Option α)}, (∀ x ∈ l, ∃ y, x = some y) → ∃ r, allSome l = some r
  | [], _ => ⟨[], rfl⟩
  | x :: l, h => by
    obtain ⟨y, rfl⟩ := h x (by simp)
    obtain ⟨r, hr⟩ := allSome_some (l := l) (fun z hz => h z (List.mem_cons_of_mem _ hz))
    exact ⟨y :: r, by rw [allSome, hr]; rfl⟩

theorem subst_some {σ : Type} {p : Bytes} {m l} (h : Good (cstr p).length m l) (nsub : Nat) (r : Repl σ) (s : Bytes)
    (off : Int) (st : σ) : ∃ x, subst nsub r s p off m (m :: l) st = some x := by
  cases r with
  | text t =>
    simp only [subst]
    split
    · obtain ⟨b, hb⟩ := Option.isSome_iff_exists.mp (expand_some h t)
      rw [hb]; exact ⟨_, rfl⟩
    · exact ⟨_, rfl⟩
  | fn params f =>
    simp only [subst, callFn]
    split
    · exact ⟨_, rfl⟩
    · obtain ⟨t, ht⟩ := substrDup_some (p := cstr p) (so := m.so) (len := m.eo - m.so) h.1.1
      rw [ht]
      obtain ⟨g, hg⟩ := allSome_some (l := (((m :: l).drop 1).take (min nsub 252)).map (fgroup p)) (by
        intro x hx
        obtain ⟨y, hy, rfl⟩ := List.mem_map.mp hx
        have hy' := List.mem_of_mem_take hy
        rw [fgroup]
        split
        · exact ⟨_, rfl⟩
        · rename_i hge
          obtain ⟨t, ht⟩ := substrDup_some (p := cstr p) (so := y.so) (len := y.eo - y.so) (by omega)
          rw [ht]; exact ⟨_, rfl⟩)
      rw [hg]
      simp only [Option.bind_some]
      split
      · exact ⟨_, rfl⟩
      · exact ⟨_, rfl⟩

/-- C140.  replace never touches memory outside the string and always ends; for every engine that keeps to the
conventions of `regexec`, every string (NUL bytes included), every template and function. -/
theorem C140_replace_safe {σ : Type} (E : Engine) (hE : Valid E) (glob : Bool) (nsub : Nat) (r : Repl σ) (s : Bytes)
    (st : σ) : replace E glob nsub r s st ≠ none := by
  have key : ∀ n p, p.length = n → ∀ k off nb out st, replLoop E glob nsub r s k p off nb out st ≠ none := by
    intro n
    induction n using Nat.strongRecOn with
    | ind n ih =>
      intro p hn k off nb out st
      rw [replLoop]
      split
      · simp
      · cases he : E nb (cstr p) with
        | fail => simp
        | miss => simp
        | found L =>
          obtain ⟨m, l, rfl, hm, hg⟩ := hE.found _ _ _ he
          have hin : 0 ≤ m.so ∧ m.so ≤ m.eo ∧ m.eo ≤ (cstr p).length := hm
          simp only
          rw [dif_pos hin]
          obtain ⟨x, hx⟩ := subst_some ⟨hm, hg⟩ nsub r s off st
          rw [hx]
          cases x with
          | put st' t =>
            simp only
            split
            · simp
            · rename_i hs
              have hc : (cstr p).length ≤ p.length := (List.takeWhile_sublist _).length_le
              exact ih _ (by rw [List.length_drop]; omega) _ rfl _ _ _ _ _
          | stop => simp
          | err st' => simp
  exact key _ s rfl _ _ _ _ _

theorem collect_some {str : Bytes} {n : Nat} (one : Bool) : ∀ (l : List Span) (prev : Option Span),
    (∀ g ∈ l, g = ⟨-1, -1⟩ ∨ g.In n) → ∃ r, collect one str prev l = some r
  | [], _, _ => ⟨[], rfl⟩
  | g :: l, prev, h => by
    rw [collect]
    split
    · exact ⟨_, rfl⟩
    · rename_i hg
      split
      · exact collect_some one l _ (fun x hx => h x (List.mem_cons_of_mem _ hx))
      · rcases h g (by simp) with rfl | hi
        · exact absurd (by decide) hg
        · obtain ⟨t, ht⟩ := substrDup_some (p := cstr str) (so := g.so) (len := g.eo - g.so) hi.1
          rw [ht, Option.bind_some]
          split
          · exact ⟨_, rfl⟩
          · obtain ⟨r, hr⟩ := collect_some (str := str) one l (some g) (fun x hx => h x (List.mem_cons_of_mem _ hx))
            rw [hr]; exact ⟨_, rfl⟩

theorem matchLoop_safe (E : Engine) (hE : Valid E) (glob mtch ofs : Bool) :
    ∀ n p, p.length = n → ∀ k nb acc o, matchLoop E glob mtch ofs p k nb acc o ≠ none := by
  intro n
  induction n using Nat.strongRecOn with
  | ind n ih =>
    intro p hn k nb acc o
    rw [matchLoop]
    cases he : E nb (cstr p) with
    | fail => simp
    | miss => simp
    | found L =>
      obtain ⟨m, l, rfl, hm, hg⟩ := hE.found _ _ _ he
      have hin : 0 ≤ m.so ∧ m.so ≤ m.eo ∧ m.eo ≤ (cstr p).length := hm
      simp only
      rw [dif_pos hin]
      obtain ⟨x, hx⟩ := collect_some (str := p) (n := (cstr p).length) (mtch && glob) (m :: l) none (by
        intro g hgm
        rcases List.mem_cons.mp hgm with rfl | h'
        · exact .inr hm
        · exact hg g h')
      rw [hx]
      simp only
      split
      · simp
      · split
        · rename_i hs
          have hc : (cstr p).length ≤ p.length := (List.takeWhile_sublist _).length_le
          exact ih _ (by rw [List.length_drop]; omega) _ rfl _ _ _ _
        · simp

/-- C140.  The same for match, and for exec unless lastIndex is negative. -/
theorem C140_match_safe_partial (E : Engine) (hE : Valid E) (glob : Bool) (s : Bytes) :
    strMatch E glob s ≠ none ∧ ∀ o w, 0 ≤ w.at o → 0 ≤ w.shared → exec E glob o s w ≠ none := by
  constructor
  · rw [strMatch]
    cases h : matchLoop E glob true false s s.length false [] 0 with
    | none => exact absurd h (matchLoop_safe E hE _ _ _ _ s rfl _ _ _ _)
    | some x => simp
  · intro o w h1 h2
    have ht : ∀ i : Int, 0 ≤ i → ∃ t, execText s i = some t := by
      intro i hi
      rw [execText]
      split
      · rw [if_neg (by omega)]; exact ⟨_, rfl⟩
      · exact ⟨_, rfl⟩
    rw [exec]
    split
    · obtain ⟨t, ht⟩ := ht _ h1
      rw [Memo.at] at ht
      rw [ht, Option.bind_some]
      cases h : matchLoop E true false true t (-1) false [] 0 with
      | none => exact absurd h (matchLoop_safe E hE _ _ _ _ t rfl _ _ _ _)
      | some x => simp
    · obtain ⟨t, ht⟩ := ht _ h2
      rw [ht, Option.bind_some]
      cases h : matchLoop E false false false t (-1) false [] 0 with
      | none => exact absurd h (matchLoop_safe E hE _ _ _ _ t rfl _ _ _ _)
      | some x => simp

example : replace (posix exRx) true 0 (.text (asc "$1$'$")) ([97, 0, 98] : Bytes) () ≠ none :=
  C140_replace_safe _ (posix_valid _) _ _ _ _ _

end Verif.Regex
