import Verif.Web.SsiDir

/-! A page is evaluated to its meaning. -/

namespace Verif.Web

variable (E : Env) (ev : Str → UD → Res) (dir : Str)

theorem doCond_if (st : St) (c : Cond) (hc : c.ok) {st1 : St} (hp : pushIf st = some st1) {b : Bool}
    (hb : c.holds E.query st1.ud = some b) :
    doCond E st (35 :: ifText c) = .go { st1 with top := setIf b st1.top } := by
  have e : (35 :: ifText c : Str) = (asc "#if expr=\"" ++ (36 :: 123 :: (c.mods.map Mod.char ++ c.name))) ++ [125, 34] := by
    simp [ifText, r_if, a_if10, Cond.render]
  have e2 : (35 :: ifText c : Str) = (asc "#if expr=\"" ++ c.render) ++ [34] := by simp [ifText, r_if, a_if10]
  have h10 : (asc "#if expr=\"").length = 10 := by decide +kernel
  unfold doCond
  rw [if_neg (by
    rintro (h | h | h)
    · rw [e] at h
      simp [h10] at h
      omega
    · rw [e2, at0_last] at h
      exact h rfl
    · rw [e, at0_last2] at h
      exact absurd h (by decide))]
  have hn : ¬ at0 (35 :: ifText c) 1 = 101 := by simp [ifText, r_if, at0]
  have hd : (35 :: ifText c : Str).dropLast.drop 10 = c.render := by
    rw [e2, List.dropLast_concat, ← h10, List.drop_left]
  simp only [hn, if_false, hd, hp]
  rw [cond_eq E st1 c hc hb]
  simp

theorem doCond_required (st : St) (c : Cond) (hc : c.ok) {st1 : St} (hp : pushIf st = some st1) 
    (hr : .required ∈ c.mods) (hm : st1.top.matched = false) (hv : c.value E.query st1.ud = none) :
    doCond E st (35 :: ifText c) = .stop .err st1 := by
  have e : (35 :: ifText c : Str) = (asc "#if expr=\"" ++ (36 :: 123 :: (c.mods.map Mod.char ++ c.name))) ++ [125, 34] := by
    simp [ifText, r_if, a_if10, Cond.render]
  have e2 : (35 :: ifText c : Str) = (asc "#if expr=\"" ++ c.render) ++ [34] := by simp [ifText, r_if, a_if10]
  have h10 : (asc "#if expr=\"").length = 10 := by decide +kernel
  unfold doCond
  rw [if_neg (by
    rintro (h | h | h)
    · rw [e] at h
      simp [h10] at h
      omega
    · rw [e2, at0_last] at h
      exact h rfl
    · rw [e, at0_last2] at h
      exact absurd h (by decide))]
  have hn : ¬ at0 (35 :: ifText c) 1 = 101 := by simp [ifText, r_if, at0]
  have hd : (35 :: ifText c : Str).dropLast.drop 10 = c.render := by
    rw [e2, List.dropLast_concat, ← h10, List.drop_left]
  simp only [hn, if_false, hd, hp]
  rw [cond_required E st1 c hc hr hm hv]

theorem doCond_elif (st : St) (c : Cond) (hc : c.ok) (hi : st.top.inif = true) {b : Bool}
    (hb : c.holds E.query st.ud = some b) :
    doCond E st (35 :: elifText c) = .go { st with top := setElif b st.top st.below } := by
  have e : (35 :: elifText c : Str) = (asc "#elif expr=\"" ++ (36 :: 123 :: (c.mods.map Mod.char ++ c.name))) ++ [125, 34] := by
    simp [elifText, r_elif, a_elif12, Cond.render]
  have e2 : (35 :: elifText c : Str) = (asc "#elif expr=\"" ++ c.render) ++ [34] := by simp [elifText, r_elif, a_elif12]
  have h12 : (asc "#elif expr=\"").length = 12 := by decide +kernel
  unfold doCond
  rw [if_neg (by
    rintro (h | h | h)
    · rw [e] at h
      simp [h12] at h
      omega
    · rw [e2, at0_last] at h
      exact h rfl
    · rw [e, at0_last2] at h
      exact absurd h (by decide))]
  have hn : at0 (35 :: elifText c) 1 = 101 := by simp [elifText, r_elif, at0]
  have hd : (35 :: elifText c : Str).dropLast.drop 12 = c.render := by
    rw [e2, List.dropLast_concat, ← h12, List.drop_left]
  simp only [hn, if_true, hd, hi]
  rw [cond_eq E st c hc hb]
  simp

/-! ### Items -/

/-- What follows an include. -/
def afterInc (E : Env) (st : St) (r : Res) : Next :=
  if r.stat = .fault then .stop .fault { st with out := st.out ++ r.out, ud := r.ud }
  else if r.stat = .ok || E.noWarn then .go { st with out := st.out ++ r.out, ud := r.ud }
  else .stop .err { st with out := st.out ++ r.out, ud := r.ud }

theorem item_inc_gen (st : St) (v : Bool) (n : Str) (hok : (Item.inc v n).ok) :
    directive E ev dir st (35 :: (Item.inc v n).render) = if st.top.elide then .go st else afterInc E st (incOf E ev dir n st.ud) := by
  obtain ⟨hne, hl, _⟩ := hok
  have hinc : isInclude (35 :: (Item.inc v n).render) = true := by
    cases v <;> simp [isInclude, Item.render, r_file, r_virt, a_inc, a_vir]
  have hlast : ∃ a y, n = a ++ [y] ∧ y ≠ 61 := by
    refine ⟨n.dropLast, n.getLast hne, (List.dropLast_concat_getLast hne).symm, ?_⟩
    intro e
    exact hl (by rw [List.getLast?_eq_some_getLast hne, e])
  obtain ⟨a, y, hay, hy⟩ := hlast
  have key : ∀ P : Str, ∀ k : Nat, P.length = k → (35 :: (Item.inc v n).render : Str) = P ++ n ++ [34] →
      k = (if at0 (35 :: (Item.inc v n).render) 9 = 118 then 18 else 15) →
      directive E ev dir st (35 :: (Item.inc v n).render) = if st.top.elide then .go st else afterInc E st (incOf E ev dir n st.ud) := by
    intro P k hP hd hk
    unfold directive
    rw [if_pos hinc]
    unfold doInclude
    rw [if_neg (by
      rintro (h | h)
      · rw [hd, at0_last] at h
        exact h rfl
      · rw [hd, hay] at h
        have e2 : P ++ (a ++ [y]) ++ [34] = (P ++ a) ++ [y, 34] := by simp
        rw [e2, at0_last2] at h
        exact hy h)]
    cases hel : st.top.elide with
    | true => simp
    | false =>
      simp only [← hk]
      have hdr : (35 :: (Item.inc v n).render : Str).dropLast.drop k = n := by
        rw [hd, List.dropLast_concat, ← hP, List.drop_left]
      have hlen : ¬ (k > (35 :: (Item.inc v n).render : Str).length) := by
        rw [hd]
        simp [hP]
      rw [if_neg (by simp), if_neg hlen, hdr]
      rfl
  cases v with
  | false =>
    exact key (asc "#include file=\"") 15 (by decide +kernel) (by simp [Item.render, r_file, show asc "#include file=\"" = 35 :: asc "include file=\"" from by decide +kernel])
      (by simp [Item.render, r_file, at0])
  | true =>
    exact key (asc "#include virtual=\"") 18 (by decide +kernel) (by simp [Item.render, r_virt, show asc "#include virtual=\"" = 35 :: asc "include virtual=\"" from by decide +kernel])
      (by simp [Item.render, r_virt, at0])

theorem item_inc (st : St) (v : Bool) (n : Str) (hok : (Item.inc v n).ok) {o : Str} {u : UD}
    (h : (if st.top.elide then (⟨.ok, [], st.ud⟩ : Res) else incOf E ev dir n st.ud) = ⟨.ok, o, u⟩) :
    directive E ev dir st (35 :: (Item.inc v n).render) = .go { st with out := st.out ++ o, ud := u } := by
  rw [item_inc_gen E ev dir st v n hok]
  cases hel : st.top.elide with
  | true =>
    rw [hel] at h
    have := Res.mk.inj h
    simp [← this.2.1, ← this.2.2]
  | false =>
    rw [hel] at h
    simp only [Bool.false_eq_true, if_false] at h
    simp [h, afterInc]

theorem echo_dir (st : St) (q : UInt8) (x : Str) (hq : q = 34 ∨ q = 39) :
    directive E ev dir st (35 :: (asc "echo " ++ q :: x ++ [q])) = doEcho E st (35 :: (asc "echo " ++ q :: x ++ [q])) := by
  have hs : isSet (35 :: (asc "echo " ++ q :: x ++ [q])) = none := by simp [isSet, r_echo, a_set5]
  unfold directive
  rw [if_neg (by simp [isInclude, r_echo, a_inc, a_vir]), hs]
  have hl : at0 (35 :: (asc "echo " ++ q :: x ++ [q])) ((35 :: (asc "echo " ++ q :: x ++ [q])).length - 1) = q := at0_last (35 :: (asc "echo " ++ q :: x)) q
  have h6 : at0 (35 :: (asc "echo " ++ q :: x ++ [q])) 6 = q := by simp [r_echo, at0]
  have ht : (35 :: (asc "echo " ++ q :: x ++ [q])).take 6 = asc "#echo " := by simp [r_echo, a_echo6]
  have hc : ((35 :: (asc "echo " ++ q :: x ++ [q])).take 6 = asc "#echo " ∧ (at0 (35 :: (asc "echo " ++ q :: x ++ [q])) 6 = 39 ∨ at0 (35 :: (asc "echo " ++ q :: x ++ [q])) 6 = 34)
      ∧ at0 (35 :: (asc "echo " ++ q :: x ++ [q])) ((35 :: (asc "echo " ++ q :: x ++ [q])).length - 1) = at0 (35 :: (asc "echo " ++ q :: x ++ [q])) 6) := by
    refine ⟨ht, ?_, ?_⟩
    · rw [h6]
      exact hq.symm
    · rw [hl, h6]
  generalize (35 :: (asc "echo " ++ q :: x ++ [q]) : Str) = d at *
  cases st.ud <;>
  · simp only []
    rw [if_pos hc]

theorem free_echo {q : UInt8} (hq : q = 34 ∨ q = 39) {t : Str} (h : Free [36, 123] t) : Free [36, 123] (35 :: (asc "echo " ++ q :: t)) := by
  rintro ⟨a, b, e⟩
  have hq2 : q ≠ 36 := by
    rintro rfl
    rcases hq with h | h <;> exact absurd h (by decide)
  rw [r_echo] at e
  have e : [35, 101, 99, 104, 111, 32, q] ++ t = a ++ ([36, 123] ++ b) := by simpa using e
  rcases List.append_eq_append_iff.mp e with ⟨a', h1, h2⟩ | ⟨c', h1, h2⟩
  · exact h ⟨a', b, by rw [h2]; simp⟩
  · cases c' with
    | nil => exact h ⟨[], b, by simpa using h2.symm⟩
    | cons y c' =>
      have hy : y = 36 := by
        simp only [List.cons_append, List.cons.injEq] at h2
        exact h2.1.symm
      have : (36 : UInt8) ∈ [35, 101, 99, 104, 111, 32, q] := by
        rw [h1, hy]
        simp
      simp at this
      exact hq2 this.symm

theorem item_echo (st : St) (q : UInt8) (t : Str) (hok : (Item.echo q t).ok) :
    directive E ev dir st (35 :: (Item.echo q t).render) = .go { st with out := st.out ++ t } := by
  obtain ⟨hq, hf, _⟩ := hok
  have hq2 : q ≠ 123 := by
    rintro rfl
    rcases hq with h | h <;> exact absurd h (by decide)
  unfold Item.render
  rw [echo_dir E ev dir st q t hq]
  unfold doEcho
  have hfree : Free [36, 123] (35 :: (asc "echo " ++ q :: t ++ [q])) := by
    have h1 := free_echo hq hf
    rintro ⟨a, b, e⟩
    rcases List.eq_nil_or_concat b with rfl | ⟨b', y, rfl⟩
    · have e : (35 :: (asc "echo " ++ q :: t)) ++ [q] = (a ++ [36]) ++ [123] := by simpa using e
      have := (List.append_inj' e rfl).2
      simp at this
      exact hq2 this
    · have e : (35 :: (asc "echo " ++ q :: t)) ++ [q] = (a ++ [36, 123] ++ b') ++ [y] := by simpa using e
      exact h1 ⟨a, b', (List.append_inj' e rfl).1⟩
  rw [cut_free hfree]
  have : (List.drop 7 (35 :: (asc "echo " ++ q :: t ++ [q]))).dropLast = t := by simp [r_echo]
  simp only [this]

theorem item_echoVar (st : St) (q : UInt8) (a n b : Str) (hok : (Item.echoVar q a n b).ok) {o : Str} {u : UD} {inc : Str → UD → Option (Str × UD)}
    (h : (Item.echoVar q a n b).act E.key inc true st.ud = some (o, u)) :
    directive E ev dir st (35 :: (Item.echoVar q a n b).render) = .go { st with out := st.out ++ o, ud := u } := by
  obtain ⟨hq, hf, hn, _⟩ := hok
  simp only [Item.render]
  have e : (asc "echo " ++ q :: a ++ 36 :: 123 :: n ++ 125 :: b ++ [q] : Str) = asc "echo " ++ q :: (a ++ 36 :: 123 :: n ++ 125 :: b) ++ [q] := by simp
  rw [e, echo_dir E ev dir st q _ hq]
  unfold doEcho
  have e2 : (35 :: (asc "echo " ++ q :: (a ++ 36 :: 123 :: n ++ 125 :: b) ++ [q]) : Str) = (35 :: (asc "echo " ++ q :: a)) ++ (36 :: 123 :: (n ++ 125 :: (b ++ [q]))) := by simp
  rw [e2, cut_dollar (free_echo hq hf)]
  simp only []
  rw [cut_char hn]
  have e3 : (35 :: (asc "echo " ++ q :: a) : Str).drop 7 = a := by simp [r_echo]
  simp only [e3, List.dropLast_concat]
  unfold Item.act at h
  rw [r_hash] at h
  simp only [Bool.not_true, Bool.false_eq_true, if_false] at h
  split at h
  · rename_i hh
    rw [if_pos hh]
    have := Option.some.inj h
    have := Prod.mk.inj this
    rw [← this.1, ← this.2]
    simp
  · rename_i hh
    rw [if_neg hh]
    cases hu : st.ud with
    | none =>
      rw [hu] at h
      have := Prod.mk.inj (Option.some.inj h)
      rw [← this.1, ← this.2]
      simp [hu]
    | some f =>
      rw [hu] at h
      simp only [] at h ⊢
      cases hv : f n with
      | none => rw [hv] at h; cases h
      | some w =>
        rw [hv] at h
        cases w with
        | str s =>
          have := Prod.mk.inj (Option.some.inj h)
          rw [← this.1, ← this.2]
          simp [hu]
        | bool _ => cases h
        | other => cases h

theorem item_set (st : St) (q : UInt8) (k v : Str) (hok : (Item.set q k v).ok) {f : Str → Option Val} (hu : st.ud = some f) :
    directive E ev dir st (35 :: (Item.set q k v).render) = .go { st with ud := some (fun x => if x = k then some (.str v) else f x) } := by
  obtain ⟨hq, hk, hn, _⟩ := hok
  unfold Item.render
  have e : (35 :: (asc "set " ++ k ++ 61 :: q :: v ++ [q]) : Str) = (asc "#set " ++ k) ++ 61 :: q :: (v ++ [q]) := by simp [r_set, a_set5]
  have el : (35 :: (asc "set " ++ k ++ 61 :: q :: v ++ [q]) : Str) = (asc "#set " ++ k ++ 61 :: q :: v) ++ [q] := by simp [r_set, a_set5]
  have h5 : (asc "#set ").length = 5 := by decide +kernel
  have hmem : (61 : UInt8) ∉ asc "#set " ++ k := by
    rw [a_set5]
    simp [hn]
  obtain ⟨k0, k', rfl⟩ := List.exists_cons_of_ne_nil hk
  have hk0 : k0 ≠ 61 := by
    rintro rfl
    exact hn (by simp)
  have hs : isSet (35 :: (asc "set " ++ (k0 :: k') ++ 61 :: q :: v ++ [q])) = some (asc "#set " ++ (k0 :: k')) := by
    unfold isSet
    rw [if_pos (by
      refine ⟨by simp [r_set, a_set5], ?_⟩
      simp [r_set, at0]
      exact hk0)]
    have hc := cut_char (x := q :: (v ++ [q])) hmem
    rw [← e] at hc
    rw [hc]
    simp only []
    rw [if_pos]
    refine ⟨by simpa [at0] using hq.symm, ?_⟩
    rw [el, at0_last]
    rfl
  unfold directive
  rw [if_neg (by simp [isInclude, r_set, a_inc, a_vir]), hu, hs]
  simp only [doSet]
  have h7 : (35 :: (asc "set " ++ (k0 :: k') ++ 61 :: q :: v ++ [q]) : Str).dropLast.drop ((asc "#set " ++ (k0 :: k')).length + 2) = v := by
    rw [el, List.dropLast_concat]
    have : asc "#set " ++ (k0 :: k') ++ 61 :: q :: v = (asc "#set " ++ (k0 :: k') ++ [61, q]) ++ v := by simp
    rw [this]
    apply List.drop_left'
    simp
    omega
  have h8 : (asc "#set " ++ (k0 :: k')).drop 5 = k0 :: k' := by rw [← h5, List.drop_left]
  rw [h7, h8]
  rfl

end Verif.Web
