import Verif.Web.SsiCut

/-! What the directives of the specification do in the evaluator. -/

namespace Verif.Web

theorem a_inc : asc "#include fil" = [35, 105, 110, 99, 108, 117, 100, 101, 32, 102, 105, 108] := by decide +kernel
theorem a_vir : asc "#include virtua" = [35, 105, 110, 99, 108, 117, 100, 101, 32, 118, 105, 114, 116, 117, 97] := by decide +kernel
theorem a_set5 : asc "#set " = [35, 115, 101, 116, 32] := by decide +kernel
theorem a_echo6 : asc "#echo " = [35, 101, 99, 104, 111, 32] := by decide +kernel
theorem a_if10 : asc "#if expr=\"" = [35, 105, 102, 32, 101, 120, 112, 114, 61, 34] := by decide +kernel
theorem a_elif12 : asc "#elif expr=\"" = [35, 101, 108, 105, 102, 32, 101, 120, 112, 114, 61, 34] := by decide +kernel
theorem a_else5 : asc "#else" = [35, 101, 108, 115, 101] := by decide +kernel
theorem a_endif6 : asc "#endif" = [35, 101, 110, 100, 105, 102] := by decide +kernel
theorem r_file : asc "include file=\"" = [105, 110, 99, 108, 117, 100, 101, 32, 102, 105, 108, 101, 61, 34] := by decide +kernel
theorem r_virt : asc "include virtual=\"" = [105, 110, 99, 108, 117, 100, 101, 32, 118, 105, 114, 116, 117, 97, 108, 61, 34] := by decide +kernel
theorem r_echo : asc "echo " = [101, 99, 104, 111, 32] := by decide +kernel
theorem r_set : asc "set " = [115, 101, 116, 32] := by decide +kernel
theorem r_if : asc "if expr=\"" = [105, 102, 32, 101, 120, 112, 114, 61, 34] := by decide +kernel
theorem r_elif : asc "elif expr=\"" = [101, 108, 105, 102, 32, 101, 120, 112, 114, 61, 34] := by decide +kernel
theorem r_else : asc "else" = [101, 108, 115, 101] := by decide +kernel
theorem r_endif : asc "endif" = [101, 110, 100, 105, 102] := by decide +kernel
theorem r_hash : asc "#" = [35] := by decide +kernel

variable (E : Env) (ev : Str → UD → Res) (dir : Str) (st : St)

theorem directive_else : directive E ev dir st (35 :: asc "else") = doElse st := by
  have : isSet (35 :: asc "else") = none := by decide +kernel
  unfold directive
  rw [if_neg (by decide +kernel), this]
  cases st.ud <;>
  · simp only []
    rw [if_neg (by decide +kernel), if_neg (by decide +kernel), if_pos (by decide +kernel)]

theorem directive_endif : directive E ev dir st (35 :: asc "endif") = doEndif st := by
  have : isSet (35 :: asc "endif") = none := by decide +kernel
  unfold directive
  rw [if_neg (by decide +kernel), this]
  cases st.ud <;>
  · simp only []
    rw [if_neg (by decide +kernel), if_neg (by decide +kernel), if_neg (by decide +kernel), if_pos (by decide +kernel)]

theorem directive_if (c : Cond) : directive E ev dir st (35 :: ifText c) = doCond E st (35 :: ifText c) := by
  have : isSet (35 :: ifText c) = none := by simp [isSet, ifText, r_if, a_set5]
  unfold directive
  rw [if_neg (by simp [isInclude, ifText, r_if, a_inc, a_vir]), this]
  cases st.ud <;>
  · simp only []
    rw [if_neg (by simp [ifText, r_if, a_echo6]), if_pos (by simp [ifText, r_if, a_if10])]

theorem directive_elif (c : Cond) : directive E ev dir st (35 :: elifText c) = doCond E st (35 :: elifText c) := by
  have : isSet (35 :: elifText c) = none := by simp [isSet, elifText, r_elif, a_set5]
  unfold directive
  rw [if_neg (by simp [isInclude, elifText, r_elif, a_inc, a_vir]), this]
  cases st.ud <;>
  · simp only []
    rw [if_neg (by simp [elifText, r_elif, a_echo6]), if_pos (by simp [elifText, r_elif, a_elif12])]

theorem at0_append (a b : Str) (i : Nat) : at0 (a ++ b) (a.length + i) = at0 b i := by
  simp [at0, List.getD, List.getElem?_append_right]

theorem at0_last (a : Str) (x : UInt8) : at0 (a ++ [x]) ((a ++ [x]).length - 1) = x := by
  simp [at0]

theorem at0_last2 (a : Str) (y x : UInt8) : at0 (a ++ [y, x]) ((a ++ [y, x]).length - 2) = y := by
  simp [at0]

/-! ### Conditions -/

/-- The modifiers that are read. -/
def modsOf (matched : Bool) (l : List Mod) (m : Mods) : Mods :=
  ⟨m.warn || (!matched && decide (.lax ∈ l)), m.req || (!matched && decide (.required ∈ l)), m.inot || decide (.negate ∈ l),
   m.isq || decide (.noData ∈ l), m.isu || decide (.noQuery ∈ l), m.qfirst || decide (.queryFirst ∈ l), m.fail⟩

theorem modLoop_name (matched : Bool) (m : Mods) (n : Str) (h : n.head?.any isalpha) : modLoop matched m n = (m, n) := by
  cases n with
  | nil => cases h
  | cons c s =>
    have h : isalpha c = true := h
    unfold modLoop
    rw [if_pos h]

theorem modLoop_mods (matched : Bool) (l : List Mod) (m : Mods) (n : Str) (h : n.head?.any isalpha)
    (hw : m.warn = true → matched = false) (hr : m.req = true → matched = false) :
    modLoop matched m (l.map Mod.char ++ n) = (modsOf matched l m, n) := by
  induction l generalizing m with
  | nil =>
    rw [List.map_nil, List.nil_append, modLoop_name _ _ _ h]
    simp [modsOf]
  | cons x l ih =>
    rw [List.map_cons, List.cons_append]
    cases x <;> unfold modLoop <;>
    · rw [if_neg (by simp [Mod.char, isalpha])]
      simp only [Mod.char, show ((58 : UInt8) = 126) = False from by decide, show ((63 : UInt8) = 126) = False from by decide, show ((63 : UInt8) = 58) = False from by decide,
        show ((64 : UInt8) = 126) = False from by decide, show ((64 : UInt8) = 58) = False from by decide, show ((64 : UInt8) = 63) = False from by decide,
        show ((42 : UInt8) = 126) = False from by decide, show ((42 : UInt8) = 58) = False from by decide, show ((42 : UInt8) = 63) = False from by decide, show ((42 : UInt8) = 64) = False from by decide,
        show ((33 : UInt8) = 126) = False from by decide, show ((33 : UInt8) = 58) = False from by decide, show ((33 : UInt8) = 63) = False from by decide, show ((33 : UInt8) = 64) = False from by decide, show ((33 : UInt8) = 42) = False from by decide,
        if_true, if_false]
      rw [ih _ (by intro hh; first | exact hw hh | (cases matched <;> simp_all)) (by intro hh; first | exact hr hh | (cases matched <;> simp_all))]
      cases hm : m.warn <;> cases hm2 : m.req <;> cases matched <;> simp_all [modsOf]

theorem cond_eq (c : Cond) (hc : c.ok) {b : Bool} (hb : c.holds E.query st.ud = some b) : condition E st c.render = some (b, false) := by
  unfold condition
  have e0 : c.render = (36 :: 123 :: (c.mods.map Mod.char ++ c.name)) ++ [125] := by simp [Cond.render]
  have hne : c.name ≠ [] := by
    intro e
    have := hc.1
    rw [e] at this
    cases this
  have hl : 0 < c.name.length := List.length_pos_iff.mpr hne
  rw [e0, if_neg (by
    rintro (h | h | h | h)
    · simp at h
      omega
    · exact h rfl
    · exact h rfl
    · rw [at0_last] at h
      exact h rfl)]
  have e1 : ((36 :: 123 :: (c.mods.map Mod.char ++ c.name)) ++ [125]).drop 2 = c.mods.map Mod.char ++ c.name ++ [125] := by simp
  simp only [e1, List.dropLast_concat]
  rw [modLoop_mods st.top.matched c.mods _ c.name hc.1 (by simp) (by simp)]
  simp only [Cond.holds] at hb
  have hv : lookup E st.ud (modsOf st.top.matched c.mods ⟨false, false, false, false, false, false, false⟩) c.name = c.value E.query st.ud := by
    simp only [lookup, Cond.value, modsOf, Bool.false_or]
    by_cases h1 : Mod.queryFirst ∈ c.mods <;> by_cases h2 : Mod.noData ∈ c.mods <;> by_cases h3 : Mod.noQuery ∈ c.mods <;>
      cases (E.query.bind (· c.name)) <;> cases (st.ud.bind (· c.name)) <;> simp [h1, h2, h3]
  rw [hv]
  cases he : c.value E.query st.ud with
  | none =>
    rw [he] at hb
    simp only [] at hb
    split at hb
    · cases hb
    · rename_i hr
      have := Option.some.inj hb
      simp [truth, modsOf, hr, ← this]
  | some v =>
    rw [he] at hb
    cases v with
    | bool x =>
      have := Option.some.inj hb
      simp [truth, modsOf, ← this]
    | str s =>
      simp only [] at hb
      cases hg : getBool s with
      | none => rw [hg] at hb; cases hb
      | some x =>
        rw [hg] at hb
        have := Option.some.inj hb
        simp [truth, hg, modsOf, ← this]
    | other => cases hb

/-- A name that is required and missing ends the evaluation, as long as no part of the conditional was shown. -/
theorem cond_required (c : Cond) (hc : c.ok) (hr : .required ∈ c.mods) (hm : st.top.matched = false)
    (hn : c.value E.query st.ud = none) : condition E st c.render = none := by
  unfold condition
  have e0 : c.render = (36 :: 123 :: (c.mods.map Mod.char ++ c.name)) ++ [125] := by simp [Cond.render]
  have hne : c.name ≠ [] := by
    intro e
    have := hc.1
    rw [e] at this
    cases this
  have hl : 0 < c.name.length := List.length_pos_iff.mpr hne
  rw [e0, if_neg (by
    rintro (h | h | h | h)
    · simp at h
      omega
    · exact h rfl
    · exact h rfl
    · rw [at0_last] at h
      exact h rfl)]
  have e1 : ((36 :: 123 :: (c.mods.map Mod.char ++ c.name)) ++ [125]).drop 2 = c.mods.map Mod.char ++ c.name ++ [125] := by simp
  simp only [e1, List.dropLast_concat]
  rw [modLoop_mods st.top.matched c.mods _ c.name hc.1 (by simp) (by simp)]
  have hv : lookup E st.ud (modsOf st.top.matched c.mods ⟨false, false, false, false, false, false, false⟩) c.name = c.value E.query st.ud := by
    simp only [lookup, Cond.value, modsOf, Bool.false_or]
    by_cases h1 : Mod.queryFirst ∈ c.mods <;> by_cases h2 : Mod.noData ∈ c.mods <;> by_cases h3 : Mod.noQuery ∈ c.mods <;>
      cases (E.query.bind (· c.name)) <;> cases (st.ud.bind (· c.name)) <;> simp [h1, h2, h3]
  rw [hv]
  rw [hn, hm]
  simp [truth, modsOf, hr]

end Verif.Web
