import Verif.Web.SsiSafe

/-! Server side includes: the claims C93, C94. -/

namespace Verif.Web

/-- The pages of a site as files: every page of `site` is the file it renders to, is well formed, has
conditionals nested at most ten deep and no NUL. -/
def Serves (E : Env) (site : Str → Option Doc) : Prop :=
  ∀ fn doc, site fn = some doc → E.file fn = some doc.render ∧ doc.ok ∧ doc.depth ≤ 10 ∧ 0 ∉ doc.render

theorem takeWhile_noNul {t : Str} (h : 0 ∉ t) : t.takeWhile (· ≠ 0) = t := by
  induction t with
  | nil => rfl
  | cons c t ih =>
    have hc : c ≠ 0 := by
      rintro rfl
      exact h (by simp)
    rw [List.takeWhile_cons_of_pos (by simpa using hc), ih (fun hm => h (by simp [hm]))]

theorem start_shape (ud : UD) : Shape (start ud) true 0 := ⟨rfl, rfl, Or.inr ⟨rfl, rfl, rfl⟩⟩

/-- The end of a page that is not inside a conditional. -/
theorem tail_end (E : Env) (ev : Str → UD → Res) (dir : Str) (st1 : St) (h1 : st1.top = ⟨false, false, false, false⟩) (h2 : st1.bad = false) :
    Tail E ev dir [] st1 (fun r => r = ⟨.ok, st1.out, st1.ud⟩) := by
  intro t st ht hst n hn
  cases n with
  | zero => exact absurd hn (by omega)
  | succ n =>
    unfold loop
    rw [List.append_nil, cut_free ht]
    have htop : st.top = st1.top := by
      rw [← hst]
      unfold addText
      split <;> rfl
    have he : st.top.elide = false := by rw [htop, h1]
    have : ({ st with out := st.out ++ t } : St) = st1 := by
      rw [← hst]
      unfold addText
      rw [he]
      simp
    simp only [this]
    simp [done, h1, h2]

/-- **C93.** What a visitor gets is what the page means: texts are copied, includes are replaced by what the
included page means (to the depth that is allowed), exactly the chosen parts of conditionals appear, `#echo` and
`#set` work on the data.  Partial: `Doc.mean` is `none` for pages with an `#echo` or `#set` in a part that is
left out, or with a condition without a truth value anywhere, and the claim says nothing about those. -/
theorem C93_page_means_partial (E : Env) (site : Str → Option Doc) (hs : Serves E site) (n : Nat) (fn : Str) (data : UD) (o : Str) (u : UD)
    (h : page E.root E.query E.key site E.file E.ssi n fn data = some (o, u)) :
    evalSSI E n fn data = ⟨.ok, o, u⟩ := by
  induction n generalizing fn data o u with
  | zero => cases h
  | succ n ih =>
    unfold page at h
    obtain ⟨doc, hd, hm⟩ := bind_some h
    obtain ⟨hf, hok, hdep, hnul⟩ := hs fn doc hd
    unfold evalSSI
    rw [hf]
    simp only []
    rw [takeWhile_noNul hnul]
    have hA : Agree E (evalSSI E n) (dirOf (below E.root fn)) (fun name u =>
        let f := sibling E.root fn name
        if (extOf f).any E.ssi then page E.root E.query E.key site E.file E.ssi n f u else (E.file f).map (·, u)) := by
      intro name u o u' hh
      unfold incOf
      simp only [] at hh ⊢
      unfold sibling at hh
      split at hh
      · rename_i hx
        rw [if_pos hx]
        exact ih _ _ _ _ hh
      · rename_i hx
        rw [if_neg hx]
        cases hfile : E.file (E.root ++ 47 :: dirOf (below E.root fn) ++ 47 :: name) with
        | none => rw [hfile] at hh; cases hh
        | some t =>
          rw [hfile] at hh
          have := Prod.mk.inj (Option.some.inj hh)
          simp [this.1, this.2]
    have := doc_run E (evalSSI E n) (dirOf (below E.root fn)) hA false true 0 [] (fun r => r = ⟨.ok, o, u⟩) doc (start data) o u hok hm
      (start_shape data) (by omega) rfl
      (tail_end E (evalSSI E n) (dirOf (below E.root fn)) (more (start data) o u) rfl rfl)
    rw [rd_false, List.append_nil] at this
    exact this _ (Nat.lt_succ_self _)

/-- A conditional that is not closed, in the branch that is shown: the page is reported as wrong. -/
theorem C93_unclosed (E : Env) (fn t : Str) (c : Cond) (body : Doc) (n : Nat) (data : UD) (o : Str) (u : UD) (b : Bool)
    (ht : Free opening t) (hc : c.ok) (hb : body.ok) (hd : body.depth ≤ 9)
    (hf : E.file fn = some (t ++ (tag (ifText c) ++ body.render))) (h0 : 0 ∉ t ++ (tag (ifText c) ++ body.render))
    (hold : c.holds E.query data = some b)
    (hm : body.mean E.query E.key (fun _ _ => none) true b data = some (o, u)) :
    (evalSSI E (n+1) fn data).stat = .err := by
  unfold evalSSI
  rw [hf]
  simp only []
  rw [takeWhile_noNul h0]
  have hA : Agree E (evalSSI E n) (dirOf (below E.root fn)) (fun _ _ => none) := by
    intro _ _ _ _ h
    cases h
  have hs0 := (start_shape data).more t data
  have ha : addText (start data) t = more (start data) t data := by
    rw [addText_eq (start data) (live := true) rfl]
    rfl
  obtain ⟨st1, p1, p2, p3, p4, p5, p6, p7, p8⟩ := push_shape hs0 (by omega) b
  have run := run_tag E (evalSSI E n) (dirOf (below E.root fn)) (t := t) (d := ifText c) (rest := body.render) (st := start data)
    (r := fun r => r.stat = .err) ht hc.2.1
    ((directive_if E _ _ _ c).trans (doCond_if E _ c hc (by rw [ha]; exact p1) (by rw [p2]; exact hold))) (by
      have hb' := skipNl_doc body (x := []) rfl
      rw [List.append_nil] at hb'
      rw [hb', p5, setIf_eq]
      refine doc_run E _ _ hA true (true && b) 1 [] _ body _ o u hb ?_ ?_ (by omega) rfl ?_
      · show body.mean E.query E.key (fun _ _ => none) true (true && b) st1.ud = some (o, u)
        rw [p2]
        cases b <;> exact hm
      · refine ⟨?_, rfl, Or.inl ⟨rfl, ?_⟩⟩
        · show st1.bad = false
          rw [p4]
          rfl
        · show 1 = st1.below.length + 1
          omega
      · intro t' st' ht' hst' m hm'
        cases m with
        | zero => exact absurd hm' (by omega)
        | succ m =>
          unfold loop
          rw [List.append_nil, cut_free ht']
          have htop : st'.top.inif = true := by
            have : (addText st' t').top = st'.top := by
              unfold addText
              split <;> rfl
            rw [← this, hst']
            rfl
          simp [done, htop])
  exact run _ (Nat.lt_succ_self _)

/-- A name that the condition requires (mark `*`) and that is missing: the page is reported as wrong. -/
theorem C93_required (E : Env) (fn t rest : Str) (c : Cond) (n : Nat) (data : UD)
    (ht : Free opening t) (hc : c.ok) (hr : .required ∈ c.mods) (hv : c.value E.query data = none)
    (hf : E.file fn = some (t ++ (tag (ifText c) ++ rest))) (h0 : 0 ∉ t ++ (tag (ifText c) ++ rest)) :
    (evalSSI E (n+1) fn data).stat = .err := by
  unfold evalSSI
  rw [hf]
  simp only []
  rw [takeWhile_noNul h0]
  unfold loop
  have e : t ++ (tag (ifText c) ++ rest) = t ++ (opening ++ (ifText c ++ (closing ++ rest))) := by simp [tag]
  rw [e, cut_opening ht]
  simp only []
  rw [cut_closing hc.2.1.2]
  simp only []
  rw [if_neg hc.2.1.1, (directive_if E _ _ _ c).trans (doCond_required E (addText (start data) t) c hc
    (st1 := ⟨[] ++ t, data, ⟨true, false, false, false⟩, [], false⟩) rfl hr rfl hv)]

/-! ### What the claim leaves out -/

/-- A server with one page. -/
def one (text : Str) : Env := ⟨asc "/w", false, none, asc "k", fun f => if f = asc "/w/p.shtml" then some text else none, fun x => decide (x = asc "shtml")⟩

/-- The data `{yes: true, no: false, word: 'abc'}`. -/
def data1 : UD := some (fun k => if k = asc "yes" then some (.bool true) else if k = asc "no" then some (.bool false)
  else if k = asc "word" then some (.str (asc "abc")) else none)

/-- The page `/w/p.shtml` with that text. -/
def show1 (text : String) : Stat × Str :=
  let r := evalSSI (one (asc text)) 10 (asc "/w/p.shtml") data1
  (r.stat, r.out)

/-- **C93, refuted part.** An `#echo` in a part that is left out is shown. -/
theorem C93_left_out_echo_refuted :
    show1 "a<!--#if expr=\"${no}\"-->b<!--#echo 'secret'-->c<!--#endif-->d" = (.ok, asc "asecretd") := by decide +kernel

/-- **C93, refuted part.** A `#set` in a part that is left out is carried out. -/
theorem C93_left_out_set_refuted :
    show1 "<!--#if expr=\"${no}\"--><!--#set word='x'--><!--#endif--><!--#echo '${word}'-->" = (.ok, asc "x") := by decide +kernel

/-- **C93, refuted part.** A condition in a part that is left out can end the page. -/
theorem C93_left_out_condition_refuted :
    show1 "a<!--#if expr=\"${no}\"--><!--#if expr=\"${word}\"-->b<!--#endif--><!--#endif-->d" = (.err, asc "a") := by decide +kernel

/-- **C93, refuted part.** Two parts of one conditional are shown: an `#elif` behind `#else` is not refused. -/
theorem C93_two_parts_refuted :
    show1 "<!--#if expr=\"${no}\"-->a<!--#else-->b<!--#elif expr=\"${yes}\"-->c<!--#endif-->" = (.ok, asc "bc") := by decide +kernel

/-- **C93, refuted part.** The mark `@` (a warning is enough) has no effect behind the part that is shown. -/
theorem C93_lax_mark_refuted :
    show1 "<!--#if expr=\"${yes}\"-->a<!--#elif expr=\"${@word}\"-->b<!--#endif-->" = (.err, asc "a") ∧
    show1 "<!--#if expr=\"${no}\"-->a<!--#elif expr=\"${@word}\"-->b<!--#endif-->c" = (.ok, asc "c") := by
  refine ⟨?_, ?_⟩ <;> decide +kernel

/-! ### C94 -/

/-- **C94.** The evaluator uses only the text of the directive, unless some page has one of the four misspelt
directives. -/
theorem C94_own_text_partial (E : Env) (h : ¬ HasShort E) (n : Nat) (fn : Str) (ud : UD) : (evalSSI E n fn ud).stat ≠ .fault :=
  fun hf => h (eval_fault E n fn ud hf)

/-- **C94, refuted part.** With one of them it uses what lies behind the text. -/
theorem C94_own_text_refuted : (show1 "x<!--#include fil\"-->").1 = .fault ∧ (show1 "x<!--#include virtual\"-->").1 = .fault := by
  refine ⟨?_, ?_⟩ <;> decide +kernel

/-- `n` times `t`. -/
def times (n : Nat) (t : Str) : Str := (List.replicate n t).flatten

/-- **C94.** A page that includes itself comes to an end: the text before the include appears once for each level
that is allowed, and then the page is reported as wrong.  `F i` are the names under which the page is found (the
names get longer by a slash each time). -/
theorem C94_self_include (E : Env) (hw : E.noWarn = false) (t name : Str) (F : Nat → Str)
    (ht : Free opening t) (hok : (Item.inc false name).ok) (h0 : 0 ∉ t ++ (tag (Item.inc false name).render ++ []))
    (hF : ∀ i, F (i+1) = sibling E.root (F i) name) (hssi : ∀ i, (extOf (F i)).any E.ssi)
    (hfile : ∀ i, E.file (F i) = some (t ++ (tag (Item.inc false name).render ++ [])))
    (n i : Nat) (ud : UD) : evalSSI E n (F i) ud = ⟨.err, times n t, ud⟩ := by
  induction n generalizing i with
  | zero => rfl
  | succ n ih =>
    unfold evalSSI
    rw [hfile i]
    simp only []
    rw [takeWhile_noNul h0]
    have hinc : incOf E (evalSSI E n) (dirOf (below E.root (F i))) name ud = ⟨.err, times n t, ud⟩ := by
      unfold incOf
      have e : E.root ++ 47 :: dirOf (below E.root (F i)) ++ 47 :: name = F (i+1) := by
        rw [hF i]
        rfl
      simp only [e]
      rw [if_pos (hssi (i+1))]
      exact ih (i+1)
    unfold loop
    have e : t ++ (tag (Item.inc false name).render ++ []) = t ++ (opening ++ ((Item.inc false name).render ++ (closing ++ []))) := by simp [tag]
    rw [e, cut_opening ht]
    simp only []
    have hcl := Item.ok_clean hok
    rw [cut_closing hcl.2]
    simp only []
    rw [if_neg hcl.1, item_inc_gen E _ _ _ false name hok]
    have ha : addText (start ud) t = ⟨t, ud, ⟨false, false, false, false⟩, [], false⟩ := by simp [addText, start]
    rw [ha]
    simp only [Bool.false_eq_true, if_false]
    rw [hinc]
    simp [afterInc, hw, times, List.replicate_succ]

/-- A page below the tenth level is refused. -/
theorem C94_depth (E : Env) (fn : Str) (ud : UD) : (evalSSI E 0 fn ud).stat = .err := rfl

end Verif.Web
