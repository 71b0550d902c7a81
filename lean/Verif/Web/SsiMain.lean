import Verif.Web.SsiRun

/-! The evaluation of a whole page. -/

namespace Verif.Web

variable (E : Env) (ev : Str → UD → Res) (dir : Str)

/-- The loop ends with a result that satisfies `r`, given enough steps. -/
def Run (cs : Str) (st : St) (r : Res → Prop) : Prop := ∀ n, cs.length < n → r (loop E ev dir n cs st)

theorem skipNl_len (s : Str) : (skipNl s).length ≤ s.length := by
  cases s with
  | nil => exact Nat.le_refl _
  | cons c s =>
    simp only [skipNl]
    split
    · simp
    · exact Nat.le_refl _

theorem run_tag {t d rest : Str} {st st' : St} {r : Res → Prop} (ht : Free opening t) (hd : Clean d)
    (hdir : directive E ev dir (addText st t) (35 :: d) = .go st') (h : Run E ev dir (skipNl rest) st' r) :
    Run E ev dir (t ++ (tag d ++ rest)) st r := by
  intro n hn
  cases n with
  | zero => exact absurd hn (by omega)
  | succ n =>
    have e : t ++ (tag d ++ rest) = t ++ (opening ++ (d ++ (closing ++ rest))) := by simp [tag]
    unfold loop
    rw [e, cut_opening ht]
    simp only []
    rw [cut_closing hd.2]
    simp only []
    rw [if_neg hd.1, hdir]
    simp only []
    apply h
    have := skipNl_len rest
    rw [e] at hn
    simp only [List.length_append] at hn
    have h5 : opening.length = 5 := rfl
    omega

theorem chunk_true (t : Str) : chunk true t = skipNl t := by
  cases t with
  | nil => rfl
  | cons c s =>
    unfold chunk skipNl
    by_cases h : c = 10
    · simp [h]
    · simp [h]

theorem chunk_false (t : Str) : chunk false t = t := by simp [chunk]

theorem free_chunk (f : Bool) {t : Str} (h : Free opening t) : Free opening (chunk f t) := by
  unfold chunk
  split
  · rintro ⟨a, b, e⟩
    cases t with
    | nil => exact h ⟨a, b, e⟩
    | cons c s => exact h ⟨c :: a, b, by rw [← List.tail_cons (a := c) (as := s), List.cons_append, List.cons_append, ← e]⟩
  · exact h

theorem skipNl_append {t x : Str} (h : skipNl x = x) : skipNl (t ++ x) = chunk true t ++ x := by
  rw [chunk_true]
  cases t with
  | nil => exact h
  | cons c s =>
    simp only [List.cons_append, skipNl]
    split <;> rfl

theorem skipNl_tag (d x : Str) : skipNl (tag d ++ x) = tag d ++ x := by
  simp [tag, opening, skipNl]

theorem skipNl_alt (a : Alt) (x : Str) : skipNl (a.render ++ x) = a.render ++ x := by
  cases a with
  | fin => rw [Alt.render]; exact skipNl_tag _ _
  | els b => rw [Alt.render, List.append_assoc]; exact skipNl_tag _ _
  | elif c b a => rw [Alt.render, List.append_assoc]; exact skipNl_tag _ _

/-- The text of a part, of which the beginning may follow a directive. -/
def rd (f : Bool) : Doc → Str
  | .text t => chunk f t
  | .item t i rest => chunk f t ++ (tag i.render ++ rest.render)
  | .cond t c body alt rest => chunk f t ++ (tag (ifText c) ++ (body.render ++ (alt.render ++ rest.render)))

theorem rd_false (d : Doc) : rd false d = d.render := by
  cases d <;> simp [rd, Doc.render, chunk_false]

theorem skipNl_doc (d : Doc) {x : Str} (h : skipNl x = x) : skipNl (d.render ++ x) = rd true d ++ x := by
  cases d with
  | text t => rw [Doc.render]; exact skipNl_append h
  | item t i rest =>
    rw [Doc.render, rd]
    simp only [List.append_assoc]
    exact skipNl_append (skipNl_tag _ _)
  | cond t c body alt rest =>
    rw [Doc.render, rd]
    simp only [List.append_assoc]
    exact skipNl_append (skipNl_tag _ _)

/-- The state between two directives. -/
structure Shape (st : St) (live : Bool) (lvl : Nat) : Prop where
  bad : st.bad = false
  el : st.top.elide = !live
  lv : (st.top.inif = true ∧ lvl = st.below.length + 1) ∨ (st.top = ⟨false, false, false, false⟩ ∧ st.below = [] ∧ lvl = 0)

/-- What is still to come. -/
def Tail (k : Str) (st1 : St) (r : Res → Prop) : Prop :=
  ∀ t st, Free opening t → addText st t = st1 → Run E ev dir (t ++ k) st r

/-- The state with more output and other data. -/
def more (st : St) (o : Str) (u : UD) : St := ⟨st.out ++ o, u, st.top, st.below, st.bad⟩

theorem more_more (st : St) (a b : Str) (u v : UD) : more (more st a u) b v = more st (a ++ b) v := by
  simp [more]

theorem addText_eq (st : St) {live : Bool} (h : st.top.elide = !live) (t : Str) : addText st t = more st (if live then t else []) st.ud := by
  cases live <;> simp [addText, h, more]

theorem Shape.more {st : St} {live : Bool} {lvl : Nat} (h : Shape st live lvl) (o : Str) (u : UD) : Shape (more st o u) live lvl :=
  ⟨h.bad, h.el, h.lv⟩

/-- Back to the enclosing part. -/
def popped (st : St) : St :=
  match st.below with
  | [] => { st with top := ⟨false, false, false, false⟩ }
  | s :: bl => { st with top := s, below := bl }

theorem doEndif_popped (st : St) (h : st.top.inif = true) : doEndif st = .go (popped st) := by
  unfold doEndif popped
  rw [h]
  simp only [Bool.not_true, Bool.false_eq_true, if_false]
  cases st.below <;> rfl

/-- The evaluation of includes agrees with the specification. -/
def Agree (inc : Str → UD → Option (Str × UD)) : Prop :=
  ∀ n u o u', inc n u = some (o, u') → incOf E ev dir n u = ⟨.ok, o, u'⟩

theorem item_run {inc : Str → UD → Option (Str × UD)} (hA : Agree E ev dir inc) (st : St) {live : Bool} (hl : st.top.elide = !live)
    (i : Item) (hok : i.ok) {o : Str} {u : UD} (h : i.act E.key inc live st.ud = some (o, u)) :
    directive E ev dir st (35 :: i.render) = .go (more st o u) := by
  cases i with
  | inc v n =>
    apply item_inc E ev dir st v n hok
    rw [hl]
    cases live with
    | false =>
      simp only [Item.act, Bool.false_eq_true, if_false, Option.some.injEq, Prod.mk.injEq] at h
      simp [h.1.symm, h.2]
    | true =>
      simp only [Item.act, if_true] at h
      simp [hA n _ _ _ h]
  | echo q t =>
    cases live with
    | false => cases h
    | true =>
      rw [item_echo E ev dir st q t hok]
      have h := Prod.mk.inj (Option.some.inj h)
      rw [← h.1, ← h.2]
      rfl
  | echoVar q a n b =>
    cases live with
    | false => cases h
    | true => exact item_echoVar E ev dir st q a n b hok h
  | set q k v =>
    cases live with
    | false => cases h
    | true =>
      cases hu : st.ud with
      | none => rw [hu] at h; cases h
      | some f =>
        rw [hu] at h
        have h := Prod.mk.inj (Option.some.inj h)
        rw [item_set E ev dir st q k v hok hu, ← h.1, ← h.2]
        simp [more]

theorem clean_else : Clean (asc "else") := by
  refine ⟨by decide +kernel, ?_⟩
  rintro ⟨a, b, e⟩
  have : (45 : UInt8) ∈ asc "else" := by rw [e]; simp [closing]
  exact absurd this (by decide +kernel)

theorem clean_endif : Clean (asc "endif") := by
  refine ⟨by decide +kernel, ?_⟩
  rintro ⟨a, b, e⟩
  have : (45 : UInt8) ∈ asc "endif" := by rw [e]; simp [closing]
  exact absurd this (by decide +kernel)

theorem Item.ok_clean {i : Item} (h : i.ok) : Clean i.render := by
  cases i with
  | inc v n => exact h.2.2
  | echo q t => exact h.2.2
  | echoVar q a n b => exact h.2.2.2
  | set q k v => exact h.2.2.2

/-- The state after an `#if`. -/
theorem push_shape {st : St} {live : Bool} {lvl : Nat} (h : Shape st live lvl) (hl : lvl + 1 ≤ 10) (b : Bool) :
    ∃ st1, pushIf st = some st1 ∧ st1.ud = st.ud ∧ st1.out = st.out ∧ st1.bad = st.bad ∧
      st1.top = ⟨true, false, false, !live⟩ ∧ outer st1.below = !live ∧ st1.below.length = lvl ∧
      ∀ o u tp, popped ⟨o, u, tp, st1.below, st1.bad⟩ = ⟨o, u, st.top, st.below, st.bad⟩ := by
  unfold pushIf
  rcases h.lv with ⟨h1, h2⟩ | ⟨h1, h2, h3⟩
  · rw [if_pos h1, if_neg (by omega)]
    refine ⟨_, rfl, rfl, rfl, rfl, ?_, ?_, ?_, ?_⟩
    · simp [h.el]
    · exact h.el
    · simp [h2]
    · intro o u tp
      rfl
  · rw [if_neg (by rw [h1]; simp)]
    have hli : live = true := by
      have := h.el
      rw [h1] at this
      simpa using this
    refine ⟨_, rfl, rfl, rfl, rfl, ?_, ?_, ?_, ?_⟩
    · simp [h1, hli]
    · simp [h2, hli, outer]
    · simp [h2, h3]
    · intro o u tp
      simp [popped, h2, h1]

theorem setIf_eq (b live : Bool) : setIf b ⟨true, false, false, !live⟩ = ⟨true, false, b, !(live && b)⟩ := by
  cases b <;> cases live <;> rfl

theorem setElif_eq (b taken live e : Bool) (bl : List Slot) (h : outer bl = !live) :
    setElif b ⟨true, false, taken, e⟩ bl = ⟨true, false, taken || b, !(live && (!taken && b))⟩ := by
  cases b <;> cases live <;> cases taken <;> simp [setElif, h]

/-- `do` in the specification. -/
theorem bind_some {α β : Type} {x : Option α} {f : α → Option β} {y : β} (h : x.bind f = some y) : ∃ a, x = some a ∧ f a = some y := by
  cases x with
  | none => cases h
  | some a => exact ⟨a, rfl, h⟩

mutual
theorem doc_run {inc : Str → UD → Option (Str × UD)} (hA : Agree E ev dir inc) (f live : Bool) (lvl : Nat) (k : Str) (r : Res → Prop) :
    ∀ (doc : Doc) (st : St) (o : Str) (u : UD), doc.ok → doc.mean E.query E.key inc f live st.ud = some (o, u) → Shape st live lvl →
      lvl + doc.depth ≤ 10 → skipNl k = k → Tail E ev dir k (more st o u) r → Run E ev dir (rd f doc ++ k) st r
  | .text t, st, o, u, hok, hm, hs, _, _, hT => by
    rw [Doc.mean] at hm
    have hm := Prod.mk.inj (Option.some.inj hm)
    rw [rd]
    rw [Doc.ok] at hok
    apply hT _ _ (free_chunk f hok)
    rw [addText_eq st hs.el, hm.1, hm.2]
  | .item t i rest, st, o, u, hok, hm, hs, hd, hk, hT => by
    rw [Doc.ok] at hok
    rw [Doc.mean] at hm
    rw [Doc.depth] at hd
    obtain ⟨⟨o1, u1⟩, h1, hm⟩ := bind_some hm
    obtain ⟨⟨o2, u2⟩, h2, hm⟩ := bind_some hm
    have hm := Prod.mk.inj (Option.some.inj hm)
    rw [rd]
    simp only [List.append_assoc]
    have ha := addText_eq st hs.el (chunk f t)
    have hs0 := hs.more (if live then chunk f t else []) st.ud
    rw [← ha] at hs0
    have hud : (addText st (chunk f t)).ud = st.ud := by rw [ha]; rfl
    refine run_tag E ev dir (free_chunk f hok.1) (Item.ok_clean hok.2.1) (item_run E ev dir hA _ hs0.el i hok.2.1 (by rw [hud]; exact h1)) ?_
    rw [skipNl_doc rest hk]
    refine doc_run hA true live lvl k r rest _ o2 u2 hok.2.2 h2 (hs0.more o1 u1) hd hk ?_
    rw [more_more, ha, more_more, hm.1, hm.2]
    exact hT
  | .cond t c body alt rest, st, o, u, hok, hm, hs, hd, hk, hT => by
    rw [Doc.ok] at hok
    rw [Doc.mean] at hm
    rw [Doc.depth] at hd
    obtain ⟨b, h0, hm⟩ := bind_some hm
    obtain ⟨⟨o1, u1⟩, h1, hm⟩ := bind_some hm
    obtain ⟨⟨o2, u2⟩, h2, hm⟩ := bind_some hm
    obtain ⟨⟨o3, u3⟩, h3, hm⟩ := bind_some hm
    have hm := Prod.mk.inj (Option.some.inj hm)
    rw [rd]
    simp only [List.append_assoc]
    have ha := addText_eq st hs.el (chunk f t)
    have hs0 := hs.more (if live then chunk f t else []) st.ud
    rw [← ha] at hs0
    have hud : (addText st (chunk f t)).ud = st.ud := by rw [ha]; rfl
    obtain ⟨st1, p1, p2, p3, p4, p5, p6, p7, p8⟩ := push_shape hs0 (by omega) b
    refine run_tag E ev dir (free_chunk f hok.1) hok.2.1.2.1 ((directive_if E ev dir _ c).trans (doCond_if E _ c hok.2.1 p1 (by rw [p2, hud]; exact h0))) ?_
    rw [skipNl_doc body (skipNl_alt alt _)]
    rw [p5, setIf_eq]
    refine doc_run hA true (live && b) (lvl + 1) _ r body _ o1 u1 hok.2.2.1 (by rw [← hud, ← p2] at h1; exact h1) ?_ (by omega) (skipNl_alt alt _) ?_
    · refine ⟨?_, rfl, Or.inl ⟨rfl, ?_⟩⟩
      · rw [← hs0.bad]
        exact p4
      · show lvl + 1 = st1.below.length + 1
        omega
    · intro t' st' ht' hst'
      refine alt_run hA live b (!(live && b)) lvl (rest.render ++ k) r alt t' st' _ o2 u2 hok.2.2.2.1 ?_ ht' hst' ?_ ?_ ?_ (by omega) ?_
      · exact h2
      · exact (congrArg (· = false) (p4.trans hs0.bad)).mpr rfl
      · rfl
      · exact ⟨p6, p7⟩
      · rw [skipNl_doc rest hk]
        refine doc_run hA true live lvl k r rest _ o3 u3 hok.2.2.2.2 ?_ ?_ (by omega) hk ?_
        · have := p8 ((st1.out ++ o1) ++ o2) u2 ⟨true, false, b, !(live && b)⟩
          refine Eq.trans (congrArg (fun s : St => Doc.mean E.query E.key inc true live s.ud rest) this) h3
        · have := p8 ((st1.out ++ o1) ++ o2) u2 ⟨true, false, b, !(live && b)⟩
          show Shape (popped ⟨(st1.out ++ o1) ++ o2, u2, ⟨true, false, b, !(live && b)⟩, st1.below, st1.bad⟩) live lvl
          rw [this]
          exact ⟨hs0.bad, hs0.el, hs0.lv⟩
        · have := p8 ((st1.out ++ o1) ++ o2) u2 ⟨true, false, b, !(live && b)⟩
          show Tail E ev dir k (more (popped ⟨(st1.out ++ o1) ++ o2, u2, ⟨true, false, b, !(live && b)⟩, st1.below, st1.bad⟩) o3 u3) r
          rw [this, p3, ha]
          have : more ⟨(more st (if live then chunk f t else []) st.ud).out ++ o1 ++ o2, u2, (more st (if live then chunk f t else []) st.ud).top,
              (more st (if live then chunk f t else []) st.ud).below, (more st (if live then chunk f t else []) st.ud).bad⟩ o3 u3 = more st o u := by
            rw [← hm.1, ← hm.2]
            simp [more]
          rw [this]
          exact hT
theorem alt_run {inc : Str → UD → Option (Str × UD)} (hA : Agree E ev dir inc) (live taken e : Bool) (lvl : Nat) (rest : Str) (r : Res → Prop) :
    ∀ (alt : Alt) (t : Str) (st0 st : St) (o : Str) (u : UD), alt.ok → alt.mean E.query E.key inc live taken st.ud = some (o, u) →
      Free opening t → addText st0 t = st → st.bad = false → st.top = ⟨true, false, taken, e⟩ → outer st.below = !live ∧ st.below.length = lvl →
      lvl + (1 + alt.depth) ≤ 10 → Run E ev dir (skipNl rest) (popped ⟨st.out ++ o, u, ⟨true, false, taken, e⟩, st.below, st.bad⟩) r →
      Run E ev dir (t ++ (alt.render ++ rest)) st0 r
  | .fin, t, st0, st, o, u, hok, hm, ht, hst, hbad, htop, hbl, hd, hR => by
    rw [Alt.mean] at hm
    have hm := Prod.mk.inj (Option.some.inj hm)
    rw [Alt.render]
    refine run_tag E ev dir ht clean_endif (by rw [hst]; exact (directive_endif E ev dir st).trans (doEndif_popped st (by rw [htop]))) ?_
    have : (⟨st.out ++ o, u, ⟨true, false, taken, e⟩, st.below, st.bad⟩ : St) = st := by
      rw [← hm.1, ← hm.2, List.append_nil, ← htop]
    rw [this] at hR
    exact hR
  | .els body, t, st0, st, o, u, hok, hm, ht, hst, hbad, htop, hbl, hd, hR => by
    rw [Alt.mean] at hm
    rw [Alt.ok] at hok
    rw [Alt.depth] at hd
    rw [Alt.render]
    simp only [List.append_assoc]
    have hel : doElse st = .go ⟨st.out, st.ud, ⟨true, true, taken, !(live && !taken)⟩, st.below, st.bad⟩ := by
      unfold doElse
      rw [htop]
      simp only [Bool.not_true, Bool.or_self, Bool.false_eq_true, if_false, hbl.1]
      cases live <;> cases taken <;> rfl
    refine run_tag E ev dir ht clean_else (by rw [hst]; exact (directive_else E ev dir st).trans hel) ?_
    rw [skipNl_doc body (skipNl_tag _ _)]
    refine doc_run hA true (live && !taken) (lvl + 1) _ r body _ o u hok hm ?_ (by omega) (skipNl_tag _ _) ?_
    · exact ⟨hbad, rfl, Or.inl ⟨rfl, by show lvl + 1 = st.below.length + 1; omega⟩⟩
    · intro t' st' ht' hst'
      refine run_tag E ev dir ht' clean_endif (by rw [hst']; exact (directive_endif E ev dir _).trans (doEndif_popped _ rfl)) ?_
      have : popped (more ⟨st.out, st.ud, ⟨true, true, taken, !(live && !taken)⟩, st.below, st.bad⟩ o u) = popped ⟨st.out ++ o, u, ⟨true, false, taken, e⟩, st.below, st.bad⟩ := by
        unfold popped more
        cases st.below <;> rfl
      rw [this]
      exact hR
  | .elif c body alt, t, st0, st, o, u, hok, hm, ht, hst, hbad, htop, hbl, hd, hR => by
    rw [Alt.mean] at hm
    rw [Alt.ok] at hok
    rw [Alt.depth] at hd
    obtain ⟨b, h0, hm⟩ := bind_some hm
    obtain ⟨⟨o1, u1⟩, h1, hm⟩ := bind_some hm
    obtain ⟨⟨o2, u2⟩, h2, hm⟩ := bind_some hm
    have hm := Prod.mk.inj (Option.some.inj hm)
    rw [Alt.render]
    simp only [List.append_assoc]
    refine run_tag E ev dir ht hok.1.2.2 (by rw [hst]; exact (directive_elif E ev dir st c).trans (doCond_elif E st c hok.1 (by rw [htop]) h0)) ?_
    rw [skipNl_doc body (skipNl_alt alt _), htop, setElif_eq _ _ _ _ _ hbl.1]
    refine doc_run hA true (live && (!taken && b)) (lvl + 1) _ r body _ o1 u1 hok.2.1 h1 ?_ (by omega) (skipNl_alt alt _) ?_
    · exact ⟨hbad, rfl, Or.inl ⟨rfl, by show lvl + 1 = st.below.length + 1; omega⟩⟩
    · intro t' st' ht' hst'
      refine alt_run hA live (taken || b) (!(live && (!taken && b))) lvl rest r alt t' st' _ o2 u2 hok.2.2 h2 ht' hst' hbad rfl hbl (by omega) ?_
      have : popped ⟨(more (⟨st.out, st.ud, ⟨true, false, taken || b, !(live && (!taken && b))⟩, st.below, st.bad⟩ : St) o1 u1).out ++ o2, u2,
          ⟨true, false, taken || b, !(live && (!taken && b))⟩, st.below, st.bad⟩ = popped ⟨st.out ++ o, u, ⟨true, false, taken, e⟩, st.below, st.bad⟩ := by
        unfold popped more
        rw [← hm.1, ← hm.2]
        cases st.below <;> simp
      exact (congrArg (fun s => Run E ev dir (skipNl rest) s r) this).mpr hR
end

end Verif.Web
