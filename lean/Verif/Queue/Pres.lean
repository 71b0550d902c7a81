import Verif.Queue.Inv

/-! The invariant of the queue machine is kept by every step of a schedule without nested callbacks, failed locks and
deletion of the interpreter. -/

namespace Verif.Queue

variable {M R : Type}

theorem Core.ctl {s s' : St M R} {c c' : Option CPc} {q : List Nat} (h : Core s c q) (h1 : s'.fault = s.fault) (h2 : s'.heap = s.heap)
    (h3 : s'.head = s.head) (h4 : s'.fresh = s.fresh) (h5 : s'.started = s.started) (h6 : s'.finished = s.finished)
    (h7 : s'.posted = s.posted) (k1 : ∀ a, seOf c' = some a → q.head? = some a) (k2 : runOf c' = runOf c) (k3 : doneOf c' = doneOf c)
    (k4 : ∀ p, oldOf c' = some p → oldOf c = some p) (k5 : s'.lock = some none ↔ critC c' = true) : Core s' c' q where
  nf := h1.trans h.nf
  chain := by rw [h2, h3]; exact h.chain
  nodup := h.nodup
  fresh := by rw [h2, h4]; exact h.fresh
  recs := by rw [h2, k3]; exact h.recs
  se := k1
  running := by rw [h2, h5, h6, k2]; exact h.running
  done := by rw [h2, h5, h7, k3]; exact h.done
  old := by rw [h2]; exact fun a e he => h.old a e (k4 _ he)
  st := by rw [h5, h6, k2]; exact h.st
  po := by rw [h2, h6, h7, k3]; exact h.po
  lk := k5

theorem Prod.ctl {s s' : St M R} {q : List Nat} {t : Nat} (h : Prod s q t) (h2 : s'.heap = s.heap)
    (h6 : s'.finished = s.finished) (h7 : s'.returned = s.returned)
    (k1 : buildOf (s'.prods t) = buildOf (s.prods t)) (k2 : ownOf (s'.prods t) = ownOf (s.prods t))
    (k3 : ∀ a b se, s'.prods t = .walk a b se → se ∈ q)
    (k4 : ∀ a, s'.prods t = .fin a → ∀ r, s.heap a = some r → r.isExec = false)
    (k5 : s'.lock = some (some t) ↔ critP (s'.prods t) = true) : Prod s' q t where
  build := by rw [h2, k1]; exact h.build
  walk := k3
  own := by rw [h2, h6, h7, k2]; exact h.own
  noown := by rw [h6, h7, k2]; exact h.noown
  uniq := by rw [h2, k2]; exact h.uniq
  fin := by rw [h2]; exact k4
  lk := k5

/-- Nothing that concerns the thread has changed. -/
theorem Prod.same {s s' : St M R} {q : List Nat} {t : Nat} (h : Prod s q t) (h2 : s'.heap = s.heap)
    (h6 : s'.finished = s.finished) (h7 : s'.returned = s.returned) (hp : s'.prods t = s.prods t)
    (k5 : s'.lock = some (some t) ↔ s.lock = some (some t)) : Prod s' q t :=
  h.ctl h2 h6 h7 (by rw [hp]) (by rw [hp]) (by rw [hp]; exact h.walk) (by rw [hp]; exact h.fin) (by rw [hp, k5]; exact h.lk)

theorem setP_same (s : St M R) (t : Nat) (p : PPc M) : (s.setP t p).prods t = p := by simp [St.setP]
theorem setP_ne (s : St M R) {t u : Nat} (p : PPc M) (h : u ≠ t) : (s.setP t p).prods u = s.prods u := by simp [St.setP, h]

/-- A thread moves on and changes nothing else but the lock. -/
theorem Inv.moveP {s s1 : St M R} (h : Inv s) (t : Nat) (p : PPc M) (h1 : s1.fault = s.fault) (h2 : s1.heap = s.heap)
    (h3 : s1.head = s.head) (h4 : s1.fresh = s.fresh) (h5 : s1.started = s.started) (h6 : s1.finished = s.finished)
    (h7 : s1.posted = s.posted) (h8 : s1.returned = s.returned) (h9 : s1.frames = s.frames) (h10 : s1.prods = s.prods)
    (k1 : buildOf p = buildOf (s.prods t)) (k2 : ownOf p = ownOf (s.prods t))
    (k3 : ∀ a b se, p = .walk a b se → ∀ q, Core s s.frames.head? q → Prod s q t → se ∈ q)
    (k4 : ∀ a, p = .fin a → ∀ r, s.heap a = some r → r.isExec = false)
    (k5 : s1.lock = some (some t) ↔ critP p = true) (k6 : s1.lock = some none ↔ s.lock = some none)
    (k7 : ∀ u, u ≠ t → (s1.lock = some (some u) ↔ s.lock = some (some u))) : Inv (s1.setP t p) := by
  obtain ⟨q, hc, hp⟩ := h.q
  refine ⟨by show s1.frames.length ≤ 1; rw [h9]; exact h.one, q, ?_, fun u => ?_⟩
  · show Core _ s1.frames.head? q
    rw [h9]
    exact hc.ctl h1 h2 h3 h4 h5 h6 h7 hc.se rfl rfl (fun _ h => h) (k6.trans hc.lk)
  · by_cases e : u = t
    · subst e
      have e := setP_same s1 u p
      exact (hp u).ctl h2 h6 h8 (by rw [e]; exact k1) (by rw [e]; exact k2) (by rw [e]; exact fun a b se h => k3 a b se h q hc (hp u))
        (by rw [e]; exact k4) (by rw [e]; exact k5)
    · exact (hp u).same h2 h6 h8 (by rw [setP_ne _ _ e, h10]) (k7 u e)

/-- The owner moves on and changes nothing else but the lock. -/
theorem Inv.moveC {s s1 : St M R} (h : Inv s) (h1 : s1.fault = s.fault) (h2 : s1.heap = s.heap)
    (h3 : s1.head = s.head) (h4 : s1.fresh = s.fresh) (h5 : s1.started = s.started) (h6 : s1.finished = s.finished)
    (h7 : s1.posted = s.posted) (h8 : s1.returned = s.returned) (h9 : s1.frames.length ≤ 1) (h10 : s1.prods = s.prods)
    (k1 : ∀ a, seOf s1.frames.head? = some a → seOf s.frames.head? = some a ∨ s.head = some a)
    (k2 : runOf s1.frames.head? = runOf s.frames.head?) (k3 : doneOf s1.frames.head? = doneOf s.frames.head?)
    (k4 : ∀ p, oldOf s1.frames.head? = some p → oldOf s.frames.head? = some p)
    (k5 : s1.lock = some none ↔ critC s1.frames.head? = true)
    (k7 : ∀ u, (s1.lock = some (some u) ↔ s.lock = some (some u))) : Inv s1 := by
  obtain ⟨q, hc, hp⟩ := h.q
  refine ⟨h9, q, ?_, fun u => (hp u).same h2 h6 h8 (by rw [h10]) (k7 u)⟩
  refine hc.ctl h1 h2 h3 h4 h5 h6 h7 (fun a ha => ?_) k2 k3 k4 k5
  rcases k1 a ha with h' | h'
  · exact hc.se a h'
  · rw [← hc.chain.head_eq, h']

theorem init_inv : Inv (init M R) := by
  refine ⟨by simp [init], [], ⟨rfl, trivial, List.nodup_nil, fun _ _ => rfl, (fun a h => by cases h), (fun a h => by cases h),
    (fun a e h => by cases h), (fun a e h => by cases h), (fun a e h => by cases h), fun _ => rfl, fun _ => rfl, ?_⟩, fun t => ?_⟩
  · simp [init, critC]
  · refine ⟨(fun a b h => by cases h), (fun a b c h => by cases h), (fun a h => by cases h), fun _ => rfl, (fun a h => by cases h),
      (fun a h => by cases h), ?_⟩
    simp [init, critP]

/-! ### Posting threads -/

theorem frames_one {s : St M R} (h : s.frames.length ≤ 1) {c fs} (e : s.frames = c :: fs) : fs = [] := by
  rw [e] at h
  cases fs with
  | nil => rfl
  | cons => simp at h

/-- The heap changes only where the owner does not look. -/
theorem Core.agree {s s' : St M R} {c c' : Option CPc} {q : List Nat} (h : Core s c q)
    (hag : ∀ a, (a ∈ q ∨ ∃ e, oldOf c' = some (a, e)) → s'.heap a = s.heap a) (hfr : ∀ a, s'.fresh ≤ a → s'.heap a = none)
    (h1 : s'.fault = s.fault) (h3 : s'.head = s.head) (h5 : s'.started = s.started) (h6 : s'.finished = s.finished)
    (h7 : s'.posted = s.posted) (k1 : ∀ a, seOf c' = some a → q.head? = some a) (k2 : runOf c' = runOf c) (k3 : doneOf c' = doneOf c)
    (k4 : ∀ p, oldOf c' = some p → oldOf c = some p) (k5 : s'.lock = some none ↔ critC c' = true) : Core s' c' q where
  nf := h1.trans h.nf
  chain := by rw [h3]; exact h.chain.congr (fun a ha => by rw [hag a (.inl ha)])
  nodup := h.nodup
  fresh := hfr
  recs := by
    rw [k3]
    intro a ha
    rw [hag a (.inl ha)]; exact h.recs a ha
  se := k1
  running := by
    rw [h5, h6, k2]
    intro a e he
    have := h.running a e he
    rw [hag a (.inl (List.mem_of_mem_head? this.1))]; exact this
  done := by
    rw [h5, h7, k3]
    intro a e he
    obtain ⟨q', hq, r, hr, h2, h3, h4, h5⟩ := h.done a e he
    refine ⟨q', hq, r, by rw [hag a (.inl (hq ▸ List.mem_cons_self))]; exact hr, h2, h3, h4, h5.trans ?_⟩
    rw [posts_congr (h := s.heap) (h' := s'.heap)]
    intro x hx
    rw [hag x (.inl (hq ▸ List.mem_cons_of_mem _ hx))]
  old := by
    intro a e he
    rw [hag a (.inr ⟨e, he⟩)]; exact h.old a e (k4 _ he)
  st := by rw [h5, h6, k2]; exact h.st
  po := by
    rw [h6, h7, k3]
    intro he
    refine (h.po he).trans ?_
    rw [posts_congr (h := s.heap) (h' := s'.heap)]
    intro x hx
    rw [hag x (.inl hx)]
  lk := k5

/-- The heap changes only where the thread does not look. -/
theorem Prod.agree {s s' : St M R} {q : List Nat} {t : Nat} (h : Prod s q t)
    (hag : ∀ a, (a ∈ q ∨ ownOf (s.prods t) = some a ∨ ∃ b, buildOf (s.prods t) = some (a, b)) → s'.heap a = s.heap a)
    (h6 : s'.finished = s.finished) (h7 : retOf s'.returned t = retOf s.returned t) (hp : s'.prods t = s.prods t)
    (k5 : s'.lock = some (some t) ↔ s.lock = some (some t)) : Prod s' q t where
  build := by
    rw [hp]
    intro a b hb
    rw [hag a (.inr (.inr ⟨b, hb⟩))]; exact h.build a b hb
  walk := by rw [hp]; exact h.walk
  own := by
    rw [hp, h6, h7]
    intro a ha
    rw [hag a (.inr (.inl ha))]; exact h.own a ha
  noown := by rw [hp, h6, h7]; exact h.noown
  uniq := by
    rw [hp]
    intro b hb r hr
    rw [hag b (.inl hb)] at hr; exact h.uniq b hb r hr
  fin := by
    rw [hp]
    intro a ha r hr
    rw [hag a (.inr (.inl (by rw [ha]; rfl)))] at hr; exact h.fin a ha r hr
  lk := by rw [hp, k5]; exact h.lk

/-- Records in use are there. -/
theorem Core.there {s : St M R} {c} {q : List Nat} (h : Core s c q) {a : Nat} (ha : a ∈ q ∨ ∃ e, oldOf c = some (a, e)) :
    ∃ r, s.heap a = some r := by
  rcases ha with ha | ⟨e, he⟩
  · obtain ⟨r, hr, _⟩ := h.recs a ha; exact ⟨r, hr⟩
  · obtain ⟨_, r, hr, _⟩ := h.old a e he; exact ⟨r, hr⟩

/-- Records of a thread are there. -/
theorem Prod.there {s : St M R} {c} {q : List Nat} {t : Nat} (hc : Core s c q) (h : Prod s q t) {a : Nat}
    (ha : a ∈ q ∨ ownOf (s.prods t) = some a ∨ ∃ b, buildOf (s.prods t) = some (a, b)) : ∃ r, s.heap a = some r := by
  rcases ha with ha | ha | ⟨b, hb⟩
  · exact hc.there (.inl ha)
  · obtain ⟨r, hr, _⟩ := h.own a ha; exact ⟨r, hr⟩
  · obtain ⟨_, r, hr, _⟩ := h.build a b hb; exact ⟨r, hr⟩

/-- A new record. -/
theorem Inv.alloc {s : St M R} (h : Inv s) {t : Nat} {m : M} {b : Bool} (hp : s.prods t = .alloc m b) :
    Inv (({ s with fresh := s.fresh + 1 }.put s.fresh ⟨⟨t, m, b⟩, true, b, none, none⟩).setP t (.look s.fresh b)) := by
  obtain ⟨q, hc, hq⟩ := h.q
  have hfr := hc.fresh s.fresh (Nat.le_refl _)
  have hh : ∀ a, (∃ r, s.heap a = some r) →
      ((({ s with fresh := s.fresh + 1 }.put s.fresh ⟨⟨t, m, b⟩, true, b, none, none⟩).setP t (.look s.fresh b)) : St M R).heap a = s.heap a := by
    rintro a ⟨r, hr⟩
    show (if a = s.fresh then _ else s.heap a) = s.heap a
    rw [if_neg]
    intro e; rw [e, hfr] at hr; cases hr
  refine ⟨h.one, q, hc.agree (fun a ha => hh a (hc.there ha)) (fun a ha => ?_) rfl rfl rfl rfl rfl hc.se rfl rfl (fun _ h => h) hc.lk, fun u => ?_⟩
  · show (if a = s.fresh then _ else s.heap a) = none
    have ha : s.fresh + 1 ≤ a := ha
    rw [if_neg (by omega)]; exact hc.fresh a (by omega)
  · by_cases e : u = t
    · subst e
      have hpu := hq u
      refine ⟨fun a b' hb => ?_, fun a b' se hs => ?_, fun a ha => ?_, fun _ => ?_, fun x hx r hr hw hs => ?_, fun a ha => ?_, ?_⟩
      · rw [setP_same] at hb
        cases hb
        refine ⟨fun e => ?_, ⟨⟨u, m, b⟩, true, b, none, none⟩, by simp [St.setP, St.put], rfl, rfl, rfl, rfl, rfl, rfl⟩
        obtain ⟨r, hr⟩ := hc.there (.inl e); rw [hfr] at hr; cases hr
      · rw [setP_same] at hs; cases hs
      · rw [setP_same] at ha; cases ha
      · exact hpu.noown (by rw [hp]; rfl)
      · rw [hh x (hc.there (.inl hx))] at hr
        have := hpu.uniq x hx r hr hw hs
        rw [hp] at this; cases this
      · rw [setP_same] at ha; cases ha
      · rw [setP_same]
        have := hpu.lk
        rw [hp] at this
        exact this
    · exact (hq u).agree (fun a ha => hh a ((hq u).there hc ha)) rfl rfl (setP_ne _ _ e) Iff.rfl

/-- The record of a waiting thread is freed. -/
theorem Inv.fin {s : St M R} (h : Inv s) {t a : Nat} (hp : s.prods t = .fin a) {r : Rec M R} (hr : s.heap a = some r) {x : R}
    (hx : r.rc = some x) : Inv ({ s.free a with returned := s.returned ++ [(t, x)] }.setP t .idle) := by
  obtain ⟨q, hc, hq⟩ := h.q
  have hown : ownOf (s.prods t) = some a := by rw [hp]; rfl
  obtain ⟨r', hr', hw, hs, hrc, hin, hres⟩ := (hq t).own a hown
  rw [hr] at hr'; cases hr'
  have hex : r.isExec = false := (hq t).fin a hp r hr
  have haq : a ∉ q := fun e => by
    obtain ⟨r2, h2, h3, _⟩ := hc.recs a e
    rw [hr] at h2; cases h2
    rw [hex, hs] at h3; cases h3
  have hold : ∀ e, oldOf s.frames.head? ≠ some (a, e) := fun e he => by
    obtain ⟨_, r2, h2, h3, h4, _⟩ := hc.old a e he
    rw [hr] at h2; cases h2
    rw [hex] at h3; rw [hs] at h4
    rw [← h3] at h4; cases h4
  have hh : ∀ y, y ≠ a → (({ s.free a with returned := s.returned ++ [(t, x)] }.setP t .idle) : St M R).heap y = s.heap y := by
    intro y hy
    show (if y = a then _ else s.heap y) = s.heap y
    rw [if_neg hy]
  refine ⟨h.one, q, hc.agree (fun y hy => hh y fun e => ?_) (fun y hy => ?_) rfl rfl rfl rfl rfl hc.se rfl rfl (fun _ h => h) hc.lk, fun u => ?_⟩
  · subst e
    rcases hy with hy | ⟨e, he⟩
    · exact haq hy
    · exact hold e he
  · show (if y = a then _ else s.heap y) = none
    split
    · rfl
    · exact hc.fresh y hy
  · by_cases e : u = t
    · subst e
      have hpu := hq u
      refine ⟨fun a b' hb => ?_, fun a b' se hs => ?_, fun a ha => ?_, fun _ => ?_, fun y hy ry hry hwy hsy => ?_, fun a ha => ?_, ?_⟩
      · rw [setP_same] at hb; cases hb
      · rw [setP_same] at hs; cases hs
      · rw [setP_same] at ha; cases ha
      · show resOf s.finished u = retOf (s.returned ++ [(u, x)]) u
        rw [hres, hx]
        simp [retOf]
      · have hya : y ≠ a := fun e => haq (e ▸ hy)
        rw [hh y hya] at hry
        have := hpu.uniq y hy ry hry hwy hsy
        rw [hown] at this; cases this; exact absurd hy haq
      · rw [setP_same] at ha; cases ha
      · rw [setP_same]
        have := hpu.lk
        rw [hp] at this
        exact this
    · refine (hq u).agree (fun y hy => hh y fun e' => ?_) rfl ?_ (setP_ne _ _ e) Iff.rfl
      · subst e'
        rcases hy with hy | hy | ⟨b, hb⟩
        · exact haq hy
        · obtain ⟨r2, h2, h3, _⟩ := (hq u).own y hy
          rw [hr] at h2; cases h2; exact e (h3.symm.trans hw)
        · obtain ⟨_, r2, h2, h3, _⟩ := (hq u).build y b hb
          rw [hr] at h2; cases h2; exact e (h3.symm.trans hw)
      · show retOf (s.returned ++ [(t, x)]) u = _
        simp only [retOf, List.filter_append]
        rw [List.filter_cons_of_neg (by simpa using fun h => e h.symm)]
        simp

/-- The record built by thread `t` is put behind the others. -/
theorem Inv.link {s s' : St M R} (h : Inv s) {t a : Nat} {b : Bool} (hb : buildOf (s.prods t) = some (a, b))
    (hb1 : critP (s.prods t) = true) (hb2 : ownOf (s.prods t) = none) {q : List Nat} (hc : Core s s.frames.head? q) (hq : ∀ t, Prod s q t)
    {ra : Rec M R} (hra : s.heap a = some ra) (hch : Chain s'.heap s'.head (q ++ [a]))
    (hh1 : ∀ y r, s.heap y = some r → ∃ n, s'.heap y = some { r with next := n }) (hh2 : ∀ y, y ∉ q → s'.heap y = s.heap y)
    (h1 : s'.fault = s.fault) (h4 : s'.fresh = s.fresh) (h5 : s'.started = s.started) (h6 : s'.finished = s.finished)
    (h7 : s'.posted = s.posted ++ [ra.post]) (h8 : s'.returned = s.returned) (h9 : s'.frames = s.frames) (h11 : s'.lock = s.lock)
    (h10 : s'.prods = fun u => if u = t then .unlock a b else s.prods u) : Inv s' := by
  obtain ⟨haq, r0, hr0, hw, hsy, hfi, hex, hrc, hnx⟩ := (hq t).build a b hb
  rw [hra] at hr0; cases hr0
  have hpost : ∀ l, (∀ y ∈ l, ∃ r, s.heap y = some r) → posts s'.heap l = posts s.heap l := fun l hl => posts_congr (fun y hy => by
    obtain ⟨r, hr⟩ := hl y hy
    obtain ⟨n, hn⟩ := hh1 y r hr
    rw [hn, hr]; rfl)
  have hqh : ∀ x, q.head? = some x → (q ++ [a]).head? = some x := by
    intro x hx
    cases q with
    | nil => cases hx
    | cons => exact hx
  refine ⟨by rw [h9]; exact h.one, q ++ [a], ?_, fun u => ?_⟩
  · rw [h9]
    refine ⟨h1.trans hc.nf, hch, ?_, fun y hy => ?_, fun y hy => ?_, fun y hy => hqh y (hc.se y hy), fun y e he => ?_, fun y e he => ?_, fun y e he => ?_,
      ?_, fun he => ?_, by rw [h11]; exact hc.lk⟩
    · rw [List.nodup_append]
      exact ⟨hc.nodup, by simp, fun x hx y hy e => haq (by rw [List.mem_singleton] at hy; rw [← hy, ← e]; exact hx)⟩
    · rw [h4] at hy
      have := hc.fresh y hy
      rw [hh2 y]
      · exact this
      · intro e; obtain ⟨r, hr⟩ := hc.there (.inl e); rw [this] at hr; cases hr
    · rcases List.mem_append.1 hy with hy | hy
      · obtain ⟨r, hr, h2, h3⟩ := hc.recs y hy
        obtain ⟨n, hn⟩ := hh1 y r hr
        exact ⟨_, hn, h2, h3⟩
      · rw [List.mem_singleton] at hy; subst hy
        obtain ⟨n, hn⟩ := hh1 y ra hra
        exact ⟨_, hn, by rw [hex, hsy], fun _ => ⟨hfi, hrc⟩⟩
    · obtain ⟨g1, r, hr, g2, g3⟩ := hc.running y e he
      obtain ⟨n, hn⟩ := hh1 y r hr
      exact ⟨hqh y g1, _, hn, g2, by rw [h5, h6]; exact g3⟩
    · obtain ⟨q', g1, r, hr, g2, g3, g4, g5⟩ := hc.done y e he
      obtain ⟨n, hn⟩ := hh1 y r hr
      refine ⟨q' ++ [a], by rw [g1]; rfl, _, hn, g2, g3, g4, ?_⟩
      rw [h7, h5, g5, hpost _ (fun z hz => by
        rcases List.mem_append.1 hz with hz | hz
        · exact hc.there (.inl (g1 ▸ List.mem_cons_of_mem _ hz))
        · rw [List.mem_singleton] at hz; subst hz; exact ⟨_, hra⟩), posts_append, posts_cons hra]
      simp [posts]
    · obtain ⟨g1, r, hr, g2⟩ := hc.old y e he
      refine ⟨fun h => ?_, r, by rw [hh2 y g1]; exact hr, g2⟩
      rcases List.mem_append.1 h with h | h
      · exact g1 h
      · rw [List.mem_singleton] at h; subst h
        rw [hra] at hr; cases hr
        cases e with
        | true => obtain ⟨x, hx⟩ := g2.2.2.1 rfl; rw [hrc] at hx; cases hx
        | false => have := g2.2.2.2 rfl; rw [hfi] at this; cases this
    · rw [h5, h6]; exact hc.st
    · rw [h7, h6, hc.po he, hpost _ (fun z hz => by
        rcases List.mem_append.1 hz with hz | hz
        · exact hc.there (.inl hz)
        · rw [List.mem_singleton] at hz; subst hz; exact ⟨_, hra⟩), posts_append, posts_cons hra]
      simp [posts]
  · have hpu := hq u
    by_cases e : u = t
    · subst e
      have hpp : s'.prods u = .unlock a b := by rw [h10]; simp
      refine ⟨fun a b' hb => ?_, fun a b' se hs => ?_, fun y hy => ?_, fun ho => ?_, fun y hy ry hry hwy hsy' => ?_, fun a ha => ?_, ?_⟩
      · rw [hpp] at hb; cases hb
      · rw [hpp] at hs; cases hs
      · rw [hpp] at hy
        have hbt : b = true ∧ y = a := by
          cases b with
          | false => cases hy
          | true => cases hy; exact ⟨rfl, rfl⟩
        obtain ⟨rfl, rfl⟩ := hbt
        refine ⟨ra, by rw [hh2 y haq]; exact hra, hw, hsy, fun h => (by rw [hex] at h; cases h), fun _ => by simp, ?_⟩
        rw [h6, h8, hrc, hpu.noown hb2]; simp
      · rw [h6, h8]; exact hpu.noown hb2
      · rcases List.mem_append.1 hy with hy | hy
        · obtain ⟨r, hr⟩ := hc.there (.inl hy)
          obtain ⟨n, hn⟩ := hh1 y r hr
          rw [hn] at hry; cases hry
          have := hpu.uniq y hy r hr hwy hsy'
          rw [hb2] at this; cases this
        · rw [List.mem_singleton] at hy; subst hy
          rw [hh2 y haq, hra] at hry; cases hry
          rw [hpp, ← hsy, hsy']; rfl
      · rw [hpp] at ha; cases ha
      · rw [hpp, h11, hpu.lk, hb1]; simp [critP]
    · have hpp : s'.prods u = s.prods u := by rw [h10]; simp [e]
      refine ⟨fun y b' hb' => ?_, fun y b' se hs => ?_, fun y hy => ?_, fun ho => ?_, fun y hy ry hry hwy hsy' => ?_, fun y hy ry hry => ?_, ?_⟩
      · obtain ⟨g1, r, hr, g2, g3⟩ := hpu.build y b' (hpp ▸ hb')
        refine ⟨fun h => ?_, r, by rw [hh2 y g1]; exact hr, g2, g3⟩
        rcases List.mem_append.1 h with h | h
        · exact g1 h
        · rw [List.mem_singleton] at h; subst h
          rw [hra] at hr; cases hr
          exact e (g2.symm.trans hw)
      · exact List.mem_append_left _ (hpu.walk y b' se (hpp ▸ hs))
      · obtain ⟨r, hr, g1, g2, g3, g4, g5⟩ := hpu.own y (hpp ▸ hy)
        obtain ⟨n, hn⟩ := hh1 y r hr
        exact ⟨_, hn, g1, g2, g3, fun h => List.mem_append_left _ (g4 h), by rw [h6, h8]; exact g5⟩
      · rw [h6, h8]; exact hpu.noown (hpp ▸ ho)
      · rcases List.mem_append.1 hy with hy | hy
        · obtain ⟨r, hr⟩ := hc.there (.inl hy)
          obtain ⟨n, hn⟩ := hh1 y r hr
          rw [hn] at hry; cases hry
          rw [hpp]; exact hpu.uniq y hy r hr hwy hsy'
        · rw [List.mem_singleton] at hy; subst hy
          rw [hh2 y haq, hra] at hry; cases hry
          exact absurd (hwy.symm.trans hw) e
      · obtain ⟨r, hr⟩ := hpu.there hc (.inr (.inl (by rw [← hpp, hy]; rfl)))
        obtain ⟨n, hn⟩ := hh1 y r hr
        rw [hn] at hry; cases hry
        exact hpu.fin y (hpp ▸ hy) r hr
      · rw [hpp, h11]; exact hpu.lk

/-- Every statement of a posting thread keeps the invariant. -/
theorem Inv.stepP {s s' : St M R} (h : Inv s) {t : Nat} (e : stepP s t = some s') : Inv s' := by
  unfold Queue.stepP at e
  cases hp : s.prods t with
  | idle => rw [hp] at e; cases e
  | want m b =>
    rw [hp] at e; simp only at e
    split at e
    · next hl =>
      have e := Option.some.inj e; subst e
      exact h.moveP t _ rfl rfl rfl rfl rfl rfl rfl rfl rfl rfl (by rw [hp]; rfl) (by rw [hp]; rfl) (fun _ _ _ h => by cases h)
        (fun _ h => by cases h) (by simp [critP]) (by simp [hl]) (fun u hu => by simp [hl, fun h : t = u => hu h.symm]; exact fun h => hu h.symm)
    · cases e
  | alloc m b =>
    rw [hp] at e; simp only at e
    have e := Option.some.inj e; subst e
    exact h.alloc hp
  | look a b =>
    rw [hp] at e; simp only at e
    obtain ⟨q, hc, hq⟩ := h.q
    obtain ⟨haq, ra, hra, hr2⟩ := (hq t).build a b (by rw [hp]; rfl)
    cases hh : s.head with
    | none =>
      rw [hh] at e; simp only [hra] at e
      have e := Option.some.inj e; subst e
      have hqn : q = [] := by
        have := hc.chain.head_eq
        rw [hh] at this
        cases q with
        | nil => rfl
        | cons => cases this
      subst hqn
      refine h.link (s' := _) (by rw [hp]; rfl) (by rw [hp]; rfl) (by rw [hp]; rfl) hc hq hra ?_ (fun y r hr => ⟨r.next, hr⟩) (fun _ _ => rfl)
        rfl rfl rfl rfl rfl rfl rfl rfl rfl
      exact ⟨rfl, ra, hra, by rw [hr2.2.2.2.2.2]; trivial⟩
    | some se =>
      rw [hh] at e; simp only at e
      have e := Option.some.inj e; subst e
      refine h.moveP t _ rfl rfl rfl rfl rfl rfl rfl rfl rfl rfl (by rw [hp]; rfl) (by rw [hp]; rfl) (fun a' b' se' h' q' hc' _ => ?_)
        (fun _ h => by cases h) (by rw [(hq t).lk, hp]; rfl) Iff.rfl (fun _ _ => Iff.rfl)
      cases h'
      have := hc'.chain.head_eq
      rw [hh] at this
      exact List.mem_of_mem_head? this.symm
  | walk a b se =>
    rw [hp] at e; simp only at e
    obtain ⟨q, hc, hq⟩ := h.q
    obtain ⟨haq, ra, hra, hr2⟩ := (hq t).build a b (by rw [hp]; rfl)
    have hse := (hq t).walk a b se hp
    obtain ⟨r, hr⟩ := hc.there (.inl hse)
    rw [hr] at e; simp only at e
    cases hn : r.next with
    | some se' =>
      rw [hn] at e; simp only at e
      have e := Option.some.inj e; subst e
      refine h.moveP t _ rfl rfl rfl rfl rfl rfl rfl rfl rfl rfl (by rw [hp]; rfl) (by rw [hp]; rfl) (fun a' b' se'' h' q' hc' hp' => ?_)
        (fun _ h => by cases h) (by rw [(hq t).lk, hp]; rfl) Iff.rfl (fun _ _ => Iff.rfl)
      cases h'
      exact hc'.chain.next_mem (hp'.walk a b se hp) hr hn
    | none =>
      rw [hn] at e; simp only [hra] at e
      have e := Option.some.inj e; subst e
      refine h.link (s' := _) (by rw [hp]; rfl) (by rw [hp]; rfl) (by rw [hp]; rfl) hc hq hra ?_ (fun y ry hry => ?_) (fun y hy => ?_)
        rfl rfl rfl rfl rfl rfl rfl rfl rfl
      · exact hc.chain.link hc.nodup haq hse hr hn ⟨ra, hra, hr2.2.2.2.2.2⟩ rfl
      · show ∃ n, (if y = se then _ else s.heap y) = _
        by_cases e : y = se
        · subst e; rw [hr] at hry; cases hry
          exact ⟨_, if_pos rfl⟩
        · rw [if_neg e]; exact ⟨ry.next, hry⟩
      · show (if y = se then _ else s.heap y) = _
        rw [if_neg (fun e => hy (by rw [e]; exact hse))]
  | unlock a b =>
    rw [hp] at e; simp only at e
    have e := Option.some.inj e; subst e
    obtain ⟨q, hc, hq⟩ := h.q
    have hl : s.lock = some (some t) := (hq t).lk.2 (by rw [hp]; rfl)
    refine h.moveP t _ rfl rfl rfl rfl rfl rfl rfl rfl rfl rfl ?_ ?_ (fun _ _ _ h => ?_) (fun _ h => ?_) ?_ (by simp [hl])
      (fun u hu => by simp [hl, fun h : t = u => hu h.symm]; exact fun h => hu h.symm)
    · rw [hp]; cases b <;> rfl
    · rw [hp]; cases b <;> rfl
    · cases b <;> cases h
    · cases b <;> cases h
    · cases b <;> simp [critP]
  | wait a =>
    rw [hp] at e; simp only at e
    obtain ⟨q, hc, hq⟩ := h.q
    obtain ⟨r, hr⟩ := (hq t).there hc (.inr (.inl (show ownOf (s.prods t) = some a by rw [hp]; rfl)))
    rw [hr] at e; simp only at e
    split at e
    · have e := Option.some.inj e; subst e; exact h
    · next he =>
      have e := Option.some.inj e; subst e
      refine h.moveP t _ rfl rfl rfl rfl rfl rfl rfl rfl rfl rfl (by rw [hp]; rfl) (by rw [hp]; rfl) (fun _ _ _ h => by cases h)
        (fun a' h' r' hr' => ?_) (by rw [(hq t).lk, hp]; rfl) Iff.rfl (fun _ _ => Iff.rfl)
      cases h'
      rw [hr] at hr'; cases hr'
      simpa using he
  | fin a =>
    rw [hp] at e; simp only at e
    obtain ⟨q, hc, hq⟩ := h.q
    obtain ⟨r, hr, _, _, hx, _⟩ := (hq t).own a (by rw [hp]; rfl)
    obtain ⟨x, hx⟩ := hx ((hq t).fin a hp r hr)
    simp only [hr, hx] at e
    have e := Option.some.inj e; subst e
    exact h.fin hp hr hx
  | evWant x =>
    rw [hp] at e; simp only at e
    split at e
    · next hl =>
      have e := Option.some.inj e; subst e
      exact h.moveP t _ rfl rfl rfl rfl rfl rfl rfl rfl rfl rfl (by rw [hp]; rfl) (by rw [hp]; rfl) (fun _ _ _ h => by cases h)
        (fun _ h => by cases h) (by simp [critP]) (by simp [hl]) (fun u hu => by simp [hl, fun h : t = u => hu h.symm]; exact fun h => hu h.symm)
    · cases e
  | evPut x =>
    rw [hp] at e; simp only at e
    have e := Option.some.inj e; subst e
    obtain ⟨q, hc, hq⟩ := h.q
    exact h.moveP t _ rfl rfl rfl rfl rfl rfl rfl rfl rfl rfl (by rw [hp]; rfl) (by rw [hp]; rfl) (fun _ _ _ h => by cases h)
        (fun _ h => by cases h) (by rw [(hq t).lk, hp]; rfl) Iff.rfl (fun _ _ => Iff.rfl)
  | evUnlock =>
    rw [hp] at e; simp only at e
    have e := Option.some.inj e; subst e
    obtain ⟨q, hc, hq⟩ := h.q
    have hl : s.lock = some (some t) := (hq t).lk.2 (by rw [hp]; rfl)
    exact h.moveP t _ rfl rfl rfl rfl rfl rfl rfl rfl rfl rfl (by rw [hp]; rfl) (by rw [hp]; rfl) (fun _ _ _ h => by cases h)
        (fun _ h => by cases h) (by simp [critP]) (by simp [hl]) (fun u hu => by simp [hl, fun h : t = u => hu h.symm]; exact fun h => hu h.symm)

end Verif.Queue
