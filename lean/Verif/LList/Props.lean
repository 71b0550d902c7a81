import Verif.LList.Model

namespace Verif.LList

/-! ### Specification: a list is a sequence of distinct entries -/

/-- Sequence, detached entries, next entry number. -/
structure Spec where
  seq : List Nat
  det : List Nat
  fresh : Nat

/-- Insert `i` before `b`, or at the end. -/
def insertBefore (l : List Nat) (b : Option Nat) (i : Nat) : List Nat :=
  match b with
  | none => l ++ [i]
  | some b => l.takeWhile (· ≠ b) ++ i :: l.dropWhile (· ≠ b)

def specStep (s : Spec) : Op → Spec
  | .new b => { s with seq := insertBefore s.seq b s.fresh, fresh := s.fresh + 1 }
  | .push i b => { s with seq := insertBefore (s.seq.erase i) b i, det := s.det.filter (· ≠ i) }
  | .pop i => { s with seq := s.seq.erase i, det := i :: s.det }
  | .delete i => { s with seq := s.seq.erase i, det := s.det.filter (· ≠ i) }
  | .clear => { s with seq := [] }

/-- The call is one the documentation allows (entries named are entries of the list, or detached). -/
def Valid (s : Spec) : Op → Prop
  | .new b => ∀ x, b = some x → x ∈ s.seq
  | .push i b => (i ∈ s.seq ∨ i ∈ s.det) ∧ ∀ x, b = some x → x ∈ s.seq ∧ x ≠ i
  | .pop i => i ∈ s.seq
  | .delete i => i ∈ s.seq ∨ i ∈ s.det
  | .clear => True

def specRun (s : Spec) : List Op → Spec
  | [] => s
  | o :: os => specRun (specStep s o) os

def specNew : Spec := ⟨[], [], 0⟩

/-- Every call of the history satisfies `P` in the state it is made in. -/
def All (P : Spec → Op → Prop) : Spec → List Op → Prop
  | _, [] => True
  | s, o :: os => P s o ∧ All P (specStep s o) os

/-- C20 in full. -/
def Full : Prop := ∀ ops, All Valid specNew ops → ∃ s, run new ops = some s ∧
  let l := (specRun specNew ops).seq
  fwd s = some l ∧ bwd s = some l.reverse ∧ s.num = l.length

/-- **C20** is false of the code: after removing the first entry, reverse traversal still visits it. -/
theorem C20_pop_head_refuted : ¬ Full := by
  intro h
  obtain ⟨s, hs, _, hb, _⟩ := h [.new none, .new none, .pop 0] (by simp [All, Valid, specNew, specStep, insertBefore])
  have hs' : (run new [.new none, .new none, .pop 0]).bind bwd = some [1, 0] := by decide
  rw [hs] at hs'
  simp only [Option.bind_some] at hs'
  rw [hb] at hs'
  revert hs'; decide

/-- Deleting the only entry leaves the list pointing at freed memory. -/
theorem C20_delete_only_entry_uaf :
    (run new [.new none, .delete 0]).isSome ∧ (run new [.new none, .delete 0]).bind fwd = none := by
  decide

/-- Deleting a removed first entry makes reverse traversal touch freed memory. -/
theorem C20_reverse_after_delete_uaf :
    (run new [.new none, .new none, .pop 0, .delete 0]).bind bwd = none := by
  decide

/-- After clearing, the list's last-entry pointer is dangling. -/
theorem C20_clear_uaf :
    (run new [.new none, .clear]).isSome ∧ (run new [.new none, .clear]).bind bwd = none := by
  decide

/-! ### Link structure -/

def Links (nx pv : Nat → Option Nat) : List Nat → Prop
  | [] => True
  | [a] => nx a = none
  | a :: b :: t => nx a = some b ∧ pv b = some a ∧ Links nx pv (b :: t)

def LinksTo (nx pv : Nat → Option Nat) : List Nat → Nat → Prop
  | [], _ => True
  | [a], b => nx a = some b ∧ pv b = some a
  | a :: c :: t, b => nx a = some c ∧ pv c = some a ∧ LinksTo nx pv (c :: t) b

theorem links_append {nx pv : Nat → Option Nat} : ∀ (xs : List Nat) (b : Nat) (ys : List Nat),
    Links nx pv (xs ++ b :: ys) ↔ LinksTo nx pv xs b ∧ Links nx pv (b :: ys)
  | [], b, ys => by simp [LinksTo]
  | [a], b, ys => by simp [LinksTo, Links, and_assoc]
  | a :: c :: t, b, ys => by
    have := links_append (nx := nx) (pv := pv) (c :: t) b ys
    simp only [List.cons_append, Links, LinksTo] at this ⊢
    rw [this]; simp [and_assoc]

theorem linksTo_snoc {nx pv : Nat → Option Nat} : ∀ (xs : List Nat) (p b : Nat),
    LinksTo nx pv (xs ++ [p]) b ↔ LinksTo nx pv xs p ∧ nx p = some b ∧ pv b = some p
  | [], p, b => by simp [LinksTo]
  | [a], p, b => by simp [LinksTo, and_assoc]
  | a :: c :: t, p, b => by
    have := linksTo_snoc (nx := nx) (pv := pv) (c :: t) p b
    simp only [List.cons_append, LinksTo] at this ⊢
    rw [this]; simp [and_assoc]

theorem links_congr {nx pv nx' pv' : Nat → Option Nat} : ∀ (l : List Nat),
    (∀ a ∈ l, nx a = nx' a) → (∀ a ∈ l.tail, pv a = pv' a) → Links nx pv l → Links nx' pv' l
  | [], _, _, _ => trivial
  | [a], h, _, hl => by simp [Links] at *; rw [← h]; exact hl
  | a :: b :: t, h, h2, hl => by
    simp only [Links] at *
    refine ⟨by rw [← h a (by simp)]; exact hl.1, by rw [← h2 b (by simp)]; exact hl.2.1, ?_⟩
    exact links_congr (b :: t) (fun x hx => h x (by simp at hx ⊢; right; exact hx))
      (fun x hx => h2 x (by simp at hx ⊢; right; exact hx)) hl.2.2

theorem linksTo_congr {nx pv nx' pv' : Nat → Option Nat} : ∀ (l : List Nat) (b : Nat),
    (∀ a ∈ l, nx a = nx' a) → (∀ a ∈ l.tail, pv a = pv' a) → (l ≠ [] → pv b = pv' b) →
    LinksTo nx pv l b → LinksTo nx' pv' l b
  | [], _, _, _, _, _ => trivial
  | [a], b, h, _, h3, hl => by
    simp [LinksTo] at *; rw [← h, ← h3]; exact hl
  | a :: c :: t, b, h, h2, h3, hl => by
    simp only [LinksTo] at *
    refine ⟨by rw [← h a (by simp)]; exact hl.1, by rw [← h2 c (by simp)]; exact hl.2.1, ?_⟩
    exact linksTo_congr (c :: t) b (fun x hx => h x (by simp at hx ⊢; right; exact hx))
      (fun x hx => h2 x (by simp at hx ⊢; right; exact hx)) (fun _ => h3 (by simp)) hl.2.2

/-- Representation: `clean` says that no first entry was removed from a longer list, nor the list
cleared. -/
structure Rep (s : L) (sp : Spec) (clean : Prop) : Prop where
  nodup : sp.seq.Nodup
  mem : ∀ a ∈ sp.seq, s.alive a = true
  alive : ∀ a, s.alive a = true → a < sp.fresh
  fresh : s.fresh = sp.fresh
  head : s.head = sp.seq.head?
  tail : sp.seq ≠ [] → s.tail = sp.seq.getLast?
  num : s.num = sp.seq.length
  links : Links s.nx s.pv sp.seq
  det : ∀ a, a ∉ sp.seq → s.alive a = true → s.nx a = none ∧ s.pv a = none
  detmem : ∀ a, a ∈ sp.det ↔ s.alive a = true ∧ a ∉ sp.seq
  clean : clean → (∀ h, sp.seq.head? = some h → s.pv h = none) ∧ (sp.seq = [] → s.tail = none)

theorem erase_mid {xs ys : List Nat} {i : Nat} (h : i ∉ xs) : (xs ++ i :: ys).erase i = xs ++ ys := by
  rw [List.erase_append_right _ h]; simp

@[simp] theorem upd_same {β : Type} (f : Nat → β) (i : Nat) (v : β) : upd f i v i = v := by simp [upd]
theorem upd_ne {β : Type} (f : Nat → β) {i j : Nat} (v : β) (h : j ≠ i) : upd f i v j = f j := by
  simp [upd, h]

theorem setNext_ok {s : L} {i : Nat} (v : Option Nat) (h : s.alive i = true) :
    s.setNext i v = some { s with nx := upd s.nx i v } := by simp [L.setNext, h]
theorem setPrev_ok {s : L} {i : Nat} (v : Option Nat) (h : s.alive i = true) :
    s.setPrev i v = some { s with pv := upd s.pv i v } := by simp [L.setPrev, h]
theorem next_ok {s : L} {i : Nat} (h : s.alive i = true) : s.next i = some (s.nx i) := by simp [L.next, h]
theorem prev_ok {s : L} {i : Nat} (h : s.alive i = true) : s.prev i = some (s.pv i) := by simp [L.prev, h]

theorem rep_pop {s : L} {sp : Spec} {c : Prop} (h : Rep s sp c) (i : Nat) (hi : i ∈ sp.seq) :
    ∃ s', pop s i = some s' ∧ s'.alive = s.alive ∧
      Rep s' (specStep sp (.pop i)) (c ∧ ¬ (sp.seq.head? = some i ∧ 2 ≤ sp.seq.length)) := by
  obtain ⟨xs, ys, hl⟩ := List.append_of_mem hi
  obtain ⟨l, dt, fr⟩ := sp
  simp only at hl hi
  subst hl
  obtain ⟨nodup, mem, al, fresh, head, tail, num, links, det, detm, cl⟩ := h
  simp only at *
  have hixs : i ∉ xs := by
    intro hx
    rw [List.nodup_append] at nodup
    exact nodup.2.2 i hx i (by simp) rfl
  have hiys : i ∉ ys := by
    rw [List.nodup_append] at nodup
    exact (List.nodup_cons.mp nodup.2.1).1
  have hxy : ∀ a ∈ xs, a ∉ ys := by
    intro a ha hy
    rw [List.nodup_append] at nodup
    exact nodup.2.2 a ha a (by simp [hy]) rfl
  have nodup' : (xs ++ ys).Nodup := by
    rw [List.nodup_append] at nodup ⊢
    refine ⟨nodup.1, (List.nodup_cons.mp nodup.2.1).2, ?_⟩
    intro a ha b hb; exact nodup.2.2 a ha b (by simp [hb])
  have hai := mem i (by simp)
  have hne : (xs ++ i :: ys) ≠ [] := by simp
  have htail := tail hne
  rw [links_append] at links
  -- the parts of the invariant that are the same in every case
  have common : ∀ (s' : L), s'.alive = s.alive → s'.fresh = s.fresh → s'.num = s.num - 1 →
      s'.head = (xs ++ ys).head? → (xs ++ ys ≠ [] → s'.tail = (xs ++ ys).getLast?) →
      Links s'.nx s'.pv (xs ++ ys) → s'.nx i = none → s'.pv i = none →
      (∀ a, a ∉ xs ++ i :: ys → s'.nx a = s.nx a ∧ s'.pv a = s.pv a) →
      ((c ∧ ¬ ((xs ++ i :: ys).head? = some i ∧ 2 ≤ (xs ++ i :: ys).length)) →
        (∀ h, (xs ++ ys).head? = some h → s'.pv h = none) ∧ (xs ++ ys = [] → s'.tail = none)) →
      Rep s' (specStep ⟨xs ++ i :: ys, dt, fr⟩ (.pop i))
        (c ∧ ¬ ((xs ++ i :: ys).head? = some i ∧ 2 ≤ (xs ++ i :: ys).length)) := by
    intro s' e1 e2 e3 e4 e5 e6 e7 e8 e9 e10
    have hseq : (specStep ⟨xs ++ i :: ys, dt, fr⟩ (.pop i)).seq = xs ++ ys := by
      simp [specStep, erase_mid hixs]
    refine ⟨by rw [hseq]; exact nodup', ?_, ?_, ?_, by rw [hseq]; exact e4, by rw [hseq]; exact e5, ?_,
      by rw [hseq]; exact e6, ?_, ?_, by rw [hseq]; exact e10⟩
    · rw [hseq, e1]; intro a ha; apply mem; simp at ha ⊢; rcases ha with h | h <;> simp [h]
    · rw [e1]; exact al
    · rw [e2]; exact fresh
    · rw [hseq, e3, num]; simp
    · rw [hseq, e1]
      intro a ha hal
      by_cases hai : a = i
      · subst hai; exact ⟨e7, e8⟩
      · have : a ∉ xs ++ i :: ys := by simp at ha ⊢; simp [ha, hai]
        rw [(e9 a this).1, (e9 a this).2]; exact det a this hal
    · rw [hseq, e1]
      intro a
      simp only [specStep, List.mem_cons, detm]
      by_cases hai' : a = i
      · subst hai'; simp [hai, hixs, hiys]
      · simp [hai']
  rcases List.eq_nil_or_concat xs with rfl | ⟨xs', p, rfl⟩
  · -- first entry
    cases ys with
    | nil =>
      have ht : s.tail = some i := by simpa using htail
      have hh : s.head = some i := by simpa using head
      refine ⟨{ s with head := none, tail := none, num := s.num - 1, nx := upd s.nx i none, pv := upd s.pv i none },
        by simp [pop, hh, ht, L.setNext, L.setPrev, hai], ?_, ?_⟩
      · rfl
      · apply common <;> simp
        · exact trivial
        · intro a ha; simp [upd, ha]
    | cons b ys =>
      have ht : s.tail = (b :: ys).getLast? := by simpa using htail
      have hh : s.head = some i := by simpa using head
      obtain ⟨t, ht'⟩ : ∃ t, (b :: ys).getLast? = some t := by
        cases hq : (b :: ys).getLast? with
        | none => simp at hq
        | some t => exact ⟨t, rfl⟩
      have hit : ¬ i = t := by
        intro h; subst h
        exact hiys (List.mem_of_getLast? ht')
      rw [ht'] at ht
      simp only [Links] at links
      refine ⟨{ s with head := some b, num := s.num - 1, nx := upd s.nx i none, pv := upd s.pv i none },
        by simp [pop, hh, ht, L.setNext, L.setPrev, L.next, hai, hit, links.2.1], ?_, ?_⟩
      · rfl
      · apply common
        · rfl
        · rfl
        · rfl
        · rfl
        · intro _; simpa [ht] using ht'.symm
        · apply links_congr _ _ _ links.2.2.2
          · intro a ha
            have : a ≠ i := fun e => hiys (e ▸ ha)
            simp [upd, this]
          · intro a ha
            have : a ≠ i := fun e => hiys (e ▸ List.mem_of_mem_tail ha)
            simp [upd, this]
        · simp
        · simp
        · intro a ha; simp at ha; simp [upd, ha.1]
        · intro hcc; exact absurd ⟨by simp, by simp⟩ hcc.2
  · -- an entry `p` comes before `i`
    rw [List.concat_eq_append] at *
    have hip : i ≠ p := fun e => hixs (by simp [e])
    obtain ⟨h0, hh0⟩ : ∃ h0, (xs' ++ [p]).head? = some h0 := by
      cases hq : (xs' ++ [p]).head? with
      | none => simp at hq
      | some t => exact ⟨t, rfl⟩
    have hh : s.head = some h0 := by
      rw [head, List.head?_append, hh0]; rfl
    have hih : ¬ i = h0 := by
      intro e; subst e; exact hixs (List.mem_of_head? hh0)
    have hap : s.alive p = true := mem p (by simp)
    rw [linksTo_snoc] at links
    cases ys with
    | nil =>
      have ht : s.tail = some i := by simpa using htail
      refine ⟨{ s with tail := some p, num := s.num - 1, nx := upd (upd s.nx p none) i none, pv := upd s.pv i none },
        by simp [pop, hh, ht, L.setNext, L.setPrev, L.prev, hai, hih, hap, links.1.2.2], ?_, ?_⟩
      · rfl
      · apply common
        · rfl
        · rfl
        · rfl
        · simp only [List.append_nil]; rw [hh0]; exact hh
        · simp
        · rw [List.append_nil, links_append]
          constructor
          · apply linksTo_congr _ _ _ _ _ links.1.1
            · intro a ha
              have h1 : a ≠ i := fun e => hixs (by simp [← e, ha])
              have h2 : a ≠ p := by
                intro e; subst e
                rw [List.nodup_append] at nodup'
                have := nodup'.1
                rw [List.nodup_append] at this
                exact this.2.2 a ha a (by simp) rfl
              simp [upd, h1, h2]
            · intro a ha
              have h1 : a ≠ i := fun e => hixs (by simp [← e, List.mem_of_mem_tail ha])
              simp [upd, h1]
            · intro _; simp [upd, hip.symm]
          · simp [Links, upd, hip.symm]
        · simp
        · simp
        · intro a ha; simp at ha; simp [upd, ha]
        · intro hcc
          refine ⟨?_, by simp⟩
          intro h hx
          have hne : h ≠ i := by intro e; subst e; simp only [List.append_nil] at hx; exact hixs (List.mem_of_head? hx)
          simp only [upd, hne, if_false]
          apply (cl hcc.1).1
          rw [List.head?_append]
          simp only [List.append_nil] at hx
          rw [hx]; rfl
    | cons n ys =>
      obtain ⟨t, ht'⟩ : ∃ t, (n :: ys).getLast? = some t := by
        cases hq : (n :: ys).getLast? with
        | none => simp at hq
        | some t => exact ⟨t, rfl⟩
      have ht : s.tail = some t := by
        rw [htail, List.getLast?_append, List.getLast?_cons_cons, ht']; rfl
      have hit : ¬ i = t := by
        intro h; subst h
        exact hiys (List.mem_of_getLast? ht')
      have han : s.alive n = true := mem n (by simp)
      have hin : i ≠ n := fun e => hiys (by simp [e])
      simp only [Links] at links
      have hpn : p ∉ (n :: ys) := hxy p (by simp)
      refine ⟨{ s with num := s.num - 1, nx := upd (upd s.nx p (some n)) i none,
                       pv := upd (upd s.pv n (some p)) i none },
        by simp [pop, hh, ht, L.setNext, L.setPrev, L.prev, L.next, hai, hih, hap, han, hit,
          links.1.2.2, links.2.1], ?_, ?_⟩
      · rfl
      · apply common
        · rfl
        · rfl
        · rfl
        · rw [List.head?_append, hh0]; simpa using hh
        · intro _; rw [List.getLast?_append, ht']; simpa using ht
        · rw [links_append, linksTo_snoc]
          refine ⟨⟨?_, ?_, ?_⟩, ?_⟩
          · apply linksTo_congr _ _ _ _ _ links.1.1
            · intro a ha
              have h1 : a ≠ i := fun e => hixs (by simp [← e, ha])
              have h2 : a ≠ p := by
                intro e; subst e
                rw [List.nodup_append] at nodup'
                have := nodup'.1
                rw [List.nodup_append] at this
                exact this.2.2 a ha a (by simp) rfl
              simp [upd, h1, h2]
            · intro a ha
              have h1 : a ≠ i := fun e => hixs (by simp [← e, List.mem_of_mem_tail ha])
              have h2 : a ≠ n := fun e => hxy a (by simp [List.mem_of_mem_tail ha]) (by simp [e])
              simp [upd, h1, h2]
            · intro _
              have h2 : p ≠ n := fun e => hpn (by simp [e])
              simp [upd, hip.symm, h2]
          · simp [upd, hip.symm]
          · simp [upd, hin.symm]
          · apply links_congr _ _ _ links.2.2.2
            · intro a ha
              have h1 : a ≠ i := fun e => hiys (e ▸ ha)
              have h2 : a ≠ p := fun e => hpn (e ▸ ha)
              simp [upd, h1, h2]
            · intro a ha
              have h1 : a ≠ i := fun e => hiys (e ▸ List.mem_of_mem_tail ha)
              have h2 : a ≠ n := by
                intro e; subst e
                rw [List.nodup_append] at nodup'
                exact (List.nodup_cons.mp nodup'.2.1).1 ha
              simp [upd, h1, h2]
        · simp
        · simp
        · intro a ha; simp at ha; simp [upd, ha]
        · intro hcc
          refine ⟨?_, by simp⟩
          intro h hx
          rw [List.head?_append, hh0] at hx
          simp at hx
          subst hx
          have h1 : h0 ≠ i := fun e => hih e.symm
          have h2 : h0 ≠ n := fun e => hxy h0 (List.mem_of_head? hh0) (by simp [e])
          simp only [upd, h1, h2, if_false]
          apply (cl hcc.1).1
          rw [List.head?_append, hh0]; rfl

theorem mid_of_mem {l : List Nat} {b : Nat} (hb : b ∈ l) :
    ∃ ys, l.dropWhile (· ≠ b) = b :: ys ∧ l = l.takeWhile (· ≠ b) ++ b :: ys := by
  induction l with
  | nil => simp at hb
  | cons a t ih =>
    by_cases h : a = b
    · subst h; exact ⟨t, by simp [List.dropWhile_cons], by simp [List.takeWhile_cons]⟩
    · have : b ∈ t := by simpa [Ne.symm h] using hb
      obtain ⟨ys, h1, h2⟩ := ih this
      refine ⟨ys, by simpa [List.dropWhile_cons, h] using h1, ?_⟩
      have e : (a :: t).takeWhile (· ≠ b) = a :: t.takeWhile (· ≠ b) := by
        simp [List.takeWhile_cons, h]
      rw [e, List.cons_append, ← h2]

/-- Inserting a detached entry. -/
theorem rep_insert {s : L} {sp : Spec} {c : Prop} (h : Rep s sp c) (i : Nat) (b : Option Nat)
    (hai : s.alive i = true) (hi : i ∉ sp.seq) (hb : ∀ x, b = some x → x ∈ sp.seq) :
    ∃ s', push s i b = some s' ∧ s'.alive = s.alive ∧
      Rep s' { sp with seq := insertBefore sp.seq b i, det := sp.det.filter (· ≠ i) } c := by
  obtain ⟨l, dt, fr⟩ := sp
  obtain ⟨nodup, mem, al, fresh, head, tail, num, links, det, detm, cl⟩ := h
  simp only at *
  have hni := (det i hi hai).1
  have hpi := (det i hi hai).2
  have hnopop : ¬ (s.head = some i ∨ s.pv i ≠ none ∨ s.nx i ≠ none) := by
    rintro (h | h | h)
    · rw [head] at h; exact hi (List.mem_of_head? h)
    · exact h hpi
    · exact h hni
  have hhi : ¬ s.head = some i := fun e => hnopop (.inl e)
  have common : ∀ (s' : L) (l' : List Nat), l'.Nodup → (∀ a, a ∈ l' ↔ a = i ∨ a ∈ l) →
      l'.length = l.length + 1 →
      s'.alive = s.alive → s'.fresh = s.fresh → s'.num = s.num + 1 →
      s'.head = l'.head? → s'.tail = l'.getLast? → Links s'.nx s'.pv l' →
      (∀ a, a ∉ l' → s'.nx a = s.nx a ∧ s'.pv a = s.pv a) →
      (c → ∀ h, l'.head? = some h → s'.pv h = none) →
      Rep s' { seq := l', det := dt.filter (· ≠ i), fresh := fr } c := by
    intro s' l' e1 e2 e3 e4 e5 e6 e7 e8 e9 e10 e11
    refine ⟨e1, ?_, by rw [e4]; exact al, e5.trans fresh, e7, fun _ => e8, ?_, e9, ?_, ?_, ?_⟩
    · intro a ha
      rw [e4]
      rcases (e2 a).mp ha with rfl | ha
      · exact hai
      · exact mem a ha
    · simp [e6, num, e3]
    · intro a ha hal
      simp only at ha
      rw [(e10 a ha).1, (e10 a ha).2]
      rw [e4] at hal
      exact det a (fun hx => ha ((e2 a).mpr (.inr hx))) hal
    · intro a
      simp only [List.mem_filter, detm, e2, e4]
      by_cases hai' : a = i <;> simp [hai']
    · intro hc
      refine ⟨e11 hc, ?_⟩
      intro hn
      simp only at hn
      rw [hn] at e3; simp at e3
  unfold push
  rw [prev_ok hai, next_ok hai, hni, hpi]
  simp only [Option.bind_eq_bind, Option.bind_some, Option.isSome_none, hhi, false_or, Bool.false_eq_true,
    if_false]
  cases l with
  | nil =>
    have hh : s.head = none := by simpa using head
    cases b with
    | some x => exact absurd (hb x rfl) (by simp)
    | none =>
      refine ⟨{ s with head := some i, tail := some i, num := s.num + 1 }, by simp [hh], rfl, ?_⟩
      apply common <;> simp [insertBefore]
      · exact hni
      · intro _; exact hpi
  | cons h0 l =>
    have hh : s.head = some h0 := by simpa using head
    have hih : ¬ i = h0 := by intro e; exact hi (by simp [e])
    cases b with
    | none =>
      have ht := tail (by simp)
      rcases List.eq_nil_or_concat (h0 :: l) with hnil | ⟨xs, t, hxt⟩
      · simp at hnil
      rw [List.concat_eq_append] at hxt
      rw [hxt] at ht links nodup hi mem head num common cl ⊢
      have ht' : s.tail = some t := by simpa using ht
      have hat : s.alive t = true := mem t (by simp)
      have hti : t ≠ i := by intro e; exact hi (by simp [e])
      rw [links_append] at links
      have htx : t ∉ xs := by
        intro hx
        rw [List.nodup_append] at nodup
        exact nodup.2.2 t hx t (by simp) rfl
      refine ⟨{ s with pv := upd s.pv i (some t), nx := upd s.nx t (some i), tail := some i, num := s.num + 1 },
        ?_, rfl, ?_⟩
      · simp [hh, hih, ht', L.setNext, L.setPrev, hai, hat]
      · apply common
        · simp only [insertBefore]
          rw [List.nodup_append]
          refine ⟨nodup, by simp, ?_⟩
          intro a ha b hb e; simp at hb; subst hb; subst e; exact hi ha
        · intro a; simp only [insertBefore, List.mem_append, List.mem_singleton]; exact Or.comm
        · simp [insertBefore]
        · rfl
        · rfl
        · rfl
        · simp only [insertBefore]; rw [List.head?_append, ← head, hh]; rfl
        · simp [insertBefore]
        · simp only [insertBefore]
          rw [links_append, linksTo_snoc]
          refine ⟨⟨?_, by simp, by simp⟩, ?_⟩
          · apply linksTo_congr _ _ _ _ _ links.1
            · intro a ha; rw [upd_ne]; intro e; exact htx (e ▸ ha)
            · intro a ha; rw [upd_ne]; intro e; exact hi (by rw [← e]; simp [List.mem_of_mem_tail ha])
            · intro _; rw [upd_ne _ _ hti]
          · simp [Links, upd_ne _ _ hti.symm, hni]
        · intro a ha
          simp [insertBefore] at ha
          simp [upd, ha]
        · intro hc h hx
          have hhead : (xs ++ [t]).head? = some h := by
            simp only [insertBefore] at hx
            rw [List.head?_append, ← head, hh] at hx
            simp at hx; rw [← head, hh, hx]
          simp only []
          rw [upd_ne]
          · exact (cl hc).1 h hhead
          · intro e; subst e; exact hi (List.mem_of_head? hhead)
    | some b =>
      have hbm := hb b rfl
      have ht := tail (by simp)
      by_cases hbh : b = h0
      · subst hbh
        have hins : insertBefore (b :: l) (some b) i = i :: b :: l := by
          simp [insertBefore, List.takeWhile_cons, List.dropWhile_cons]
        have hab : s.alive b = true := mem b (by simp)
        refine ⟨{ s with nx := upd s.nx i (some b), pv := upd s.pv b (some i), head := some i, num := s.num + 1 },
          ?_, rfl, ?_⟩
        · simp [hh, hih, L.setNext, L.setPrev, hai, hab]
        · rw [hins]
          apply common
          · exact List.nodup_cons.mpr ⟨hi, nodup⟩
          · intro a; exact List.mem_cons
          · simp
          · rfl
          · rfl
          · rfl
          · rfl
          · rw [List.getLast?_cons_cons]; exact ht
          · simp only [Links]
            refine ⟨by simp, by simp, ?_⟩
            apply links_congr _ _ _ links
            · intro a ha; rw [upd_ne]; intro e; exact hi (e ▸ ha)
            · intro a ha; rw [upd_ne]; intro e
              simp at ha
              exact (List.nodup_cons.mp nodup).1 (e ▸ ha)
          · intro a ha; simp at ha; simp [upd, ha]
          · intro _ h hx; simp at hx; subst hx; simp only []; rw [upd_ne _ _ hih]; exact hpi
      · obtain ⟨ys, hd, hl⟩ := mid_of_mem hbm
        have hxs : (h0 :: l).takeWhile (· ≠ b) ≠ [] := by simp [List.takeWhile_cons, Ne.symm hbh]
        have hins : insertBefore (h0 :: l) (some b) i = (h0 :: l).takeWhile (· ≠ b) ++ i :: b :: ys := by
          simp only [insertBefore, hd]
        generalize (h0 :: l).takeWhile (· ≠ b) = xs at hl hxs hins
        rw [hins]
        rw [hl] at hi nodup links mem head num ht common cl
        rcases List.eq_nil_or_concat xs with rfl | ⟨xs', q, rfl⟩
        · exact absurd rfl hxs
        rw [List.concat_eq_append] at *
        rw [links_append, linksTo_snoc] at links
        have hab : s.alive b = true := mem b (by simp)
        have haq : s.alive q = true := mem q (by simp)
        have hbi : b ≠ i := fun e => hi (by simp [e])
        have hqi : q ≠ i := fun e => hi (by simp [e])
        have hnd := nodup
        rw [List.nodup_append, List.nodup_append, List.nodup_cons (a := b)] at hnd
        have hqx : q ∉ xs' := fun hx => hnd.1.2.2 q hx q (by simp) rfl
        have hbx : ∀ a ∈ xs' ++ [q], a ≠ b := fun a ha e => hnd.2.2 a ha b (by simp) e
        have hqy : ∀ a ∈ b :: ys, a ≠ q := fun a ha e => hnd.2.2 q (by simp) a ha e.symm
        refine ⟨{ s with nx := upd (upd s.nx i (some b)) q (some i),
                         pv := upd (upd s.pv i (some q)) b (some i), num := s.num + 1 }, ?_, rfl, ?_⟩
        · simp [hh, hih, hbh, L.setNext, L.setPrev, L.prev, hai, hab, haq, links.1.2.2]
        · apply common
          · rw [List.nodup_append]
            refine ⟨by rw [List.nodup_append]; exact hnd.1,
              List.nodup_cons.mpr ⟨fun hx => hi (by rw [List.mem_append]; exact .inr hx),
                List.nodup_cons.mpr hnd.2.1⟩, ?_⟩
            intro a ha x hx e
            rcases List.mem_cons.mp hx with rfl | hx
            · exact hi (by rw [← e, List.mem_append]; exact .inl ha)
            · exact hnd.2.2 a ha x hx e
          · intro a
            simp only [List.mem_append, List.mem_cons]
            constructor
            · rintro (h | h | h | h)
              · exact .inr (.inl h)
              · exact .inl h
              · exact .inr (.inr (.inl h))
              · exact .inr (.inr (.inr h))
            · rintro (h | h | h | h)
              · exact .inr (.inl h)
              · exact .inl h
              · exact .inr (.inr (.inl h))
              · exact .inr (.inr (.inr h))
          · simp; omega
          · rfl
          · rfl
          · rfl
          · rw [List.head?_append] at head ⊢
            cases hq : (xs' ++ [q]).head? with
            | none => simp at hq
            | some z => rw [hq] at head; simpa using head
          · rw [List.getLast?_append, List.getLast?_cons_cons]
            rw [List.getLast?_append] at ht; exact ht
          · rw [links_append, linksTo_snoc]
            simp only [Links]
            refine ⟨⟨?_, by simp, by rw [upd_ne _ _ hbi.symm]; simp⟩,
              by rw [upd_ne _ _ hqi.symm]; simp, by simp, ?_⟩
            · apply linksTo_congr _ _ _ _ _ links.1.1
              · intro a ha
                rw [upd_ne _ _ (show a ≠ q from fun e => hqx (e ▸ ha)), upd_ne]
                intro e; exact hi (by rw [← e]; simp [ha])
              · intro a ha
                have ha := List.mem_of_mem_tail ha
                rw [upd_ne _ _ (hbx a (by simp [ha])), upd_ne]
                intro e; exact hi (by rw [← e]; simp [ha])
              · intro _; rw [upd_ne _ _ (hbx q (by simp)), upd_ne _ _ hqi]
            · apply links_congr _ _ _ links.2
              · intro a ha
                rw [upd_ne _ _ (hqy a ha), upd_ne]
                intro e; exact hi (by rw [← e, List.mem_append]; exact .inr ha)
              · intro a ha
                simp at ha
                rw [upd_ne, upd_ne]
                · intro e; exact hi (by rw [← e]; simp [ha])
                · intro e; exact hnd.2.1.1 (e ▸ ha)
          · intro a ha; simp at ha; simp [upd, ha]
          · intro hc h hx
            have hx' : (xs' ++ [q]).head? = some h := by
              rw [List.head?_append] at hx
              cases hq : (xs' ++ [q]).head? with
              | none => simp at hq
              | some z => rw [hq] at hx; simpa using hx
            have hm := List.mem_of_head? hx'
            simp only []
            rw [upd_ne _ _ (hbx h hm), upd_ne _ _ (fun e => hi (by rw [← e, List.mem_append]; exact .inl hm))]
            apply (cl hc).1
            rw [List.head?_append, hx']; rfl

theorem links_head_next {nx pv : Nat → Option Nat} {a b : Nat} {t : List Nat}
    (h : Links nx pv (a :: b :: t)) : nx a = some b := h.1

/-- An entry of a list of two or more has a neighbour. -/
theorem has_neighbour {nx pv : Nat → Option Nat} {l : List Nat} (h : Links nx pv l) {i : Nat}
    (hi : i ∈ l) (h2 : 2 ≤ l.length) : nx i ≠ none ∨ pv i ≠ none := by
  obtain ⟨xs, ys, rfl⟩ := List.append_of_mem hi
  rcases List.eq_nil_or_concat xs with rfl | ⟨xs', p, rfl⟩
  · cases ys with
    | nil => simp at h2
    | cons b t => left; rw [show nx i = some b from h.1]; simp
  · right
    rw [List.concat_eq_append, links_append, linksTo_snoc] at h
    rw [h.1.2.2]; simp

/-- Freeing a detached entry. -/
theorem rep_kill {s : L} {sp : Spec} {c : Prop} (h : Rep s sp c) (i : Nat) (hi : i ∉ sp.seq) :
    Rep { s with alive := upd s.alive i false } { sp with det := sp.det.filter (· ≠ i) } c := by
  obtain ⟨nodup, mem, al, fresh, head, tail, num, links, det, detm, cl⟩ := h
  refine ⟨nodup, ?_, ?_, fresh, head, tail, num, links, ?_, ?_, cl⟩
  · intro a ha
    have : a ≠ i := fun e => hi (e ▸ ha)
    simp only [upd_ne _ _ this]; exact mem a ha
  · intro a ha
    by_cases e : a = i
    · subst e; simp at ha
    · simp only [upd_ne _ _ e] at ha; exact al a ha
  · intro a ha hal
    by_cases e : a = i
    · subst e; simp at hal
    · simp only [upd_ne _ _ e] at hal; exact det a ha hal
  · intro a
    by_cases e : a = i
    · subst e; simp
    · simp only [upd_ne _ _ e]; simp [e, detm]

theorem clearLoop_ok : ∀ (l : List Nat) (fuel : Nat) (s : L), l.length < fuel → l.Nodup →
    (∀ a ∈ l, s.alive a = true) → s.head = l.head? → Links s.nx s.pv l →
    ∃ s', clearLoop fuel s = some s' ∧ s'.head = none ∧ s'.num = 0 ∧ s'.fresh = s.fresh ∧
      (∀ a, s'.alive a = true ↔ s.alive a = true ∧ a ∉ l) ∧
      (∀ a, a ∉ l → s'.nx a = s.nx a ∧ s'.pv a = s.pv a)
  | [], fuel + 1, s, _, _, _, hh, _ => by
    have : s.head = none := by simpa using hh
    exact ⟨{ s with num := 0 }, by simp [clearLoop, this], this, rfl, rfl, by simp, by simp⟩
  | a :: t, fuel + 1, s, hf, hn, hal, hh, hl => by
    have hha : s.head = some a := by simpa using hh
    have haa := hal a (by simp)
    have hnext : s.nx a = t.head? := by
      cases t with
      | nil => exact hl
      | cons b t => exact hl.1
    have hnt := (List.nodup_cons.mp hn)
    have hlt : Links s.nx s.pv t := by
      cases t with
      | nil => trivial
      | cons b t => exact hl.2.2
    obtain ⟨s', e1, e2, e3, e4, e5, e6⟩ := clearLoop_ok t fuel
      { s with head := t.head?, nx := upd s.nx a none, pv := upd s.pv a none, alive := upd s.alive a false }
      (by simp at hf; omega) hnt.2
      (by intro x hx
          have : x ≠ a := fun e => hnt.1 (e ▸ hx)
          simp only [upd_ne _ _ this]; exact hal x (by simp [hx]))
      rfl
      (by apply links_congr _ _ _ hlt
          · intro x hx; simp only []; rw [upd_ne]; exact fun e => hnt.1 (e ▸ hx)
          · intro x hx; simp only []; rw [upd_ne]; exact fun e => hnt.1 (e ▸ List.mem_of_mem_tail hx))
    refine ⟨s', ?_, e2, e3, e4, ?_, ?_⟩
    · rw [clearLoop, hha]
      simp only [next_ok haa, Option.bind_eq_bind, Option.bind_some, L.setNext, L.setPrev, haa, if_true,
        entryDelete, L.next, L.prev, upd_same, Option.isSome_none, Bool.false_eq_true, or_self, if_false, hnext]
      exact e1
    · intro x
      rw [e5]
      by_cases e : x = a
      · subst e; simp
      · simp only [upd_ne _ _ e]; simp [e]
    · intro x hx
      simp at hx
      rw [(e6 x hx.2).1, (e6 x hx.2).2]
      simp only [upd_ne _ _ hx.1]; exact ⟨trivial, trivial⟩

theorem nodup_length_le : ∀ (n : Nat) (l : List Nat), l.Nodup → (∀ a ∈ l, a < n) → l.length ≤ n
  | 0, [], _, _ => by simp
  | 0, a :: _, _, h => absurd (h a (by simp)) (by simp)
  | n + 1, l, hn, h => by
    have := nodup_length_le n (l.erase n) (hn.erase n) (by
      intro a ha
      have h1 := (hn.mem_erase_iff).mp ha
      have := h a h1.2
      omega)
    rw [List.length_erase] at this
    split at this <;> omega

/-- The calls covered by the proof: valid, and not the deletion of the only entry. -/
def Good (s : Spec) (o : Op) : Prop :=
  Valid s o ∧ match o with
    | .delete i => i ∈ s.seq → 2 ≤ s.seq.length
    | _ => True

/-- The call does not take the first entry out of a longer list, and is not `clear`. -/
def KeepsHead (s : Spec) : Op → Prop
  | .new _ => True
  | .push i _ | .pop i | .delete i => ¬ (s.seq.head? = some i ∧ 2 ≤ s.seq.length)
  | .clear => False

theorem rep_weaken {s : L} {sp : Spec} {c c' : Prop} (h : Rep s sp c) (hc : c' → c) : Rep s sp c' :=
  ⟨h.nodup, h.mem, h.alive, h.fresh, h.head, h.tail, h.num, h.links, h.det, h.detmem, fun x => h.clean (hc x)⟩

theorem rep_step {s : L} {sp : Spec} {c : Prop} (h : Rep s sp c) (o : Op) (hg : Good sp o) :
    ∃ s', step s o = some s' ∧ Rep s' (specStep sp o) (c ∧ KeepsHead sp o) := by
  cases o with
  | new b =>
    have hfr : s.alive s.fresh = false := by
      cases hq : s.alive s.fresh with
      | false => rfl
      | true => have := h.alive _ hq; rw [h.fresh] at this; omega
    have hns : s.fresh ∉ sp.seq := by
      intro hx; rw [h.mem _ hx] at hfr; simp at hfr
    have h1 : Rep
        { s with
          fresh := s.fresh + 1
          alive := upd s.alive s.fresh true
          nx := upd s.nx s.fresh none
          pv := upd s.pv s.fresh none }
        { sp with fresh := sp.fresh + 1, det := s.fresh :: sp.det } c := by
      obtain ⟨nodup, mem, al, fresh, head, tail, num, links, det, detm, cl⟩ := h
      refine ⟨nodup, ?_, ?_, by simp [fresh], head, tail, num, ?_, ?_, ?_, ?_⟩
      · intro a ha
        have : a ≠ s.fresh := fun e => hns (e ▸ ha)
        simp only [upd_ne _ _ this]; exact mem a ha
      · intro a ha
        by_cases e : a = s.fresh
        · simp only; omega
        · simp only [upd_ne _ _ e] at ha; have := al a ha; simp only; omega
      · apply links_congr _ _ _ links
        · intro a ha; simp only []; rw [upd_ne]; exact fun e => hns (e ▸ ha)
        · intro a ha; simp only []; rw [upd_ne]; exact fun e => hns (e ▸ List.mem_of_mem_tail ha)
      · intro a ha hal
        by_cases e : a = s.fresh
        · subst e; simp
        · simp only [upd_ne _ _ e] at hal ⊢; exact det a ha hal
      · intro a
        by_cases e : a = s.fresh
        · subst e; simp [hns]
        · simp only [upd_ne _ _ e, List.mem_cons, e, false_or]; exact detm a
      · intro hc
        refine ⟨?_, (cl hc).2⟩
        intro x hx
        have : x ≠ s.fresh := fun e => hns (e ▸ List.mem_of_head? hx)
        simp only [upd_ne _ _ this]; exact (cl hc).1 x hx
    obtain ⟨s', e1, _, e3⟩ := rep_insert h1 s.fresh b (by simp) hns hg.1
    refine ⟨s', e1, ?_⟩
    have : (⟨insertBefore sp.seq b s.fresh, (s.fresh :: sp.det).filter (· ≠ s.fresh), sp.fresh + 1⟩ : Spec)
        = specStep sp (.new b) := by
      simp only [specStep, h.fresh]
      congr 1
      rw [List.filter_cons]
      simp
      intro a ha e
      have := ((h.detmem a).mp ha).1
      rw [e, ← h.fresh, hfr] at this; simp at this
    rw [← this]
    exact rep_weaken e3 (fun x => x.1)
  | push i b =>
    obtain ⟨⟨hor, hb⟩, -⟩ := hg
    by_cases hi : i ∈ sp.seq
    · -- move: popped first
      obtain ⟨s1, e1, e2, e3⟩ := rep_pop h i hi
      have hai := h.mem i hi
      have hi1 : i ∉ (specStep sp (.pop i)).seq := by
        simp only [specStep]; intro hx; exact ((h.nodup.mem_erase_iff).mp hx).1 rfl
      obtain ⟨s', f1, f2, f3⟩ := rep_insert e3 i b (by rw [e2]; exact hai) hi1 (by
        intro x hx
        simp only [specStep]
        exact (h.nodup.mem_erase_iff).mpr ⟨(hb x hx).2, (hb x hx).1⟩)
      refine ⟨s', ?_, ?_⟩
      · have hpop : s.head = some i ∨ (s.pv i).isSome ∨ (s.nx i).isSome := by
          by_cases h2 : 2 ≤ sp.seq.length
          · rcases has_neighbour h.links hi h2 with hx | hx
            · right; right; cases hq : s.nx i with
              | none => exact absurd hq hx
              | some _ => rfl
            · right; left; cases hq : s.pv i with
              | none => exact absurd hq hx
              | some _ => rfl
          · left
            rw [h.head]
            match hq : sp.seq with
            | [] => simp [hq] at hi
            | [a] => simp [hq] at hi; simp [hi]
            | a :: b :: t => simp [hq] at h2
        have hd := e3.det i hi1 (by rw [e2]; exact hai)
        have hh1 : ¬ s1.head = some i := by
          rw [e3.head]; intro hx; exact hi1 (List.mem_of_head? hx)
        rw [← f1]
        simp only [step]
        unfold push
        rw [prev_ok hai, next_ok hai, prev_ok (by rw [e2]; exact hai), next_ok (by rw [e2]; exact hai), hd.1, hd.2]
        simp only [Option.bind_eq_bind, Option.bind_some, hpop, if_true, e1, hh1, Option.isSome_none,
          Bool.false_eq_true, or_self, if_false]
      · have : (⟨insertBefore (specStep sp (.pop i)).seq b i, (specStep sp (.pop i)).det.filter (· ≠ i),
            sp.fresh⟩ : Spec) = specStep sp (.push i b) := by
          simp [specStep]
        rw [← this]; exact f3
    · have hd : i ∈ sp.det := hor.resolve_left hi
      have hai := ((h.detmem i).mp hd).1
      obtain ⟨s', f1, f2, f3⟩ := rep_insert h i b hai hi (fun x hx => (hb x hx).1)
      refine ⟨s', f1, ?_⟩
      have : ({ sp with seq := insertBefore sp.seq b i, det := sp.det.filter (· ≠ i) } : Spec)
          = specStep sp (.push i b) := by
        simp only [specStep]; rw [List.erase_of_not_mem hi]
      rw [← this]; exact rep_weaken f3 (fun x => x.1)
  | pop i =>
    obtain ⟨s', e1, _, e3⟩ := rep_pop h i hg.1
    exact ⟨s', e1, e3⟩
  | delete i =>
    by_cases hi : i ∈ sp.seq
    · have h2 := hg.2 hi
      obtain ⟨s1, e1, e2, e3⟩ := rep_pop h i hi
      have hai := h.mem i hi
      have hi1 : i ∉ (specStep sp (.pop i)).seq := by
        simp only [specStep]; intro hx; exact ((h.nodup.mem_erase_iff).mp hx).1 rfl
      have hpop : (s.nx i).isSome ∨ (s.pv i).isSome := by
        rcases has_neighbour h.links hi h2 with hx | hx
        · left; cases hq : s.nx i with
          | none => exact absurd hq hx
          | some _ => rfl
        · right; cases hq : s.pv i with
          | none => exact absurd hq hx
          | some _ => rfl
      refine ⟨{ s1 with alive := upd s1.alive i false }, ?_, ?_⟩
      · have : s1.alive i = true := by rw [e2]; exact hai
        simp [step, entryDelete, next_ok hai, prev_ok hai, hpop, e1, this]
      · have hk := rep_kill e3 i hi1
        have : ({ specStep sp (.pop i) with det := (specStep sp (.pop i)).det.filter (· ≠ i) } : Spec)
            = specStep sp (.delete i) := by simp [specStep]
        rw [← this]; exact hk
    · have hd : i ∈ sp.det := hg.1.resolve_left hi
      have hai := ((h.detmem i).mp hd).1
      have hdd := h.det i hi hai
      refine ⟨{ s with alive := upd s.alive i false }, ?_, ?_⟩
      · simp [step, entryDelete, next_ok hai, prev_ok hai, hdd.1, hdd.2, hai]
      · have : ({ sp with det := sp.det.filter (· ≠ i) } : Spec) = specStep sp (.delete i) := by
          simp only [specStep]; rw [List.erase_of_not_mem hi]
        rw [← this]; exact rep_weaken (rep_kill h i hi) (fun x => x.1)
  | clear =>
    have hlen : sp.seq.length ≤ sp.fresh :=
      nodup_length_le _ _ h.nodup (fun a ha => h.alive a (h.mem a ha))
    obtain ⟨s', e1, e2, e3, e4, e5, e6⟩ := clearLoop_ok sp.seq (s.fresh + 1) s
      (by rw [h.fresh]; omega) h.nodup h.mem h.head h.links
    refine ⟨s', e1, ⟨by simp [specStep], by simp [specStep], ?_, ?_, by simp [specStep, e2],
      by simp [specStep], by simp [specStep, e3], trivial, ?_, ?_, ?_⟩⟩
    · intro a ha; exact h.alive a ((e5 a).mp ha).1
    · rw [e4]; exact h.fresh
    · intro a _ hal
      have := (e5 a).mp hal
      rw [(e6 a this.2).1, (e6 a this.2).2]
      exact h.det a this.2 this.1
    · intro a; rw [e5]; simp only [specStep]; rw [h.detmem]; simp
    · intro hc; exact hc.2.elim

theorem rep_new (c : Prop) : Rep new specNew c :=
  ⟨by simp [specNew], by simp [specNew], by simp [new], rfl, rfl, by simp [specNew], rfl, trivial, by simp [new],
    by simp [specNew, new], by simp [specNew, new]⟩

theorem rep_run : ∀ (ops : List Op) (s : L) (sp : Spec) (c : Prop), Rep s sp c → All Good sp ops →
    ∃ s', run s ops = some s' ∧ Rep s' (specRun sp ops) (c ∧ All KeepsHead sp ops)
  | [], s, sp, c, h, _ => ⟨s, rfl, rep_weaken h (fun x => x.1)⟩
  | o :: os, s, sp, c, h, hg => by
    obtain ⟨s1, e1, e2⟩ := rep_step h o hg.1
    obtain ⟨s', f1, f2⟩ := rep_run os s1 (specStep sp o) _ e2 hg.2
    exact ⟨s', by simp [run, e1, f1], rep_weaken f2 (fun x => ⟨⟨x.1, x.2.1⟩, x.2.2⟩)⟩

theorem fwdFrom_ok (s : L) : ∀ (l : List Nat) (fuel : Nat), l.length ≤ fuel → (∀ a ∈ l, s.alive a = true) →
    Links s.nx s.pv l → fwdFrom s fuel l.head? = some l
  | [], fuel, _, _, _ => by cases fuel <;> simp [fwdFrom]
  | a :: t, fuel + 1, hf, hal, hl => by
    have hnext : s.nx a = t.head? := by
      cases t with
      | nil => exact hl
      | cons b t => exact hl.1
    have hlt : Links s.nx s.pv t := by
      cases t with
      | nil => trivial
      | cons b t => exact hl.2.2
    have := fwdFrom_ok s t fuel (by simp at hf; omega) (fun x hx => hal x (by simp [hx])) hlt
    simp [fwdFrom, next_ok (hal a (by simp)), hnext, this]

theorem bwdFrom_ok (s : L) : ∀ (n : Nat) (xs : List Nat) (b fuel : Nat), xs.length = n → n < fuel →
    (∀ a ∈ xs ++ [b], s.alive a = true) → LinksTo s.nx s.pv xs b →
    (∀ h, (xs ++ [b]).head? = some h → s.pv h = none) → bwdFrom s fuel (some b) = some (b :: xs.reverse) := by
  intro n
  induction n with
  | zero =>
    intro xs b fuel hx hf hal hl hh
    have : xs = [] := List.length_eq_zero_iff.mp hx
    subst this
    obtain ⟨f, rfl⟩ : ∃ f, fuel = f + 1 := ⟨fuel - 1, by omega⟩
    have := hh b (by simp)
    have hab : s.alive b = true := hal b (by simp)
    cases f <;> simp [bwdFrom, prev_ok hab, this]
  | succ n ih =>
    intro xs b fuel hx hf hal hl hh
    rcases List.eq_nil_or_concat xs with rfl | ⟨xs', p, rfl⟩
    · simp at hx
    rw [List.concat_eq_append] at *
    rw [linksTo_snoc] at hl
    obtain ⟨f, rfl⟩ : ∃ f, fuel = f + 1 := ⟨fuel - 1, by omega⟩
    have hab : s.alive b = true := hal b (by simp)
    have := ih xs' p f (by simpa using hx) (by omega) (fun a ha => hal a (by simp at ha ⊢; rcases ha with h | h <;> simp [h]))
      hl.1 (fun h hx => hh h (by rw [List.head?_append, hx]; rfl))
    simp [bwdFrom, prev_ok hab, hl.2.2, this]

/-- **C20** (forward part).  For every history of valid calls that never deletes the only entry,
nothing undefined happens, forward traversal lists exactly the entries of the sequence, and the size
is their number.  Missing from the full statement: reverse traversal (below), deletion of the only
entry (`C20_delete_only_entry_uaf`). -/
theorem C20_list_forward_partial (ops : List Op) (h : All Good specNew ops) :
    ∃ s, run new ops = some s ∧ fwd s = some (specRun specNew ops).seq ∧
      s.num = (specRun specNew ops).seq.length := by
  obtain ⟨s, e1, e2⟩ := rep_run ops new specNew True (rep_new _) h
  refine ⟨s, e1, ?_, e2.num⟩
  rw [fwd, e2.head, e2.fresh]
  exact fwdFrom_ok s _ _ (nodup_length_le _ _ e2.nodup (fun a ha => e2.alive a (e2.mem a ha))) e2.mem e2.links

/-- **C20** (backward part).  If moreover the history never takes the first entry out of a list of
two or more and never clears, reverse traversal is the reverse sequence. -/
theorem C20_list_backward_partial (ops : List Op) (h : All Good specNew ops)
    (hk : All KeepsHead specNew ops) :
    ∃ s, run new ops = some s ∧ bwd s = some (specRun specNew ops).seq.reverse := by
  obtain ⟨s, e1, e2⟩ := rep_run ops new specNew True (rep_new _) h
  refine ⟨s, e1, ?_⟩
  have hc := e2.clean ⟨trivial, hk⟩
  have hlen := nodup_length_le _ _ e2.nodup (fun a ha => e2.alive a (e2.mem a ha))
  rw [bwd, e2.fresh]
  generalize hq : (specRun specNew ops).seq = l at hc hlen ⊢
  rcases List.eq_nil_or_concat l with rfl | ⟨xs, b, rfl⟩
  · rw [hc.2 rfl]; simp [bwdFrom]
  · rw [List.concat_eq_append] at *
    have ht : s.tail = some b := by rw [e2.tail (by simp [hq]), hq]; simp
    have hl := e2.links
    rw [hq, links_append] at hl
    rw [ht, bwdFrom_ok s _ xs b _ rfl (by simp at hlen; omega) (by rw [← hq]; exact e2.mem) hl.1
      hc.1]
    simp

-- A history that meets the hypotheses: append, insert in the middle, move, remove, re-insert.
example : All Good specNew [.new none, .new none, .new (some 1), .pop 1, .push 1 (some 2), .push 2 none, .delete 1] ∧
    (specRun specNew [.new none, .new none, .new (some 1), .pop 1, .push 1 (some 2), .push 2 none, .delete 1]).seq
      = [0, 2] := by
  simp [All, Good, Valid, specNew, specStep, insertBefore, specRun]
example : All KeepsHead specNew [.new none, .new none, .new (some 1), .pop 1, .push 1 (some 2)] := by
  simp [All, KeepsHead, specNew, specStep, insertBefore]

end Verif.LList
