import Verif.Queue.Model

/-! The invariant of the queue machine. -/

namespace Verif.Queue

variable {M R : Type}

/-- The linked list from `hd` on runs through the addresses of `q`. -/
def Chain (h : Nat → Option (Rec M R)) : Option Nat → List Nat → Prop
  | none, [] => True
  | some a, b :: q => a = b ∧ ∃ r, h a = some r ∧ Chain h r.next q
  | _, _ => False

/-- What the records of `q` hold. -/
def posts (h : Nat → Option (Rec M R)) (q : List Nat) : List (Post M) :=
  q.filterMap (fun a => (h a).map (·.post))

/-- `se`, where it is known to be the first of the queue. -/
def seOf : Option CPc → Option Nat
  | some (.c8 se) => se
  | some (.loop se) => se
  | some (.c13 _ _ se) => se
  | some (.c14 _ _ se) => se
  | _ => none

/-- The record whose body is running. -/
def runOf : Option CPc → Option (Nat × Bool)
  | some (.run a e) => some (a, e)
  | _ => none

/-- The record whose body has ended, while it is still in the queue. -/
def doneOf : Option CPc → Option (Nat × Bool)
  | some (.c9 a e) => some (a, e)
  | some (.c10 a e) => some (a, e)
  | _ => none

/-- The record that was taken out of the queue and will be used once more. -/
def oldOf : Option CPc → Option (Nat × Bool)
  | some (.c11 a e) => some (a, e)
  | some (.c12 a e) => if e then some (a, e) else none
  | some (.c13 a e _) => if e then some (a, e) else none
  | some (.c14 a e _) => if e then some (a, e) else none
  | _ => none

/-- The owner holds the lock. -/
def critC : Option CPc → Bool
  | some .c2 => true
  | some (.c3 _) => true
  | some .c5 => true
  | some .c7 => true
  | some (.c8 _) => true
  | some (.c10 _ _) => true
  | some (.c11 _ _) => true
  | some (.c12 _ _) => true
  | some (.c13 _ _ _) => true
  | _ => false

/-- A thread holds the lock. -/
def critP : PPc M → Bool
  | .alloc _ _ => true
  | .look _ _ => true
  | .walk _ _ _ => true
  | .unlock _ _ => true
  | .evPut _ => true
  | .evUnlock => true
  | _ => false

/-- The record a thread builds. -/
def buildOf : PPc M → Option (Nat × Bool)
  | .look a b => some (a, b)
  | .walk a b _ => some (a, b)
  | _ => none

/-- The record a thread waits for. -/
def ownOf : PPc M → Option Nat
  | .unlock a b => if b then some a else none
  | .wait a => some a
  | .fin a => some a
  | _ => none

/-- The results of the finished messages for which `t` waits or waited. -/
def resOf (fin : List (Post M × R)) (t : Nat) : List R :=
  (fin.filter (fun p => p.1.who == t && p.1.sync)).map (·.2)

/-- The results given back to `t`. -/
def retOf (ret : List (Nat × R)) (t : Nat) : List R := (ret.filter (fun p => p.1 == t)).map (·.2)

/-- The queue and the owner. -/
structure Core (s : St M R) (c : Option CPc) (q : List Nat) : Prop where
  nf : s.fault = false
  chain : Chain s.heap s.head q
  nodup : q.Nodup
  fresh : ∀ a, s.fresh ≤ a → s.heap a = none
  recs : ∀ a ∈ q, ∃ r, s.heap a = some r ∧ r.isExec = r.post.sync ∧
    ((∀ e, doneOf c ≠ some (a, e)) → r.filled = true ∧ r.rc = none)
  se : ∀ a, seOf c = some a → q.head? = some a
  running : ∀ a e, runOf c = some (a, e) → q.head? = some a ∧ ∃ r, s.heap a = some r ∧ r.isExec = e ∧
    s.started = s.finished.map (·.1) ++ [r.post]
  done : ∀ a e, doneOf c = some (a, e) → ∃ q', q = a :: q' ∧ ∃ r, s.heap a = some r ∧ r.isExec = e ∧
    (e = true → ∃ x, r.rc = some x) ∧ (e = false → r.filled = false) ∧ s.posted = s.started ++ posts s.heap q'
  old : ∀ a e, oldOf c = some (a, e) → a ∉ q ∧ ∃ r, s.heap a = some r ∧ r.isExec = e ∧ r.post.sync = e ∧
    (e = true → ∃ x, r.rc = some x) ∧ (e = false → r.filled = false)
  st : runOf c = none → s.started = s.finished.map (·.1)
  po : doneOf c = none → s.posted = s.finished.map (·.1) ++ posts s.heap q
  lk : s.lock = some none ↔ critC c = true

/-- A posting thread. -/
structure Prod (s : St M R) (q : List Nat) (t : Nat) : Prop where
  build : ∀ a b, buildOf (s.prods t) = some (a, b) → a ∉ q ∧ ∃ r, s.heap a = some r ∧ r.post.who = t ∧
    r.post.sync = b ∧ r.filled = true ∧ r.isExec = b ∧ r.rc = none ∧ r.next = none
  walk : ∀ a b se, s.prods t = .walk a b se → se ∈ q
  own : ∀ a, ownOf (s.prods t) = some a → ∃ r, s.heap a = some r ∧ r.post.who = t ∧ r.post.sync = true ∧
    (r.isExec = false → ∃ x, r.rc = some x) ∧ (r.rc = none → a ∈ q) ∧
    resOf s.finished t = retOf s.returned t ++ r.rc.toList
  noown : ownOf (s.prods t) = none → resOf s.finished t = retOf s.returned t
  uniq : ∀ b ∈ q, ∀ r, s.heap b = some r → r.post.who = t → r.post.sync = true → ownOf (s.prods t) = some b
  fin : ∀ a, s.prods t = .fin a → ∀ r, s.heap a = some r → r.isExec = false
  lk : s.lock = some (some t) ↔ critP (s.prods t) = true

/-- The invariant. -/
structure Inv (s : St M R) : Prop where
  one : s.frames.length ≤ 1
  q : ∃ q, Core s s.frames.head? q ∧ ∀ t, Prod s q t

/-! ### The list -/

theorem Chain.congr {h h' : Nat → Option (Rec M R)} : ∀ {hd : Option Nat} {q : List Nat}, Chain h hd q →
    (∀ a ∈ q, (h' a).map (·.next) = (h a).map (·.next)) → Chain h' hd q
  | none, [], _, _ => trivial
  | some a, b :: q, hc, hh => by
    obtain ⟨e, r, hr, hn⟩ := hc
    subst e
    have h1 := hh a (List.mem_cons_self ..)
    rw [hr] at h1
    cases hx : h' a with
    | none => rw [hx] at h1; cases h1
    | some r' =>
      rw [hx] at h1
      have e : r'.next = r.next := by simpa using h1
      exact ⟨rfl, r', hx, e ▸ hn.congr (fun a ha => hh a (List.mem_cons_of_mem _ ha))⟩
  | none, _ :: _, hc, _ => hc.elim
  | some _, [], hc, _ => hc.elim

theorem Chain.head_eq {h : Nat → Option (Rec M R)} {hd : Option Nat} {q : List Nat} (hc : Chain h hd q) : hd = q.head? := by
  cases hd <;> cases q <;> simp_all [Chain]

theorem posts_congr {h h' : Nat → Option (Rec M R)} {q : List Nat}
    (hh : ∀ a ∈ q, (h' a).map (·.post) = (h a).map (·.post)) : posts h' q = posts h q := by
  unfold posts
  induction q with
  | nil => rfl
  | cons a q ih =>
    rw [List.filterMap_cons, List.filterMap_cons, hh a (List.mem_cons_self ..), ih (fun a ha => hh a (List.mem_cons_of_mem _ ha))]

theorem posts_append (h : Nat → Option (Rec M R)) (q q' : List Nat) : posts h (q ++ q') = posts h q ++ posts h q' := by
  simp [posts]

theorem posts_cons {h : Nat → Option (Rec M R)} {a : Nat} {r : Rec M R} (hr : h a = some r) (q : List Nat) :
    posts h (a :: q) = r.post :: posts h q := by
  simp [posts, hr]

/-- Linking a record behind the last one. -/
theorem Chain.link {h h' : Nat → Option (Rec M R)} {a se : Nat} {r : Rec M R} : ∀ {hd : Option Nat} {q : List Nat},
    Chain h hd q → q.Nodup → a ∉ q → se ∈ q → h se = some r → r.next = none →
    (∃ ra, h a = some ra ∧ ra.next = none) →
    (h' = fun b => if b = se then some { r with next := some a } else h b) → Chain h' hd (q ++ [a])
  | none, [], _, _, _, hs, _, _, _, _ => by cases hs
  | some x, b :: q, hc, hn, ha, hs, hr, hrn, hra, hh => by
    obtain ⟨e, rx, hx, hnx⟩ := hc
    subst e
    have hn1 := List.nodup_cons.1 hn
    have hane : a ≠ se := fun e => ha (e ▸ hs)
    have ha' : h' a = h a := by rw [hh]; simp [hane]
    by_cases e : x = se
    · subst e
      rw [hr] at hx; cases hx
      have hq : q = [] := by
        have := hnx.head_eq
        rw [hrn] at this
        cases q with
        | nil => rfl
        | cons => cases this
      subst hq
      obtain ⟨ra, h1, h2⟩ := hra
      refine ⟨rfl, { r with next := some a }, by rw [hh]; simp, rfl, ra, ha'.trans h1, ?_⟩
      rw [h2]; trivial
    · have hs' : se ∈ q := by
        rcases List.mem_cons.1 hs with h | h
        · exact absurd h.symm e
        · exact h
      refine ⟨rfl, rx, by rw [hh]; simp [e, hx], ?_⟩
      exact hnx.link hn1.2 (fun h => ha (List.mem_cons_of_mem _ h)) hs' hr hrn hra hh
  | none, _ :: _, hc, _, _, _, _, _, _, _ => hc.elim
  | some _, [], hc, _, _, _, _, _, _, _ => hc.elim

/-- Following `next` one stays in the list. -/
theorem Chain.next_mem {h : Nat → Option (Rec M R)} {a b : Nat} {r : Rec M R} : ∀ {hd : Option Nat} {q : List Nat},
    Chain h hd q → a ∈ q → h a = some r → r.next = some b → b ∈ q
  | none, [], _, ha, _, _ => by cases ha
  | some x, y :: q, hc, ha, hr, hn => by
    obtain ⟨e, rx, hx, hc'⟩ := hc
    subst e
    by_cases e : a = x
    · subst e
      rw [hr] at hx; cases hx
      have := hc'.head_eq
      rw [hn] at this
      exact List.mem_cons_of_mem _ (List.mem_of_mem_head? this.symm)
    · refine List.mem_cons_of_mem _ (hc'.next_mem ?_ hr hn)
      rcases List.mem_cons.1 ha with h | h
      · exact absurd h e
      · exact h
  | none, _ :: _, hc, _, _, _ => hc.elim
  | some _, [], hc, _, _, _ => hc.elim

end Verif.Queue
