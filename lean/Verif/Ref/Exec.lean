import Verif.Ref.Ops
/-!
Each call, allowed in a state with right counts, uses no freed memory and leaves right counts.
-/
namespace Verif.Ref

theorem get_withContent {s : State} {v : Nat} {c : Cell} (hg : get s.heap v = some c) (x : Content) :
    s.withContent v x = ⟨put s.heap v ⟨c.rc, x⟩, s.held, s.fresh⟩ := by
  simp only [State.withContent, modify_eq_put hg]

theorem refsIn_undef (b : Nat) : ¬ 0 < refsIn .undef b := by simp [refsIn]

theorem live_of_undef {s : State} (hs : Ok s) {v a : Nat} (ha : Reachable (s.withContent v .undef) a) :
    ∃ c, get s.heap a = some c := reachable_live hs (fun _ b _ h => absurd h (refsIn_undef b)) ha

theorem exec_incr {s : State} (hs : Ok s) {a : Nat} (ha : Live s a) : ∃ s', exec s (.incr a) = some s' ∧ Ok s' := by
  obtain ⟨c, hg⟩ := ha
  obtain ⟨h1, h2⟩ := inv_incr hs hg
  exact ⟨⟨put s.heap a ⟨c.rc + 1, c.content⟩, a :: s.held, s.count a⟩, by simp only [exec, h1, Option.map_some], h2⟩

theorem release_inv {h : Heap} {held fresh : List Nat} (hi : Inv h held fresh []) {a : Nat} (ha : a ∈ held) :
    ∃ h', run h [.dec a] = some h' ∧ Inv h' (held.erase a) fresh [] ∧ Rel h h' ∧ h'.length = h.length := by
  apply run_inv
  refine inv_held hi _ _ ?_ ?_
  · intro b
    have := erase_count ha b
    rw [List.count_cons, List.count_nil]
    by_cases e : a = b
    · subst e; simp at this ⊢; omega
    · simp only [if_neg e, Nat.add_zero] at this; simp [e, this]
  · intro b; simp

theorem exec_decr {s : State} (hs : Ok s) {a : Nat} (ha : a ∈ s.held) : ∃ s', exec s (.decr a) = some s' ∧ Ok s' := by
  obtain ⟨h', h1, h2, _⟩ := release_inv hs ha
  exact ⟨⟨h', s.held.erase a, s.fresh⟩, by simp only [exec, h1, Option.map_some], h2⟩

theorem exec_reset {s : State} (hs : Ok s) {v : Nat} (hv : Reachable (s.withContent v .undef) v) :
    ∃ s', exec s (.reset v) = some s' ∧ Ok s' := by
  obtain ⟨c, hg⟩ := live_of_undef hs hv
  rw [get_withContent hg] at hv
  obtain ⟨h', c', h1, h2, _⟩ := reset_inv hs hg hv
  exact ⟨⟨h', s.held, s.fresh⟩, by simp only [exec, h1, Option.map_some], h2⟩

theorem exec_makePrim {s : State} (hs : Ok s) {v n : Nat} (hv : Reachable (s.withContent v .undef) v) :
    ∃ s', exec s (.makePrim v n) = some s' ∧ Ok s' := by
  obtain ⟨c, hg⟩ := live_of_undef hs hv
  rw [get_withContent hg] at hv
  obtain ⟨h', c', h1, h2, _, _, h5, h6⟩ := reset_inv hs hg hv
  refine ⟨⟨put h' v ⟨c'.rc, .prim n⟩, s.held, s.fresh⟩, ?_, ?_⟩
  · simp only [exec, makePrim, h1, Option.bind_eq_bind, Option.bind_some, setContent, h5, Option.map_some]
  · refine inv_balance h2 h5 (rc_ne h2 h5) _ _ _ ?_ (fun _ => rfl)
    intro b; rw [h6]; simp [refsIn]

/-- A reference the program holds is put into a value that is empty. -/
theorem fill_inv {h : Heap} {held fresh : List Nat} {v a : Nat} {c : Cell} {x : Content} (hi : Inv h (a :: held) fresh [])
    (hg : get h v = some c) (hc : c.content = .undef) (hx : ∀ b, refsIn x b = if a = b then 1 else 0) :
    Inv (put h v ⟨c.rc, x⟩) held fresh [] := by
  refine inv_balance hi hg (rc_ne hi hg) _ _ _ ?_ (fun _ => rfl)
  intro b
  rw [hc, hx, List.count_cons]
  by_cases e : a = b
  · subst e; simp [refsIn]
  · simp [refsIn, e]

theorem refsIn_ref (o b : Nat) : refsIn (.ref o) b = if o = b then 1 else 0 := rfl
theorem refsIn_var (o b : Nat) : refsIn (.var o) b = if o = b then 1 else 0 := rfl

/-- The order of a store into one cell and a count of another does not matter. -/
theorem put_comm {h : Heap} {a b : Nat} (c d : Cell) (hab : a ≠ b) : put (put h a c) b d = put (put h b d) a c := by
  simp only [put]; exact List.set_comm _ _ hab

theorem put_put (h : Heap) (a : Nat) (c d : Cell) : put (put h a c) a d = put h a d := by
  simp [put, List.set_set]

theorem exec_makeObject {s : State} (hs : Ok s) {v o : Nat} (ha : Allowed s (.makeObject v o)) :
    ∃ s', exec s (.makeObject v o) = some s' ∧ Ok s' := by
  obtain ⟨⟨c, hg⟩, ⟨d, hd⟩, ha⟩ := ha
  by_cases e : c.content = .ref o
  · refine ⟨⟨s.heap, s.held, s.count o⟩, ?_, ?_⟩
    · simp only [exec, makeObject, hg, Option.bind_eq_bind, Option.bind_some, if_pos e, Option.map_some]
    · have hne : o ∉ s.fresh := by
        intro hm
        obtain ⟨d', h1, h2⟩ := hs.fr o hm
        have := rc_nonneg hs h1
        have h3 := edge_total (h := s.heap) (a := v) (b := o) ⟨c, hg, by rw [e]; simp [refsIn]⟩
        unfold refsW at this
        omega
      have : s.count o = s.fresh := by
        unfold State.count
        rw [List.filter_eq_self]
        intro b hb
        have : b ≠ o := by rintro rfl; exact hne hb
        simpa using this
      rw [this]; exact hs
  · rcases ha with ⟨c', h1, h2⟩ | ⟨hv, ho⟩
    · rw [hg] at h1; injection h1 with h1; subst h1; exact absurd h2 e
    rw [get_withContent hg] at hv ho
    obtain ⟨h', c', h1, h2, h3, _, h5, h6⟩ := reset_inv hs hg hv
    obtain ⟨_, d', _, h8, _⟩ := survive h2 h3 ho
    obtain ⟨i1, i2⟩ := inv_incr h2 h8
    have ho' : ∀ (h : Heap) (x : Cell), get h o = some x → incr h o = some (put h o ⟨x.rc + 1, x.content⟩) := by
      intro h x hx; simp only [incr, hx]
    by_cases evo : v = o
    · subst evo
      rw [h5] at h8; injection h8 with h8; subst h8
      have g1 : get (put h' v ⟨c'.rc, .ref v⟩) v = some ⟨c'.rc, .ref v⟩ := get_put_same h5
      refine ⟨⟨put h' v ⟨c'.rc + 1, .ref v⟩, s.held, s.count v⟩, ?_, ?_⟩
      · simp only [exec, makeObject, hg, Option.bind_eq_bind, Option.bind_some, if_neg e, h1, setContent, h5]
        rw [ho' _ _ g1]
        simp [put, List.set_set]
      · have g2 : get (put h' v ⟨c'.rc + 1, c'.content⟩) v = some ⟨c'.rc + 1, c'.content⟩ := get_put_same h5
        have := fill_inv (x := .ref v) i2 g2 h6 (refsIn_ref v)
        rw [put_put] at this; exact this
    · have g1 : get (put h' v ⟨c'.rc, .ref o⟩) o = some d' := by rw [get_put_other _ (Ne.symm evo)]; exact h8
      refine ⟨⟨put (put h' v ⟨c'.rc, .ref o⟩) o ⟨d'.rc + 1, d'.content⟩, s.held, s.count o⟩, ?_, ?_⟩
      · simp only [exec, makeObject, hg, Option.bind_eq_bind, Option.bind_some, if_neg e, h1, setContent, h5]
        rw [ho' _ _ g1]; rfl
      · have g2 : get (put h' o ⟨d'.rc + 1, d'.content⟩) v = some c' := by rw [get_put_other _ evo]; exact h5
        have := fill_inv (x := .ref o) i2 g2 h6 (refsIn_ref o)
        rw [put_comm _ _ evo]; exact this

theorem exec_replace {s : State} (hs : Ok s) {old f : Nat} (ha : Allowed s (.replace old f)) :
    ∃ s', exec s (.replace old f) = some s' ∧ Ok s' := by
  obtain ⟨ho, hf⟩ := ha
  by_cases e : old = f
  · exact ⟨s, by simp only [exec, if_pos e], hs⟩
  · obtain ⟨h', h1, h2, h3, _⟩ := release_inv hs ho
    obtain ⟨_, d, _, h5, _⟩ := survive h2 h3 hf
    obtain ⟨i1, i2⟩ := inv_incr h2 h5
    exact ⟨⟨put h' f ⟨d.rc + 1, d.content⟩, f :: s.held.erase old, s.count f⟩,
      by simp only [exec, if_neg e, h1, Option.bind_eq_bind, Option.bind_some, i1], i2⟩

theorem exec_pushVar {s : State} (hs : Ok s) {dv v : Nat} (ha : Allowed s (.pushVar dv v)) :
    ∃ s', exec s (.pushVar dv v) = some s' ∧ Ok s' := by
  obtain ⟨⟨c, hg⟩, hne, hed, hv⟩ := ha
  obtain ⟨d, hd⟩ := live_of_undef hs hv
  obtain ⟨i1, i2⟩ := inv_incr hs hg
  have g1 : get (put s.heap v ⟨c.rc + 1, c.content⟩) dv = some d := by rw [get_put_other _ hne]; exact hd
  have hcont : d.content ≠ .var v := by
    intro hc
    exact hed ⟨d, hd, by rw [hc]; simp [refsIn]⟩
  rw [get_withContent hd] at hv
  have hv' : Reachable ⟨put (put s.heap v ⟨c.rc + 1, c.content⟩) dv ⟨d.rc, .undef⟩, v :: s.held, s.fresh.filter (· ≠ v)⟩ dv := by
    have h1 : Reachable ⟨put s.heap dv ⟨d.rc, .undef⟩, v :: s.held, s.fresh.filter (· ≠ v)⟩ dv := by
      refine reachable_held ?_ hv
      intro a ha
      rcases ha with ha | ha
      · exact Or.inl (List.mem_cons_of_mem _ ha)
      · by_cases e : a = v
        · exact Or.inl (by simp [e])
        · exact Or.inr (by simp [ha, e])
    refine reachable_rc ?_ h1
    intro a x hx
    rw [put_comm _ _ (Ne.symm hne)]
    have gv : get (put s.heap dv ⟨d.rc, .undef⟩) v = some c := by rw [get_put_other _ (Ne.symm hne)]; exact hg
    by_cases e : a = v
    · subst e
      rw [gv] at hx; injection hx with hx; subst hx
      exact ⟨_, get_put_same gv, rfl⟩
    · exact ⟨x, by rw [get_put_other _ e]; exact hx, rfl⟩
  obtain ⟨h', c', h1, h2, h3, _, h5, h6⟩ := reset_inv i2 g1 hv'
  refine ⟨⟨put h' dv ⟨c'.rc, .var v⟩, s.held, s.count v⟩, ?_, fill_inv h2 h5 h6 (refsIn_var v)⟩
  simp only [exec, pushVar, i1, Option.bind_eq_bind, Option.bind_some, g1]
  rw [if_pos ⟨hne, hcont⟩, h1]
  simp only [Option.bind_some, setContent, h5, Option.map_some]

theorem exec_arrayAdd {s : State} (hs : Ok s) {o v : Nat} (ha : Allowed s (.arrayAdd o v)) :
    ∃ s', exec s (.arrayAdd o v) = some s' ∧ Ok s' := by
  obtain ⟨⟨c, hg⟩, props, arr, d, hd, hdc⟩ := ha
  obtain ⟨i1, i2⟩ := inv_incr hs hg
  have bal : ∀ (h : Heap) (x : Cell), get h o = some x → x.content = .object props arr → Inv h (v :: s.held) (s.count v) [] →
      Inv (put h o ⟨x.rc, .object props (arr ++ [some v])⟩) s.held (s.count v) [] := by
    intro h x hx hxc hi
    refine inv_balance hi hx (rc_ne hi hx) _ _ _ ?_ (fun _ => rfl)
    intro b
    rw [hxc]
    simp only [refsIn, List.count_append, List.count_cons, List.count_nil]
    by_cases e : v = b
    · subst e; simp; omega
    · simp [e]
  by_cases e : o = v
  · subst e
    rw [hd] at hg; injection hg with hg; subst hg
    refine ⟨⟨put s.heap o ⟨d.rc + 1, .object props (arr ++ [some o])⟩, s.held, s.count o⟩, ?_, ?_⟩
    · have g1 : get (put s.heap o ⟨d.rc, .object props (arr ++ [some o])⟩) o = _ := get_put_same hd
      simp only [exec, arrayAdd, hd, Option.bind_eq_bind, Option.bind_some, hdc, incr, g1, Option.map_some]
      simp [put, List.set_set]
    · have := bal _ _ (get_put_same (c' := ⟨d.rc + 1, d.content⟩) hd) hdc i2
      rw [put_put] at this; exact this
  · refine ⟨⟨put (put s.heap o ⟨d.rc, .object props (arr ++ [some v])⟩) v ⟨c.rc + 1, c.content⟩, s.held, s.count v⟩, ?_, ?_⟩
    · have g1 : get (put s.heap o ⟨d.rc, .object props (arr ++ [some v])⟩) v = some c := by
        rw [get_put_other _ (Ne.symm e)]; exact hg
      simp only [exec, arrayAdd, hd, Option.bind_eq_bind, Option.bind_some, hdc, incr, g1, Option.map_some]
    · rw [put_comm _ _ e]
      exact bal _ _ (by rw [get_put_other _ e]; exact hd) hdc i2

/-- The replacement of a pointer in an object. -/
theorem swapIn_inv {s : State} (hs : Ok s) {o v : Nat} {d : Cell} (hd : get s.heap o = some d) (cleared : Content)
    (old : List Nat) (set : Content → Option Content) (x : Content) (hset : set cleared = some x)
    (hold : ∀ b, refsIn d.content b = refsIn cleared b + old.count b)
    (hx : ∀ b, refsIn x b = refsIn cleared b + if v = b then 1 else 0)
    (ho : Reachable ⟨put s.heap o ⟨d.rc, cleared⟩, s.held, s.fresh⟩ o)
    (hv : Reachable ⟨put s.heap o ⟨d.rc, cleared⟩, s.held, s.fresh⟩ v) :
    ∃ h', swapIn s.heap o d.rc cleared old set v = some h' ∧ Ok ⟨h', s.held, s.count v⟩ := by
  have i1 : Inv (put s.heap o ⟨d.rc, cleared⟩) s.held s.fresh (old.map .dec) := by
    refine inv_balance hs hd (rc_ne hs hd) _ _ _ ?_ ?_
    · intro b; rw [map_dec_count, hold]; simp; omega
    · intro b; rw [map_dec_free]; rfl
  obtain ⟨h1, hr, i2, rel, _⟩ := run_inv i1
  obtain ⟨d0, d1, h3, h4, h5⟩ := survive i2 rel ho
  obtain ⟨_, c1, _, h6, _⟩ := survive i2 rel hv
  rw [get_put_same hd] at h3; injection h3 with h3
  have hdc : d1.content = cleared := by rw [h5, ← h3]
  obtain ⟨j1, j2⟩ := inv_incr i2 h6
  have bal : ∀ (h : Heap) (y : Cell), get h o = some y → y.content = cleared → Inv h (v :: s.held) (s.count v) [] →
      Inv (put h o ⟨y.rc, x⟩) s.held (s.count v) [] := by
    intro h y hy hyc hi
    refine inv_balance hi hy (rc_ne hi hy) _ _ _ ?_ (fun _ => rfl)
    intro b
    rw [hyc, hx, List.count_cons]
    by_cases e : v = b
    · subst e; simp; omega
    · simp [e]
  by_cases e : o = v
  · subst e
    rw [h4] at h6; injection h6 with h6; subst h6
    refine ⟨put h1 o ⟨d1.rc + 1, x⟩, ?_, ?_⟩
    · have g1 : get (put h1 o ⟨d1.rc, x⟩) o = _ := get_put_same h4
      simp only [swapIn, hr, Option.bind_eq_bind, Option.bind_some, h4, hdc, hset, incr, g1]
      simp [put, List.set_set]
    · have := bal _ _ (get_put_same (c' := ⟨d1.rc + 1, d1.content⟩) h4) hdc j2
      rw [put_put] at this; exact this
  · refine ⟨put (put h1 o ⟨d1.rc, x⟩) v ⟨c1.rc + 1, c1.content⟩, ?_, ?_⟩
    · have g1 : get (put h1 o ⟨d1.rc, x⟩) v = some c1 := by rw [get_put_other _ (Ne.symm e)]; exact h6
      simp only [swapIn, hr, Option.bind_eq_bind, Option.bind_some, h4, hdc, hset, incr, g1]
    · rw [put_comm _ _ e]
      exact bal _ _ (by rw [get_put_other _ e]; exact h4) hdc j2

/-- A value that something refers to is not fresh. -/
theorem count_of_edge {s : State} (hs : Ok s) {a b : Nat} (he : Edge s.heap a b) : s.count b = s.fresh := by
  have hne : b ∉ s.fresh := by
    intro hm
    obtain ⟨d', h1, h2⟩ := hs.fr b hm
    have := rc_nonneg hs h1
    have h3 := edge_total he
    unfold refsW at this
    omega
  unfold State.count
  rw [List.filter_eq_self]
  intro x hx
  have : x ≠ b := by rintro rfl; exact hne hx
  simpa using this

theorem count_set_none (arr : List (Option Nat)) (n b : Nat) :
    arr.count (some b) = (arr.set n none).count (some b) + ((arr[n]?).join.toList).count b := by
  induction arr generalizing n with
  | nil => simp
  | cons x arr ih =>
    cases n with
    | zero =>
      cases x with
      | none => simp
      | some y =>
        simp only [List.set_cons_zero, List.count_cons, List.getElem?_cons_zero, Option.join, Option.toList, List.count_nil]
        by_cases e : y = b <;> simp [e]
    | succ n =>
      rw [List.set_cons_succ, List.count_cons, List.count_cons, List.getElem?_cons_succ, ih n]
      omega

theorem sizer_count (arr : List (Option Nat)) (n b : Nat) : (sizer arr n).count (some b) = arr.count (some b) := by
  unfold sizer
  rw [List.count_append, List.count_replicate]; simp

theorem sizer_length (arr : List (Option Nat)) (n : Nat) : n < (sizer arr n).length := by
  unfold sizer; simp; omega

theorem sizer_get (arr : List (Option Nat)) (n : Nat) : ((sizer arr n)[n]?).join = (arr[n]?).join := by
  unfold sizer
  by_cases h : n < arr.length
  · rw [List.getElem?_append_left h]
  · rw [List.getElem?_append_right (by omega), List.getElem?_eq_none (l := arr) (by omega), List.getElem?_replicate]
    by_cases e : n - arr.length < n + 1 - arr.length
    · rw [if_pos e]; rfl
    · rw [if_neg e]

theorem count_set_some (arr : List (Option Nat)) (n v b : Nat) (h : n < arr.length) :
    (arr.set n (some v)).count (some b) = (arr.set n none).count (some b) + if v = b then 1 else 0 := by
  induction arr generalizing n with
  | nil => simp at h
  | cons x arr ih =>
    cases n with
    | zero =>
      simp only [List.set_cons_zero, List.count_cons]
      by_cases e : v = b <;> simp [e]
    | succ n =>
      rw [List.set_cons_succ, List.set_cons_succ, List.count_cons, List.count_cons, ih n (by simpa using h)]
      omega

theorem exec_arraySet {s : State} (hs : Ok s) {o v n : Nat} (ha : Allowed s (.arraySet o v n)) :
    ∃ s', exec s (.arraySet o v n) = some s' ∧ Ok s' := by
  obtain ⟨props, arr, ⟨d, hd, hdc⟩, ho, hv⟩ := ha
  rw [get_withContent hd] at ho hv
  by_cases e : (sizer arr n)[n]? = some (some v)
  · have hv' : Edge s.heap o v := by
      refine ⟨d, hd, ?_⟩
      rw [hdc]
      have : some v ∈ sizer arr n := List.mem_of_getElem? e
      have h1 : 0 < (sizer arr n).count (some v) := List.count_pos_iff.2 this
      rw [sizer_count] at h1
      simp only [refsIn]; omega
    refine ⟨⟨put s.heap o ⟨d.rc, .object props (sizer arr n)⟩, s.held, s.count v⟩, ?_, ?_⟩
    · simp only [exec, arraySet, hd, Option.bind_eq_bind, Option.bind_some, hdc]
      rw [if_pos e]; rfl
    · rw [count_of_edge hs hv']
      refine inv_balance hs hd (rc_ne hs hd) _ _ _ ?_ (fun _ => rfl)
      intro b; rw [hdc]; simp only [refsIn, sizer_count]
  · have mono : ∀ b, 0 < refsIn (.object props (arr.set n none)) b → 0 < refsIn (.object props ((sizer arr n).set n none)) b := by
      intro b hb
      have h1 := count_set_none arr n b
      have h2 := count_set_none (sizer arr n) n b
      rw [sizer_count, sizer_get] at h2
      simp only [refsIn] at hb ⊢; omega
    obtain ⟨h', h1, h2⟩ := swapIn_inv (v := v) hs hd (.object props ((sizer arr n).set n none)) (((sizer arr n)[n]?).join.toList)
      (setPlace n (some v)) (.object props ((sizer arr n).set n (some v))) (by simp [setPlace, List.set_set])
      (by
        intro b
        rw [hdc]
        have h1 := count_set_none (sizer arr n) n b
        rw [sizer_count] at h1
        simp only [refsIn]; omega)
      (by
        intro b
        simp only [refsIn]
        rw [count_set_some _ _ _ _ (sizer_length arr n)]; omega)
      (reachable_mono hd mono ho) (reachable_mono hd mono hv)
    refine ⟨⟨h', s.held, s.count v⟩, ?_, h2⟩
    simp only [exec, arraySet, hd, Option.bind_eq_bind, Option.bind_some, hdc]
    rw [if_neg e, h1]; rfl

theorem remove_count (key : List UInt8) (props : List (List UInt8 × Nat)) (b : Nat) :
    (props.map (·.2)).count b = ((remove key props).map (·.2)).count b + (lookup key props).toList.count b := by
  induction props with
  | nil => rfl
  | cons p props ih =>
    obtain ⟨k, v⟩ := p
    unfold remove lookup
    by_cases e : k = key
    · rw [if_pos e, if_pos e]
      simp only [List.map_cons, List.count_cons, Option.toList, List.count_nil]; omega
    · rw [if_neg e, if_neg e]
      simp only [List.map_cons, List.count_cons, ih]; omega

theorem filter_le (key : List UInt8) (props : List (List UInt8 × Nat)) (b : Nat) :
    ((props.filter (·.1 ≠ key)).map (·.2)).count b ≤ ((remove key props).map (·.2)).count b := by
  induction props with
  | nil => exact Nat.le_refl _
  | cons p props ih =>
    obtain ⟨k, v⟩ := p
    unfold remove
    by_cases e : k = key
    · rw [if_pos e, List.filter_cons_of_neg (by simp [e])]
      have := remove_count key props b
      omega
    · rw [if_neg e, List.filter_cons_of_pos (by simp [e])]
      simp only [List.map_cons, List.count_cons]; omega

theorem lookup_mem {key : List UInt8} {v : Nat} : ∀ {props : List (List UInt8 × Nat)}, lookup key props = some v → v ∈ props.map (·.2)
  | [], h => by cases h
  | (k, x) :: props, h => by
    rw [lookup] at h
    by_cases e : k = key
    · rw [if_pos e] at h; injection h with h; simp [h]
    · rw [if_neg e] at h
      rw [List.map_cons]; exact List.mem_cons_of_mem _ (lookup_mem h)

theorem exec_insert {s : State} (hs : Ok s) {o v : Nat} {key : List UInt8} (ha : Allowed s (.insert o key v)) :
    ∃ s', exec s (.insert o key v) = some s' ∧ Ok s' := by
  obtain ⟨props, arr, ⟨d, hd, hdc⟩, ho, hv⟩ := ha
  rw [get_withContent hd] at ho hv
  by_cases e : lookup key props = some v
  · have hv' : Edge s.heap o v := by
      refine ⟨d, hd, ?_⟩
      rw [hdc]
      have h1 : 0 < (props.map (·.2)).count v := List.count_pos_iff.2 (lookup_mem e)
      simp only [refsIn]; omega
    refine ⟨⟨s.heap, s.held, s.count v⟩, ?_, ?_⟩
    · simp only [exec, objInsert, hd, Option.bind_eq_bind, Option.bind_some, hdc]
      rw [if_pos e]; rfl
    · rw [count_of_edge hs hv']; exact hs
  · have mono : ∀ b, 0 < refsIn (.object (props.filter (·.1 ≠ key)) arr) b → 0 < refsIn (.object (remove key props) arr) b := by
      intro b hb
      have h1 := filter_le key props b
      simp only [refsIn] at hb ⊢; omega
    obtain ⟨h', h1, h2⟩ := swapIn_inv (v := v) hs hd (.object (remove key props) arr) (lookup key props).toList
      (addProp key v) (.object ((key, v) :: remove key props) arr) rfl
      (by
        intro b
        rw [hdc]
        have h1 := remove_count key props b
        simp only [refsIn]; omega)
      (by
        intro b
        simp only [refsIn, List.map_cons, List.count_cons]
        by_cases e : v = b
        · subst e; simp; omega
        · simp [e])
      (reachable_mono hd mono ho) (reachable_mono hd mono hv)
    refine ⟨⟨h', s.held, s.count v⟩, ?_, h2⟩
    simp only [exec, objInsert, hd, Option.bind_eq_bind, Option.bind_some, hdc]
    rw [if_neg e, h1]; rfl

end Verif.Ref
