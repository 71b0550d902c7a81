import Verif.Base64.Props

/-!
The headers of a request (`jsi_wsGetHeaders`, src/jsiWebSocket.c:716-740; `jsi_wsHeader`, 695-713;
`jsi_wsDumpHeaders`, 743-778), the parameters of a form (`jsi_wsDumpQuery`, 785-806) and the check of the
password (`jsi_wsHttp`, 1519-1570).

Simplification: the array of lengths has no bound (the test at 726 does not bound it; there is room for 100
headers).
-/

namespace Verif.Web.Head

abbrev Str := List UInt8

/-- The name without one space and then one colon at its end, 730-731. -/
def dropEnd (c : UInt8) (s : Str) : Str := if s.getLast? = some c then s.dropLast else s

def nameOf (tok : Str) : Str := dropEnd 58 (dropEnd 32 tok)

/-- The headers in the order of the tokens of the library; absent and empty ones are left out, 727-729. -/
def present (hs : List (Str × Str)) : List (Str × Str) := (hs.filter (fun h => h.2 ≠ [])).map (fun h => (nameOf h.1, h.2))

/-- The buffer `dHdrs` and the array `hdrSz`. -/
def store : List (Str × Str) → Str × List Nat
  | [] => ([], [])
  | h :: hs => (h.1 ++ 61 :: h.2 ++ 10 :: (store hs).1, h.1.length :: h.2.length :: (store hs).2)

def headers (hs : List (Str × Str)) : Str × List Nat := store (present hs)

/-- `tolower` -/
def lower (s : Str) : Str := s.map (fun c => if 65 ≤ c ∧ c ≤ 90 then c + 32 else c)

/-- 703: does the text at `cp` begin with the name and `=`? -/
def matches_ (cp name : Str) : Bool := lower (cp.take name.length) == lower name && cp[name.length]? == some 61

/-- `jsi_wsHeader`: the rest of the buffer from the value on, and its length. -/
def find (name : Str) : Str → List Nat → Option (Str × Nat)
  | cp, a :: b :: sz =>
    if matches_ cp name then some (cp.drop (1 + a), b) else find name ((cp.drop (1 + a)).drop (1 + b)) sz
  | _, _ => none

/-- The value that is found. -/
def header (name : Str) (d : Str × List Nat) : Option Str := (find name d.1 d.2).map (fun p => p.1.take p.2)

/-- `jsi_wsDumpHeaders` without a name. -/
def dump : Str → List Nat → List (Str × Str)
  | cp, a :: b :: sz => (cp.take a, (cp.drop (1 + a)).take b) :: dump ((cp.drop (1 + a)).drop (1 + b)) sz
  | _, _ => []

/-- `jsi_wsDumpQuery` with a name: where the name is another one, the next parameter is skipped as well. -/
def query (name : Str) : List (Str × Str) → Option Str
  | [] => none
  | [p] => if name = p.1 then some p.2 else none
  | p :: _ :: ps => if name = p.1 then some p.2 else query name ps

/-- The decoded text as a C string. -/
def cstr (s : Str) : Str := s.takeWhile (· ≠ 0)

def authName : Str := asc "authorization"
def basic : Str := asc "basic "

/-- 1519-1559 with `useridPass` and without `onAuth`: may the request go on? -/
def allowed (pass : Str) (d : Str × List Nat) : Bool :=
  match header authName d with
  | none => false
  | some v =>
    if lower (v.take 6) = basic then
      let b := cstr (Base64.decode (v.drop 6))
      decide (b ≠ [] ∧ b = pass)
    else false

/-! ### Claims -/

theorem drop_name (a b r : Str) : (a ++ 61 :: b ++ 10 :: r).drop (1 + a.length) = b ++ 10 :: r := by
  have : a ++ 61 :: b ++ 10 :: r = (a ++ [61]) ++ (b ++ 10 :: r) := by simp
  rw [this]
  apply List.drop_left'
  simp [Nat.add_comm]

theorem drop_value (b r : Str) : (b ++ 10 :: r).drop (1 + b.length) = r := by
  have : b ++ 10 :: r = (b ++ [10]) ++ r := by simp
  rw [this]
  apply List.drop_left'
  simp [Nat.add_comm]

/-- **C95.** A script gets all headers of a request, names and values, whatever characters are in the values. -/
theorem C95_all_headers (hs : List (Str × Str)) : dump (headers hs).1 (headers hs).2 = present hs := by
  unfold headers
  generalize present hs = l
  induction l with
  | nil => rfl
  | cons h l ih =>
    simp only [store, dump]
    rw [drop_name, drop_value, ih]
    congr 1
    have h1 : (h.1 ++ 61 :: h.2 ++ 10 :: (store l).1).take h.1.length = h.1 := by
      rw [List.append_assoc]
      exact List.take_left
    have h2 : (h.2 ++ 10 :: (store l).1).take h.2.length = h.2 := List.take_left
    rw [h1, h2]

/-- **C95.** The names are those of the library without ": ", ":" or " " at the end. -/
theorem C95_names (n : Str) (h1 : n.getLast? ≠ some 58) (h2 : n.getLast? ≠ some 32) :
    nameOf (n ++ asc ": ") = n ∧ nameOf (n ++ asc ":") = n ∧ nameOf (n ++ asc " ") = n ∧ nameOf n = n := by
  have e1 : asc ": " = [58, 32] := by decide +kernel
  have e2 : asc ":" = [58] := by decide +kernel
  have e3 : asc " " = [32] := by decide +kernel
  refine ⟨?_, ?_, ?_, ?_⟩
  · have : n ++ [58, 32] = (n ++ [58]) ++ [32] := by simp
    rw [e1, this]
    simp [nameOf, dropEnd]
  · rw [e2]
    simp [nameOf, dropEnd]
  · rw [e3]
    simp [nameOf, dropEnd, h1]
  · simp [nameOf, dropEnd, h1, h2]

theorem lower_length (s : Str) : (lower s).length = s.length := by simp [lower]

theorem lower_take (s : Str) (n : Nat) : lower (s.take n) = (lower s).take n := by simp [lower, List.map_take]

theorem lower_eq61 (c : UInt8) (h : (if 65 ≤ c ∧ c ≤ 90 then c + 32 else c) = 61) : c = 61 := by
  split at h
  · rename_i hc
    exfalso
    have h1 : c.toNat + 32 < 256 := by
      have := UInt8.le_iff_toNat_le.mp hc.2
      have : c.toNat ≤ 90 := this
      omega
    have h2 := congrArg UInt8.toNat h
    rw [UInt8.toNat_add] at h2
    have h3 : (65 : Nat) ≤ c.toNat := UInt8.le_iff_toNat_le.mp hc.1
    have h4 : (32 : UInt8).toNat = 32 := rfl
    have h5 : (61 : UInt8).toNat = 61 := rfl
    rw [h4, h5, Nat.mod_eq_of_lt h1] at h2
    omega
  · exact h

theorem matches_iff {n v r name : Str} (hn : 61 ∉ n) (hname : 61 ∉ name) :
    matches_ (n ++ 61 :: v ++ 10 :: r) name = true ↔ lower n = lower name := by
  have e : n ++ 61 :: v ++ 10 :: r = n ++ (61 :: (v ++ 10 :: r)) := by simp
  rw [e]
  unfold matches_
  rw [Bool.and_eq_true, beq_iff_eq, beq_iff_eq]
  constructor
  · rintro ⟨h1, h2⟩
    rcases Nat.lt_trichotomy name.length n.length with hl | hl | hl
    · rw [List.getElem?_append_left hl] at h2
      exact absurd (List.mem_of_getElem? h2) hn
    · rw [hl, List.take_left] at h1
      exact h1
    · exfalso
      rw [List.take_append] at h1
      have h3 := congrArg (fun s => s[n.length]?) h1
      have hk : name.length - n.length = (name.length - n.length - 1) + 1 := by omega
      have htn : List.take name.length n = n := List.take_of_length_le (by omega)
      rw [htn, hk] at h3
      have h4 : (lower (n ++ List.take (name.length - n.length - 1 + 1) (61 :: (v ++ 10 :: r))))[n.length]? = some 61 := by
        simp [lower]
      rw [h4] at h3
      simp only [lower, List.getElem?_map] at h3
      cases hx : name[n.length]? with
      | none => rw [hx] at h3; cases h3
      | some c =>
        rw [hx] at h3
        have := lower_eq61 c (Option.some.inj h3).symm
        subst this
        exact hname (List.mem_of_getElem? hx)
  · intro h
    have hl : name.length = n.length := by
      rw [← lower_length n, h, lower_length]
    rw [hl, List.take_left]
    exact ⟨h, by simp⟩

/-- **C95.** A header is found by its name, upper or lower case, and the first one of that name counts. -/
theorem C95_header_by_name (hs : List (Str × Str)) (name : Str) (hn : ∀ h ∈ hs, 61 ∉ h.1) (hname : 61 ∉ name) :
    header name (headers hs) = ((present hs).find? (fun h => lower h.1 = lower name)).map (·.2) := by
  have hp : ∀ h ∈ present hs, 61 ∉ h.1 := by
    intro h hm
    obtain ⟨h0, hm0, rfl⟩ := List.mem_map.mp hm
    have := hn h0 (List.mem_filter.mp hm0).1
    intro hc
    apply this
    have sub : ∀ (c : UInt8) (s : Str), ∀ x ∈ dropEnd c s, x ∈ s := by
      intro c s x hx
      unfold dropEnd at hx
      split at hx
      · exact List.dropLast_subset s hx
      · exact hx
    exact sub 32 _ _ (sub 58 _ _ hc)
  unfold headers
  generalize present hs = l at hp
  unfold header
  induction l with
  | nil => rfl
  | cons h l ih =>
    have hm := matches_iff (v := h.2) (r := (store l).1) (hp h (by simp)) hname
    simp only [store, find]
    by_cases hc : lower h.1 = lower name
    · rw [if_pos (hm.mpr hc), List.find?_cons_of_pos (by simpa using hc), drop_name]
      simp [List.take_left]
    · rw [if_neg (fun h' => hc (hm.mp h')), List.find?_cons_of_neg (by simpa using hc), drop_name, drop_value]
      exact ih (fun x hx => hp x (by simp [hx]))

example : header (asc "HOST") (headers [(asc "get ", asc "/a?b=c"), (asc "cookie:", []), (asc "host: ", asc "h=1\n")]) = some (asc "h=1\n") := by
  decide +kernel

/-- Every other one. -/
def evens : List (Str × Str) → List (Str × Str)
  | [] => []
  | [p] => [p]
  | p :: _ :: ps => p :: evens ps

/-- **C96.** A parameter of a form is found by its name if it stands at an even place (counted from 0); what the
claim leaves out is below. -/
theorem C96_parameter_partial (name : Str) (ps : List (Str × Str)) (k : Nat) (p : Str × Str) (hk : ps[2 * k]? = some p) (hp : p.1 = name)
    (hu : ∀ q ∈ ps, q.1 = name → q = p) : query name ps = some p.2 := by
  induction k generalizing ps with
  | zero =>
    match ps, hk with
    | [q], hk =>
      have : q = p := by simpa using hk
      subst this
      simp [query, hp]
    | q :: _ :: _, hk =>
      have : q = p := by simpa using hk
      subst this
      simp [query, hp]
  | succ k ih =>
    match ps, hk with
    | [], hk => cases hk
    | [q], hk => exact absurd hk (by simp [show 2 * (k + 1) = 2 * k + 1 + 1 from by omega])
    | q :: q' :: ps, hk =>
      have hk' : ps[2 * k]? = some p := by
        have : 2 * (k + 1) = 2 * k + 1 + 1 := by omega
        rw [this] at hk
        simpa using hk
      unfold query
      split
      · rename_i hq
        rw [hu q (by simp) hq.symm]
      · exact ih ps hk' (fun x hx => hu x (by simp [hx]))

/-- A name that is not there is not found. -/
theorem C96_absent (name : Str) (ps : List (Str × Str)) (h : ∀ p ∈ ps, p.1 ≠ name) : query name ps = none := by
  match ps with
  | [] => rfl
  | [q] =>
    have := h q (by simp)
    simp [query, Ne.symm this]
  | q :: q' :: ps =>
    have := h q (by simp)
    unfold query
    rw [if_neg (Ne.symm this)]
    exact C96_absent name ps (fun p hp => h p (by simp [hp]))

/-- **C96, refuted part.** The second parameter of a form is not found by its name. -/
theorem C96_second_refuted (n1 v1 n2 v2 : Str) (h : n1 ≠ n2) : query n2 [(n1, v1), (n2, v2)] = none := by
  simp [query, Ne.symm h]

example : query (asc "c") [(asc "a", asc "1"), (asc "b", asc "2"), (asc "c", asc "3")] = some (asc "3") := by decide +kernel

/-! ### The password -/

/-- The header that a client sends for a user and password. -/
def credentials (pass : Str) : Str := asc "Basic " ++ Base64.Spec.rfc4648 pass

theorem cstr_eq {s : Str} (h : 0 ∉ s) : cstr s = s := by
  unfold cstr
  induction s with
  | nil => rfl
  | cons c s ih =>
    have hc : c ≠ 0 := by
      rintro rfl
      exact h (by simp)
    rw [List.takeWhile_cons_of_pos (by simpa using hc), ih (fun hm => h (by simp [hm]))]

theorem auth_no61 : (61 : UInt8) ∉ authName := by decide +kernel

/-- **C97.** A client that sends the user and password that are set is let in. -/
theorem C97_right_password (pass : Str) (hs : List (Str × Str)) (hn : ∀ h ∈ hs, 61 ∉ h.1) (hne : pass ≠ []) (h0 : 0 ∉ pass)
    (h : (present hs).find? (fun h => lower h.1 = lower authName) = some (asc "authorization", credentials pass)) :
    allowed pass (headers hs) = true := by
  unfold allowed
  rw [C95_header_by_name hs authName hn auth_no61, h]
  simp only [Option.map_some]
  have h6 : (asc "Basic ").length = 6 := by decide +kernel
  have ht : (credentials pass).take 6 = asc "Basic " := by
    unfold credentials
    rw [← h6, List.take_left]
  have hd : (credentials pass).drop 6 = Base64.Spec.rfc4648 pass := by
    unfold credentials
    rw [← h6, List.drop_left]
  rw [ht, hd, if_pos (by decide +kernel), Base64.C01_base64_decode_rfc4648, cstr_eq h0]
  simp [hne]

/-- **C97.** Only a request whose first `authorization` header has the scheme `basic` and decodes to the user and
password that are set is let in; without such a header nobody is. -/
theorem C97_only_right_password (pass : Str) (hs : List (Str × Str)) (hn : ∀ h ∈ hs, 61 ∉ h.1) (h : allowed pass (headers hs) = true) :
    pass ≠ [] ∧ ∃ hdr ∈ present hs, lower hdr.1 = lower authName ∧ lower (hdr.2.take 6) = basic ∧ cstr (Base64.decode (hdr.2.drop 6)) = pass := by
  unfold allowed at h
  rw [C95_header_by_name hs authName hn auth_no61] at h
  cases hf : (present hs).find? (fun h => lower h.1 = lower authName) with
  | none => rw [hf] at h; cases h
  | some p =>
    rw [hf] at h
    simp only [Option.map_some] at h
    split at h
    · rename_i hb
      have h := of_decide_eq_true h
      refine ⟨h.2 ▸ h.1, p, List.mem_of_find?_eq_some hf, ?_, hb, h.2⟩
      have := List.find?_some hf
      exact of_decide_eq_true this
    · cases h

/-- What a client has to know: two passwords without NUL that both let the same request in are equal. -/
theorem C97_one_password (p q : Str) (d : Str × List Nat) (h1 : allowed p d = true) (h2 : allowed q d = true) : p = q := by
  unfold allowed at h1 h2
  split at h1
  · cases h1
  · rename_i v hv
    rw [hv] at h2
    simp only [] at h1 h2
    split at h1
    · rename_i hb
      rw [if_pos hb] at h2
      exact (of_decide_eq_true h1).2.symm.trans (of_decide_eq_true h2).2
    · cases h1

example : allowed (asc "bob:x") (headers [(asc "host:", asc "h"), (asc "authorization:", asc "bAsIc Ym9iOng=")]) = true := by decide +kernel

end Verif.Web.Head
