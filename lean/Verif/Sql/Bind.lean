import Verif.Sql.Out

/-!
# The values of parameters (src/jsiSqlite.c)

Modelled: `dbBindStmt` (796-980) behind the lookup of the variable, with the conversions of `typeCheck:'cast'` made in
place (`Jsi_ValueToNumber`, `Jsi_ValueToBool`, `Jsi_ValueToString`, jsiValue.c 486-690), and `dbEvalSetColumnValue` (1845-1907), the
way back.  Numbers, their conversions and JSON are an environment.
-/
namespace Verif.Sql.Bind
open Verif

abbrev Str := List UInt8

/-- Numbers of scripts (`double`): conversion to `Jsi_Wide` and back. -/
structure Num where
  N : Type
  wide : N → Int
  ofWide : Int → N
  eq : N → N → Bool
  eq_iff : ∀ a b, eq a b = true ↔ a = b

/-- Values of a script; `json t`: an array or plain object whose JSON is `t`. -/
inductive JV (E : Num) where
  | null
  | undef
  | bool (b : Bool)
  | num (n : E.N)
  | str (s : Str)
  | json (t : Str)
  | other

/-- Values SQLite is given. -/
inductive SV (E : Num) where
  | null
  | int (i : Int)
  | real (n : E.N)
  | text (s : Str)
  | blob (s : Str)

/-- Types that a parameter `$x(name:type)` may name (`dbTypeNameHashInit`, 373-387); the names for times are `int` or
`double` here. -/
inductive Ty where
  | blob
  | string
  | double
  | int
  | bool
  deriving DecidableEq

/-- `typeCheck`. -/
inductive Check where
  | warn
  | error
  | cast
  deriving DecidableEq

/-- Conversions in place. -/
structure Conv (E : Num) where
  toStr : JV E → Str
  toNum : JV E → E.N
  toBool : JV E → Bool

/-- A parameter: its type if it names one, whether it has the form `$x(…)`, the variable it finds. -/
structure Param where
  ty : Option Ty
  arr : Bool
  var : Option Nat

/-- Options: of the query, and of the handle. -/
structure Opts where
  check : Check
  bindWarn : Bool
  forceInt : Bool
  mapundef : Bool
  noJson : Bool

variable {E : Num}

/-- The in place conversion for a type (889-925). -/
def castTo (k : Conv E) : Ty → JV E → JV E
  | .blob, v => .str (k.toStr v)
  | .string, v => .str (k.toStr v)
  | .double, v => .num (k.toNum v)
  | .int, v => .num (k.toNum v)
  | .bool, v => .bool (k.toBool v)

/-- Is the value of the type (889-925)?  For `bool` the code asks for a number. -/
def matches' : Ty → JV E → Bool
  | .blob, .str _ => true
  | .string, .str _ => true
  | .double, .num _ => true
  | .int, .num _ => true
  | .bool, .num _ => true
  | _, _ => false

/-- What one parameter leads to. -/
inductive One (E : Num) where
  | err
  | skip
  | val (v : SV E)

/-- The chain of tests that binds a value (935-976): `isInt`, `isBlob` from the type in force, `arr` whether this or an
earlier parameter had the form `$x(…)`, `dec` whether column number `i` has no declared type or is CHARJSON. -/
def bindOne (o : Opts) (ty : Option Ty) (arr dec : Bool) (v : JV E) : One E :=
  match v with
  | .bool b => .val (.int (if b then 1 else 0))
  | .num n =>
    if ty = some .int ∨ (o.forceInt = true ∧ E.eq (E.ofWide (E.wide n)) n = true) then .val (.int (E.wide n)) else .val (.real n)
  | .null => .val .null
  | .str s => if ty = some .blob then .val (.blob s) else .val (.text s)
  | .undef => if o.mapundef then .val .null else if o.bindWarn then .val .null else .err
  | .json t => if o.noJson = false ∧ arr = true ∧ dec = true then .val (.text t) else if o.bindWarn then .val .null else .err
  | .other => if o.bindWarn then .val .null else .err

/-- Is it `undefined`? -/
def JV.isUndef : JV E → Bool
  | .undef => true
  | _ => false

/-- The type check of one parameter (886-934): the value afterwards, or `none` for an error. -/
def checkOne (k : Conv E) (o : Opts) (ty : Option Ty) (v : JV E) : Option (JV E) :=
  match ty with
  | none => some v
  | some t =>
    if v.isUndef then some v
    else if o.check = .cast then some (castTo k t v)
    else if matches' t v = false ∧ o.check = .error then none else some v

/-- The loop of `dbBindStmt` (807-978); `ty`: `btype`, `arr`: `bindArr`, both kept from one turn to the next; `st`: the
script's variables, which a cast changes; `i`: number of the parameter.  Result: the values (`skip`: the parameter is left as
it is), or `none` for an error, and the variables. -/
def bindLoop (k : Conv E) (o : Opts) (dec : Nat → Bool) : Nat → Option Ty → Bool → List Param → (Nat → JV E) →
    Option (List (One E)) × (Nat → JV E)
  | _, _, _, [], st => (some [], st)
  | i, ty, arr, p :: ps, st =>
    let ty' := match p.ty with | some t => some t | none => ty
    let arr' := arr || p.arr
    match p.var with
    | none =>
      if o.bindWarn then
        let q := bindLoop k o dec (i + 1) ty' arr' ps st
        (q.1.map (One.skip :: ·), q.2)
      else (none, st)
    | some x =>
      match checkOne k o ty' (st x) with
      | none => (none, st)
      | some v =>
        let st1 := fun y => if y = x then v else st y
        match bindOne o ty' arr' (dec i) v with
        | .err => (none, st1)
        | w =>
          let q := bindLoop k o dec (i + 1) ty' arr' ps st1
          (q.1.map (w :: ·), q.2)

/-- `dbBindStmt`. -/
def bindStmt (k : Conv E) (o : Opts) (dec : Nat → Bool) (ps : List Param) (st : Nat → JV E) :
    Option (List (One E)) × (Nat → JV E) := bindLoop k o dec 1 none false ps st

/-! ## What is meant -/

/-- The value a parameter should get: its own type and form decide, nothing else. -/
def wanted (o : Opts) (dec : Bool) (st : Nat → JV E) (p : Param) : One E :=
  match p.var with
  | none => if o.bindWarn then .skip else .err
  | some x =>
    match p.ty with
    | none => bindOne o none p.arr dec (st x)
    | some t => if (st x).isUndef = false ∧ matches' t (st x) = false ∧ o.check = .error then .err else bindOne o p.ty p.arr dec (st x)

/-- All of them: an error if one is an error. -/
def wantedAll (o : Opts) (dec : Nat → Bool) (st : Nat → JV E) : Nat → List Param → Option (List (One E))
  | _, [] => some []
  | i, p :: ps =>
    match wanted o (dec i) st p with
    | .err => none
    | w => (wantedAll o dec st (i + 1) ps).map (w :: ·)

/-- What a script reads from a column without a declared type (`dbEvalSetColumnValue`, 1845-1907): text through a C
string; a blob of no bytes is NULL. -/
def readBack : SV E → JV E
  | .null => .null
  | .int i => .num (E.ofWide i)
  | .real n => .num n
  | .text s => .str (Out.cstr s)
  | .blob s => if s = [] then .null else .str s

/-! ## Theorems -/

theorem bindOne_arr (o : Opts) (ty : Option Ty) (a b dec : Bool) (v : JV E) (h : ∀ t, v ≠ .json t) :
    bindOne o ty a dec v = bindOne o ty b dec v := by
  cases v with
  | json t => exact absurd rfl (h t)
  | _ => rfl

theorem update_self (st : Nat → JV E) (x : Nat) : (fun y => if y = x then st x else st y) = st := by
  funext y
  by_cases h : y = x
  · rw [if_pos h, h]
  · rw [if_neg h]

/-- The general step: as long as the type in force is the parameter's own, and the form too or the value is not an array or
object. -/
theorem bind_step (k : Conv E) (o : Opts) (dec : Nat → Bool) (hc : o.check ≠ .cast) (st : Nat → JV E) : ∀ (ps : List Param) (i : Nat)
    (ty : Option Ty) (arr : Bool), ((ty = none ∧ ∀ p ∈ ps, p.ty = none) ∨ ∀ p ∈ ps, p.ty ≠ none) →
    ((arr = false ∧ ∀ p ∈ ps, p.arr = false) ∨ (∀ p ∈ ps, p.arr = true) ∨ ∀ x t, st x ≠ .json t) →
    bindLoop k o dec i ty arr ps st = (wantedAll o dec st i ps, st)
  | [], _, _, _, _, _ => rfl
  | p :: ps, i, ty, arr, hty, harr => by
    have e1 : (match p.ty with | some t => some t | none => ty) = p.ty := by
      rcases hty with ⟨h, h'⟩ | h
      · rw [h' p List.mem_cons_self, h]
      · cases hp : p.ty with
        | none => exact absurd hp (h p List.mem_cons_self)
        | some t => rfl
    have hty' : (p.ty = none ∧ ∀ q ∈ ps, q.ty = none) ∨ ∀ q ∈ ps, q.ty ≠ none := by
      rcases hty with ⟨_, h'⟩ | h
      · exact Or.inl ⟨h' p List.mem_cons_self, fun q hq => h' q (List.mem_cons_of_mem _ hq)⟩
      · exact Or.inr fun q hq => h q (List.mem_cons_of_mem _ hq)
    have harr' : ((arr || p.arr) = false ∧ ∀ q ∈ ps, q.arr = false) ∨ (∀ q ∈ ps, q.arr = true) ∨ ∀ x t, st x ≠ .json t := by
      rcases harr with ⟨h, h'⟩ | h | h
      · exact Or.inl ⟨by rw [h, h' p List.mem_cons_self]; rfl, fun q hq => h' q (List.mem_cons_of_mem _ hq)⟩
      · exact Or.inr (Or.inl fun q hq => h q (List.mem_cons_of_mem _ hq))
      · exact Or.inr (Or.inr h)
    have ih := bind_step k o dec hc st ps (i + 1) p.ty (arr || p.arr) hty' harr'
    have e2 : ∀ x, bindOne o p.ty (arr || p.arr) (dec i) (st x) = bindOne o p.ty p.arr (dec i) (st x) := by
      intro x
      rcases harr with ⟨h, h'⟩ | h | h
      · rw [h]; rfl
      · rw [h p List.mem_cons_self, Bool.or_true]
      · exact bindOne_arr _ _ _ _ _ _ (h x)
    unfold bindLoop wantedAll
    rw [e1]
    simp only
    unfold wanted
    cases hv : p.var with
    | none =>
      simp only
      cases o.bindWarn with
      | false => rfl
      | true =>
        simp only [if_true]
        rw [ih]
    | some x =>
      simp only
      have hend : (match bindOne o p.ty p.arr (dec i) (st x) with
          | .err => (none, st)
          | w => ((wantedAll o dec st (i + 1) ps).map (w :: ·), st)) =
          ((match bindOne o p.ty p.arr (dec i) (st x) with
          | .err => none
          | w => (wantedAll o dec st (i + 1) ps).map (w :: ·)), st) := by
        cases bindOne o p.ty p.arr (dec i) (st x) <;> rfl
      cases hp : p.ty with
      | none =>
        rw [hp] at e2 ih hend
        have e3 : checkOne k o none (st x) = some (st x) := rfl
        simp only [e3, update_self, e2, ih]
        exact hend
      | some t =>
        rw [hp] at e2 ih hend
        by_cases hm : (st x).isUndef = false ∧ matches' t (st x) = false ∧ o.check = .error
        · have e3 : checkOne k o (some t) (st x) = none := by
            unfold checkOne
            simp only
            rw [if_neg (by rw [hm.1]; exact Bool.false_ne_true), if_neg hc, if_pos hm.2]
          rw [e3]
          simp only
          rw [if_pos hm]
        · have e3 : checkOne k o (some t) (st x) = some (st x) := by
            unfold checkOne
            simp only
            cases hu : (st x).isUndef with
            | true => rfl
            | false =>
              rw [if_neg Bool.false_ne_true, if_neg hc, if_neg (fun h => hm ⟨hu, h⟩)]
          rw [e3]
          simp only [update_self, e2, ih]
          rw [if_neg hm]
          exact hend

/-- **C104.** If no parameter of a statement names a type, or all of them do, then every parameter is bound by the value
of its own variable alone - a number as itself, a text byte for byte, true and false as 1 and 0, null as NULL -, an error is
one of these values being refused, and no variable changes.  (As to arrays and objects, which are bound as JSON in parameters
`$x(…)`: if all, or none, of the parameters have that form, or no variable is one.)  Missing: mixed
statements (`C104_type_stays_refuted`) and `typeCheck:'cast'` (`C104_cast_refuted`). -/
theorem C104_own_value_partial (k : Conv E) (o : Opts) (dec : Nat → Bool) (hc : o.check ≠ .cast) (ps : List Param) (st : Nat → JV E)
    (hty : (∀ p ∈ ps, p.ty = none) ∨ ∀ p ∈ ps, p.ty ≠ none)
    (harr : (∀ p ∈ ps, p.arr = false) ∨ (∀ p ∈ ps, p.arr = true) ∨ ∀ x t, st x ≠ .json t) :
    bindStmt k o dec ps st = (wantedAll o dec st 1 ps, st) :=
  bind_step k o dec hc st ps 1 none false (hty.imp (fun h => ⟨rfl, h⟩) id) (harr.imp (fun h => ⟨rfl, h⟩) id)

/-- **C104.** And what goes in comes out: a number, a text without NUL, null, of a parameter without a type, is read back as the
same value (without `forceInt`; true and false come back as numbers). -/
theorem C104_round_trip (o : Opts) (arr dec : Bool) (hf : o.forceInt = false) (v : JV E)
    (hv : match v with | .num _ => True | .null => True | .str s => 0 ∉ s | _ => False) :
    ∃ w, bindOne o none arr dec v = .val w ∧ readBack w = v := by
  cases v with
  | null => exact ⟨_, rfl, rfl⟩
  | num n => exact ⟨.real n, by simp [bindOne, hf], rfl⟩
  | str s =>
    refine ⟨.text s, by simp [bindOne], ?_⟩
    have : Out.cstr s = s := by
      unfold Out.cstr
      have : ∀ t : Str, 0 ∉ t → t.takeWhile (· ≠ 0) = t := by
        intro t
        induction t with
        | nil => intro _; rfl
        | cons c t ih =>
          intro h
          have hc : c ≠ 0 := fun e => h (e ▸ List.mem_cons_self)
          simp only [List.takeWhile_cons, hc, ne_eq, not_false_eq_true, decide_true, if_true]
          rw [ih (fun hm => h (List.mem_cons_of_mem _ hm))]
      exact this s hv
    simp only [readBack, this]
  | undef => exact hv.elim
  | bool b => exact hv.elim
  | json t => exact hv.elim
  | other => exact hv.elim

/-- With `forceInt` too, where the number is one that `Jsi_Wide` holds. -/
theorem C104_round_trip_int (o : Opts) (arr dec : Bool) (n : E.N) :
    ∃ w, bindOne o none arr dec (.num n) = .val w ∧ readBack w = .num n := by
  by_cases h : o.forceInt = true ∧ E.eq (E.ofWide (E.wide n)) n = true
  · exact ⟨.int (E.wide n), by simp only [bindOne]; rw [if_pos (Or.inr h)], by simp only [readBack, (E.eq_iff _ _).1 h.2]⟩
  · exact ⟨.real n, by
      simp only [bindOne]
      rw [if_neg]
      rintro (h' | h')
      · cases h'
      · exact h h', rfl⟩

/-- Halves, with truncation: enough for the examples. -/
def halves : Num where
  N := Int
  wide n := n.tdiv 2
  ofWide i := 2 * i
  eq a b := decide (a = b)
  eq_iff a b := by simp

def plain : Opts := ⟨.warn, false, false, false, false⟩
def conv : Conv halves := ⟨fun _ => asc "1.5", fun _ => (3 : Int), fun _ => true⟩

/-- The hypotheses are met by a statement with a number, a text and a null. -/
example : bindStmt conv plain (fun _ => true) [⟨none, false, some 0⟩, ⟨none, false, some 1⟩, ⟨none, false, some 2⟩]
    (fun x => if x = 0 then .num (3 : Int) else if x = 1 then .str (asc "a") else .null) =
    (some [.val (.real (3 : Int)), .val (.text (asc "a")), .val .null], fun x => if x = 0 then .num (3 : Int) else if x = 1 then .str (asc "a") else .null) :=
  C104_own_value_partial conv plain _ (by decide) _ _ (Or.inl (by decide)) (Or.inl (by decide))

/-- **C104, counterexample.** The type of a parameter stays in force for those behind it that name none: of
`$x(a:integer), $x(b)` with b = 1.5 (3 halves) the second is bound as the integer 1; with `typeCheck:'error'` a text in the
second place is refused although it names no type. -/
theorem C104_type_stays_refuted :
    (bindStmt conv plain (fun _ => true) [⟨some .int, true, some 0⟩, ⟨none, true, some 1⟩] (fun _ => .num (3 : Int))).1 =
      some [.val (.int 1), .val (.int 1)] ∧
    wantedAll plain (fun _ => true) (fun _ => (JV.num (3 : Int) : JV halves)) 1 [⟨some .int, true, some 0⟩, ⟨none, true, some 1⟩] =
      some [.val (.int 1), .val (.real (3 : Int))] ∧
    (bindStmt conv { plain with check := .error } (fun _ => true) [⟨some .int, true, some 0⟩, ⟨none, true, some 1⟩]
      (fun x => if x = 0 then .num (3 : Int) else .str (asc "a"))).1 = none :=
  ⟨rfl, rfl, rfl⟩

/-- **C104, counterexample.** `typeCheck:'cast'` changes the script's own variable: a text becomes a number. -/
theorem C104_cast_refuted :
    (bindStmt conv { plain with check := .cast } (fun _ => true) [⟨some .double, true, some 0⟩] (fun _ => .str (asc "1.5"))).2 0 =
      .num (3 : Int) := rfl

/-- **C104, counterexample.** With `typeCheck:'error'` a parameter of type `bool` refuses true and takes 7. -/
theorem C104_bool_refuted :
    (bindStmt conv { plain with check := .error } (fun _ => true) [⟨some .bool, true, some 0⟩] (fun _ => .bool true)).1 = none ∧
    (bindStmt conv { plain with check := .error } (fun _ => true) [⟨some .bool, true, some 0⟩] (fun _ => .num (14 : Int))).1 =
      some [.val (.real (14 : Int))] := ⟨rfl, rfl⟩

/-- **C104, counterexample.** A text with NUL goes in whole and comes back cut, and true comes back as 1. -/
theorem C104_nul_refuted :
    readBack (.text (asc "a\x00b") : SV halves) = .str (asc "a") ∧
    bindOne plain none false true (.bool true : JV halves) = .val (.int 1) ∧ readBack (.int 1 : SV halves) = .num (2 : Int) :=
  ⟨rfl, rfl, rfl⟩

end Verif.Sql.Bind
