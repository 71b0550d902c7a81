import Verif.Sql.CacheSize

/-! # The statement cache: scripts that meet the hypotheses, and scripts that break the cache -/

namespace Verif.Sql.Cache
open Verif

/-- Length of the first statement of a text (up to `;`). -/
def toyLen : Str → Nat
  | [] => 0
  | c :: t => if c = 59 then 1 else toyLen t + 1

/-- A small database: a statement is a text up to `;`; `x` makes it fail, `$` makes it have a parameter `$v`;
it gives one row: its first byte, or the value of its parameter. -/
abbrev toy : Env where
  D := Nat
  Row := Nat
  Val := Nat
  Cur := Bool
  null := 0
  init := false
  split t := (toyLen t, t.all isspace)
  params t := if 36 ∈ t then [asc "$v"] else []
  compiles _ t := decide (113 ∉ t)
  step d t b c :=
    if 113 ∈ t ∨ 120 ∈ t then (d, .err)
    else if c then (d, .done) else (d + 1, .row (match b with | [] => (t.headD 0).toNat | v :: _ => v) true)
  empty := rfl
  pos := by
    intro t ht
    cases t with
    | nil => cases ht
    | cons a t => show 0 < (if a = 59 then 1 else toyLen t + 1); split <;> omega
  stale := by
    intro d t b h
    have : 113 ∈ t := by simpa using h
    simp [this]

/-- The text of a query, its row, and the end of it. -/
def one (sql : String) (v : Option Nat) (k : Ans Nat → Prog toy (List Nat)) : Prog toy (List Nat) :=
  .query (asc sql) false (.next (fun _ => v) k)

/-- Two queries of the same text one after another, and one inside the callback of another. -/
def good : Prog toy (List Nat) :=
  one "a$;" (some 5) fun
  | .row r => .next (fun _ => some 5) fun _ =>
    one "a$;" (some 6) fun
    | .row r2 => one "b" none fun
      | .row r3 => .leave (.leave (.done [r, r2, r3]))
      | _ => .done []
    | _ => .done []
  | _ => .done []

theorem good_noConf : NoConf good := by
  unfold good one
  refine .query (.next fun a => ?_)
  cases a with
  | row r =>
    refine .next fun _ => .query (.next fun a => ?_)
    cases a with
    | row r2 =>
      refine .query (.next fun a => ?_)
      cases a with
      | row r3 => exact .leave (.leave (.done _))
      | _ => exact .done _
    | _ => exact .done _
  | _ => exact .done _

/-- The hypotheses are met, and the queries do give their rows. -/
example : seen (run false good (opened 10) 0 []) = some ([5, 6, 98], 3) := by decide +kernel
example : specRun good 0 [] = some ([5, 6, 98], (3 : Nat)) := by decide +kernel

/-- **C99, counterexample.** A query inside the callback of a query of the same text, such as a function that
queries and is called from its own callback, does not give rows: it crashes the program.  (Each of the
two, alone or behind the other, gives its rows.) -/
def nested : Prog toy (List Nat) :=
  one "a" none fun
  | .row r => one "a" none fun
    | .row r2 => .done [r, r2]
    | _ => .done []
  | _ => .done []

theorem C99_same_text_refuted (max : Nat) : run false nested (opened max) (0 : Nat) [] = none := by
  have h : seen (run false nested (opened max) (0 : Nat) []) = none := by
    rw [C99_cache_transparent_partial max nested]
    · decide +kernel
    · unfold nested one
      refine .query (.next fun a => ?_)
      cases a with
      | row r =>
        refine .query (.next fun a => ?_)
        cases a with
        | row r2 => exact .done _
        | _ => exact .done _
      | _ => exact .done _
  cases hr : run false nested (opened max) (0 : Nat) [] with
  | none => rfl
  | some v => rw [hr] at h; cases h

/-- **C99, counterexample.** Blanks behind the last statement crash the program; without them the query gives
its row and ends. -/
def untilEnd (sql : String) : Prog toy (List Nat) :=
  one sql none fun
  | .row r => .next (fun _ => none) fun
    | .brk => .done [r]
    | _ => .done []
  | _ => .done []

theorem C99_trailing_blank_refuted :
    seen (run false (untilEnd "a;") (opened 10) (0 : Nat) []) = some ([97], (1 : Nat)) ∧
    seen (run false (untilEnd "a; ") (opened 10) (0 : Nat) []) = none := by
  constructor <;> decide +kernel

/-- **C99, counterexample.** `db.conf({stmtCacheMax:0})` in the callback of a query: crash. -/
def confInside : Prog toy (List Nat) :=
  one "a" none fun
  | .row r => .limitCache 0 (.leave (.done [r]))
  | _ => .done []

theorem C99_conf_inside_refuted : seen (run false confInside (opened 10) (0 : Nat) []) = none := by decide +kernel

/-- **C99, counterexample.** With `bindWarn`, a parameter without a value does not become NULL (0 here): it keeps
the value it had in the query before, if that is still in the cache. -/
def warnOld : Prog toy (List Nat) :=
  one "a$" (some 7) fun
  | .row r => .leave (one "a$" none fun
    | .row r2 => .done [r, r2]
    | _ => .done [])
  | _ => .done []

theorem C99_bindWarn_refuted :
    seen (run true warnOld (opened 10) (0 : Nat) []) = some ([7, 7], (2 : Nat)) ∧
    seen (run true warnOld (opened 0) (0 : Nat) []) = some ([7, 0], (2 : Nat)) := by
  constructor <;> decide +kernel

/-- A query from start to end. -/
def whole (sql : String) (k : Prog toy (List Nat)) : Prog toy (List Nat) :=
  .query (asc sql) false (.next (fun _ => none) fun
    | .row _ => .leave k
    | _ => k)

theorem whole_flat {sql : String} {k : Prog toy (List Nat)} (h : Flat false k) : Flat false (whole sql k) :=
  .query (.next (fun _ => .leave h) h h)

/-- C100 is not empty: four queries, one fails, two kept of at most two. -/
example : Flat false (whole "a" (whole "b" (whole "x" (whole "a" (.done []))))) :=
  whole_flat (whole_flat (whole_flat (whole_flat (.done _ _))))
example : (run false (whole "a" (whole "b" (whole "x" (whole "a" (.done []))))) (opened 2) (0 : Nat) []).map
    (fun v => (kept v.2.1, v.2.1.cnt)) = some (2, 2) := by decide +kernel

/-- **C100, counterexample.** Four queries inside each other, the outermost with `nocache`: three statements are
kept where the limit is two. -/
def deep : Prog toy (List Nat) :=
  .query (asc "a") true (.next (fun _ => none) fun _ =>
  .query (asc "b") false (.next (fun _ => none) fun _ =>
  .query (asc "c") false (.next (fun _ => none) fun _ =>
  .query (asc "d") false (.next (fun _ => none) fun _ =>
  .leave (.leave (.leave (.leave (.done []))))))))

theorem C100_nested_refuted : (run false (whole "a" (whole "b" deep)) (opened 2) (0 : Nat) []).map
    (fun v => (kept v.2.1, v.2.1.cnt, v.2.2.2.length)) = some (3, 2, 0) := by decide +kernel

/-- **C100, counterexample.** Behind a query of a cached statement with `nocache` the count is one too small, and
`db.conf({stmtCacheMax:1})` leaves two statements. -/
theorem C100_conf_refuted : (run false (whole "a" (whole "b" (whole "c" (.query (asc "a") true (.next (fun _ => none)
      fun _ => .leave (.limitCache 1 (.done []))))))) (opened 5) (0 : Nat) []).map
    (fun v => (kept v.2.1, v.2.1.cnt, v.2.1.max, v.2.2.2.length)) = some (2, 1, 1, 0) := by decide +kernel

end Verif.Sql.Cache
