import Verif.Basic
import Verif.LList.Props

/-!
# The cache of compiled SQL statements (src/jsiSqlite.c)

Modelled: `dbPrepareStmt` (673-775), `dbReleaseStmt` (608-635), `dbPrepStmtFree` (546-562),
`dbPrepStmtLimit` (568-575), `dbEvalStepSub` (488-528), `dbEvalStep` (779-793), `dbEvalFinalize`
(999-1010), the loop of `dbBindStmt` (795-980) as far as which parameter gets a value (the values
themselves: `Bind.lean`), and `dbPrepStmtLimit` as called by `db.conf` (3600).

The list of cached statements is the model of `Jsi_List` in `LList/Model.lean`, pointers and all.  The
hash table from SQL texts to statements is a finite map (string keyed hash tables: `Hash/`).

SQLite is an arbitrary environment (`Env`): how much of a text is its first statement, whether that
statement compiles on the present contents, its parameters, and what a step does.
-/
namespace Verif.Sql.Cache
open Verif

abbrev Str := List UInt8

/-- `isspace` in the C locale. -/
def isspace (c : UInt8) : Bool := c = 32 || (9 ≤ c && c ≤ 13)

/-- What `sqlite3_step` (and the `sqlite3_reset` behind it) answers. -/
inductive Out (Row Cur : Type) where
  | row (r : Row) (c : Cur)
  | done
  | busy (c : Cur)
  | err

/-- SQLite.  `split t`: length of the first statement of `t`, and whether it is empty (white space or a
comment).  `compiles`: `sqlite3_prepare_v2` succeeds.  `step`: contents, statement, values of the
parameters, position in the result.  A statement compiled earlier is compiled again by `sqlite3_step`
when the schema has changed; if that fails the step fails (`stale`). -/
structure Env where
  D : Type
  Row : Type
  Val : Type
  Cur : Type
  null : Val
  init : Cur
  split : Str → Nat × Bool
  params : Str → List Str
  compiles : D → Str → Bool
  step : D → Str → List Val → Cur → D × Out Row Cur
  empty : (split []).2 = true
  pos : ∀ t, (split t).2 = false → 0 < (split t).1
  stale : ∀ d t b, compiles d t = false → step d t b init = (d, .err)

/-- `SqlPreparedStmt` (jsiSqlite.c 155-170): `key` is the text it was compiled from (`entry`), `nSql` the
length of the statement, `el` is `elPtr`; values of parameters and position belong to `pStmt`. -/
structure Rec (E : Env) where
  key : Str
  nSql : Nat
  binds : List E.Val
  cur : E.Cur
  el : Option Nat

/-- The cache of a database handle: records (`none`: freed or never allocated), next record, hash table,
list, values of list entries, `stmtCacheCnt`, `stmtCacheMax`. -/
structure St (E : Env) where
  recs : Nat → Option (Rec E)
  fresh : Nat
  hash : Str → Option Nat
  l : LList.L
  nval : Nat → Nat
  cnt : Int
  max : Int

/-- `DbEvalContext` (jsiSqlite.c 275-300): rest of the script, current statement, `nocache`. -/
structure Ctx where
  rest : Str
  stmt : Option Nat
  nocache : Bool

variable {E : Env}

/-- Function update. -/
def set {α β : Type} [DecidableEq α] (f : α → β) (i : α) (v : β) : α → β := fun j => if j = i then v else f j

/-- `if (prep->elPtr) Jsi_ListEntryDelete(prep->elPtr)` (jsiSqlite.c 557-558). -/
def delEl (l : LList.L) : Option Nat → Option LList.L
  | none => some l
  | some n => LList.entryDelete l n

/-- `dbPrepStmtFree` (jsiSqlite.c 546-562); `none`: use of freed memory. -/
def free (s : St E) (i : Nat) : Option (St E) :=
  match s.recs i with
  | none => none
  | some r =>
    match delEl s.l r.el with
    | none => none
    | some l => some ⟨set s.recs i none, s.fresh, set s.hash r.key none, l, s.nval, s.cnt - 1, s.max⟩

/-- `dbPrepStmtLimit` (jsiSqlite.c 568-575); `fuel` bounds the loop. -/
def limit : Nat → St E → Option (St E)
  | 0, _ => none
  | fuel + 1, s =>
    if s.cnt > s.max then
      match s.l.tail with
      | none => none                               -- Jsi_ListPop(list, NULL)
      | some n =>
        match LList.pop s.l n with
        | none => none
        | some l1 =>
          match free ⟨s.recs, s.fresh, s.hash, l1, s.nval, s.cnt, s.max⟩ (s.nval n) with
          | none => none
          | some s2 => limit fuel ⟨s2.recs, s2.fresh, s2.hash, s2.l, s2.nval, (s2.l.num : Int), s2.max⟩
    else some s

/-- Put a record at the front of the list (jsiSqlite.c 626-630). -/
def pushFront (s : St E) (i : Nat) (r : Rec E) : Option (St E) :=
  match r.el with
  | none =>
    match LList.entryNew s.l s.l.head with
    | none => none
    | some l => some ⟨set s.recs i (some ⟨r.key, r.nSql, r.binds, r.cur, some s.l.fresh⟩), s.fresh, s.hash, l,
        set s.nval s.l.fresh i, s.cnt, s.max⟩
  | some n =>
    match LList.push s.l n s.l.head with
    | none => none
    | some l => some ⟨s.recs, s.fresh, s.hash, l, s.nval, s.cnt, s.max⟩

/-- `dbReleaseStmt` (jsiSqlite.c 608-635). -/
def release (s : St E) (i : Nat) (discard : Bool) : Option (St E) :=
  if s.max ≤ 0 ∨ discard = true then free s i
  else
    match s.recs i with
    | none => none
    | some r =>
      match pushFront s i r with
      | none => none
      | some s1 =>
        match limit (s1.l.num + 2) s1 with
        | none => none
        | some s2 => some ⟨s2.recs, s2.fresh, s2.hash, s2.l, s2.nval, (s2.l.num : Int), s2.max⟩

/-- What `dbPrepareStmt` leads to. -/
inductive Prep (E : Env) where
  | fault
  | err
  | ok (s : St E) (i : Nat) (rest : Str)

/-- `dbPrepareStmt` (jsiSqlite.c 673-775) followed by the use of `*ppPreStmt` in `dbBindStmt`: a statement
that is empty leaves NULL there, which is used (`fault`). -/
def prepare (s : St E) (d : E.D) (rest : Str) : Prep E :=
  let t := rest.dropWhile isspace
  match s.hash t with
  | some i =>
    match s.recs i with
    | none => .fault
    | some r =>
      match r.el with
      | none => .fault                              -- Jsi_ListPop(list, NULL)
      | some n =>
        match LList.pop s.l n with
        | none => .fault
        | some l => .ok ⟨s.recs, s.fresh, s.hash, l, s.nval, (l.num : Int), s.max⟩ i (t.drop r.nSql)
  | none =>
    if (E.split t).2 then .fault
    else if E.compiles d (t.take (E.split t).1) = false then .err
    else
      .ok ⟨set s.recs s.fresh (some ⟨t, (E.split t).1,
            (E.params (t.take (E.split t).1)).map fun _ => E.null, E.init, none⟩),
          s.fresh + 1, set s.hash t (some s.fresh), s.l, s.nval, s.cnt + 1, s.max⟩ s.fresh (t.drop (E.split t).1)

/-- The loop of `dbBindStmt` (jsiSqlite.c 807-977), as to which parameters get a value: `vals` is what the
script's variables give, `none` for a name that is unknown.  With `bindWarn` the parameter is left as it
is. -/
def bindAll {V : Type} (warn : Bool) (vals : Str → Option V) : List Str → List V → Option (List V)
  | [], _ => some []
  | p :: ps, old =>
    match vals p, old with
    | some v, _ :: os => (bindAll warn vals ps os).map (v :: ·)
    | some v, [] => (bindAll warn vals ps []).map (v :: ·)
    | none, o :: os => if warn then (bindAll warn vals ps os).map (o :: ·) else none
    | none, [] => none

/-- What a step of a query gives the script. -/
inductive Ans (Row : Type) where
  | row (r : Row)
  | brk
  | err

/-- Replace the position and the values of a record. -/
def setCur (s : St E) (i : Nat) (r : Rec E) (b : List E.Val) (c : E.Cur) : St E :=
  ⟨set s.recs i (some ⟨r.key, r.nSql, b, c, r.el⟩), s.fresh, s.hash, s.l, s.nval, s.cnt, s.max⟩

/-- `dbEvalStepSub` (jsiSqlite.c 488-528) on the record `i`, and the loop of `dbEvalStep` around it
(`again`); `none`: a fault. -/
def stepSub (again : St E → E.D → Ctx → Option (St E × E.D × Ctx × Ans E.Row)) (nc : Bool) (s : St E) (d : E.D)
    (rest : Str) (i : Nat) : Option (St E × E.D × Ctx × Ans E.Row) :=
  match s.recs i with
  | none => none
  | some r =>
    match E.step d (r.key.take r.nSql) r.binds r.cur with
    | (d', .row x cu) => some (setCur s i r r.binds cu, d', ⟨rest, some i, nc⟩, .row x)
    | (d', .busy cu) => some (setCur s i r r.binds cu, d', ⟨rest, some i, nc⟩, .err)
    | (d', .done) =>
      match release (setCur s i r r.binds E.init) i nc with
      | none => none
      | some s2 => again s2 d' ⟨rest, none, nc⟩
    | (d', .err) =>
      match release (setCur s i r r.binds E.init) i true with
      | none => none
      | some s2 => some (s2, d', ⟨rest, none, nc⟩, .err)

/-- `dbEvalStep` (jsiSqlite.c 779-793); `vals`: the values the script's variables have now. -/
def evalStep (warn : Bool) (vals : Str → Option E.Val) : Nat → St E → E.D → Ctx → Option (St E × E.D × Ctx × Ans E.Row)
  | 0, _, _, _ => none
  | fuel + 1, s, d, c =>
    match c.stmt with
    | some i => stepSub (evalStep warn vals fuel) c.nocache s d c.rest i
    | none =>
      if c.rest = [] then some (s, d, c, .brk)
      else
        match prepare s d c.rest with
        | .fault => none
        | .err => some (s, d, c, .err)
        | .ok s1 i rest =>
          match s1.recs i with
          | none => none
          | some r =>
            match bindAll warn vals (E.params (r.key.take r.nSql)) r.binds with
            | none => some (s1, d, ⟨rest, some i, c.nocache⟩, .err)
            | some b => stepSub (evalStep warn vals fuel) c.nocache (setCur s1 i r b r.cur) d rest i

/-- `dbEvalFinalize` (jsiSqlite.c 999-1010). -/
def finalize (s : St E) (c : Ctx) : Option (St E) :=
  match c.stmt with
  | none => some s
  | some i =>
    match s.recs i with
    | none => none
    | some r => release (setCur s i r r.binds E.init) i c.nocache

/-- A script, as what it does with the handle.  Queries are nested: `query` begins one (inside the
callback of the present one, if there is one), `next` asks the innermost for a row - when there is none, or
an error, the query is ended, as all callers of `dbEvalStep` do -, `leave` ends the innermost (limit
reached, callback returned false, only one row wanted).  `other`: anything that changes the contents in
another way (another connection, `db.eval`).  `limitCache` is `db.conf` with a new `stmtCacheMax`. -/
inductive Prog (E : Env) (α : Type) where
  | done (x : α)
  | query (sql : Str) (nocache : Bool) (k : Prog E α)
  | next (vals : Str → Option E.Val) (k : Ans E.Row → Prog E α)
  | leave (k : Prog E α)
  | other (f : E.D → E.D) (k : Prog E α)
  | look (k : E.D → Prog E α)
  | limitCache (max : Nat) (k : Prog E α)

/-- A script run on a handle; `none`: a fault. -/
def run {α : Type} (warn : Bool) : Prog E α → St E → E.D → List Ctx → Option (α × St E × E.D × List Ctx)
  | .done x, s, d, st => some (x, s, d, st)
  | .query sql nc k, s, d, st => run warn k s d (⟨sql, none, nc⟩ :: st)
  | .next _ k, s, d, [] => run warn (k .brk) s d []
  | .next vals k, s, d, c :: st =>
    match evalStep warn vals (c.rest.length + 2) s d c with
    | none => none
    | some (s1, d1, c1, .row x) => run warn (k (.row x)) s1 d1 (c1 :: st)
    | some (s1, d1, c1, a) =>
      match finalize s1 c1 with
      | none => none
      | some s2 => run warn (k a) s2 d1 st
  | .leave k, s, d, [] => run warn k s d []
  | .leave k, s, d, c :: st =>
    match finalize s c with
    | none => none
    | some s2 => run warn k s2 d st
  | .other f k, s, d, st => run warn k s (f d) st
  | .look k, s, d, st => run warn (k d) s d st
  | .limitCache m k, s, d, st =>
    match limit (s.l.num + 2) ⟨s.recs, s.fresh, s.hash, s.l, s.nval, s.cnt, (m : Int)⟩ with
    | none => none
    | some s2 => run warn k s2 d st

/-- A handle just opened (jsiSqlite.c 3778-3783). -/
def opened (max : Nat) : St E := ⟨fun _ => none, 0, fun _ => none, LList.new, fun _ => 0, 0, (max : Int)⟩

end Verif.Sql.Cache
