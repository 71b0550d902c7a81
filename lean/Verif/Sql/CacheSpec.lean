import Verif.Sql.Cache

/-! What queries mean without a cache: every statement is compiled for the query it belongs to, with all
its parameters given by the script's variables. -/

namespace Verif.Sql.Cache

/-- A statement that is being executed: the text that began with it, its values, position. -/
structure SStmt (E : Env) where
  key : Str
  binds : List E.Val
  cur : E.Cur

/-- A query: rest of its script, statement being executed. -/
structure SCtx (E : Env) where
  rest : Str
  stmt : Option (SStmt E)

variable {E : Env}

/-- The first statement of a text. -/
def firstOf (E : Env) (t : Str) : Str := t.take (E.split t).1

/-- A step of the statement being executed; when it has no more rows the script goes on (`again`). -/
def specSub (again : E.D → SCtx E → Option (E.D × SCtx E × Ans E.Row)) (d : E.D) (rest : Str) (x : SStmt E) :
    Option (E.D × SCtx E × Ans E.Row) :=
  match E.step d (firstOf E x.key) x.binds x.cur with
  | (d', .row r cu) => some (d', ⟨rest, some ⟨x.key, x.binds, cu⟩⟩, .row r)
  | (d', .busy cu) => some (d', ⟨rest, some ⟨x.key, x.binds, cu⟩⟩, .err)
  | (d', .done) => again d' ⟨rest, none⟩
  | (d', .err) => some (d', ⟨rest, none⟩, .err)

/-- The next row of a query.  `used`: the texts of the statements that the queries around this one are
executing.  `none`: what jsish cannot do - the rest of the script is empty or a comment, or it is the text
of a statement being executed further out. -/
def specStep (vals : Str → Option E.Val) (used : List Str) : Nat → E.D → SCtx E → Option (E.D × SCtx E × Ans E.Row)
  | 0, _, _ => none
  | fuel + 1, d, c =>
    match c.stmt with
    | some x => specSub (specStep vals used fuel) d c.rest x
    | none =>
      if c.rest = [] then some (d, c, .brk)
      else
        let t := c.rest.dropWhile isspace
        if t ∈ used ∨ (E.split t).2 = true then none
        else if E.compiles d (firstOf E t) = false then some (d, c, .err)
        else
          match (E.params (firstOf E t)).mapM vals with
          | none => some (d, c, .err)
          | some b => specSub (specStep vals used fuel) d (t.drop (E.split t).1) ⟨t, b, E.init⟩

/-- The texts of the statements being executed. -/
def usedOf : List (SCtx E) → List Str
  | [] => []
  | c :: st => (match c.stmt with | none => [] | some x => [x.key]) ++ usedOf st

/-- A script without the cache. -/
def specRun {α : Type} : Prog E α → E.D → List (SCtx E) → Option (α × E.D)
  | .done x, d, _ => some (x, d)
  | .query sql _ k, d, st => specRun k d (⟨sql, none⟩ :: st)
  | .next _ k, d, [] => specRun (k .brk) d []
  | .next vals k, d, c :: st =>
    match specStep vals (usedOf st) (c.rest.length + 2) d c with
    | none => none
    | some (d1, c1, .row x) => specRun (k (.row x)) d1 (c1 :: st)
    | some (d1, _, a) => specRun (k a) d1 st
  | .leave k, d, [] => specRun k d []
  | .leave k, d, _ :: st => specRun k d st
  | .other f k, d, st => specRun k (f d) st
  | .look k, d, st => specRun (k d) d st
  | .limitCache _ k, d, st => specRun k d st

/-- A script that does not change `stmtCacheMax`. -/
inductive NoConf {α : Type} : Prog E α → Prop
  | done (x : α) : NoConf (.done x)
  | query {sql nc k} (h : NoConf k) : NoConf (.query sql nc k)
  | next {vals} {k : Ans E.Row → Prog E α} (h : ∀ a, NoConf (k a)) : NoConf (.next vals k)
  | leave {k} (h : NoConf k) : NoConf (.leave k)
  | other {f k} (h : NoConf k) : NoConf (.other f k)
  | look {k : E.D → Prog E α} (h : ∀ d, NoConf (k d)) : NoConf (.look k)

end Verif.Sql.Cache
