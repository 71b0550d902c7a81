/-!
# Sqlite transactions (src/jsiSqlite.c)

`db.transaction(func)` and `db.transaction(type, func)`.  Modelled: `SqliteTransactionCmd`
(3395-3447) and `dbTransPostCmd` (1701-1740).

SQLite itself is not part of the repository; what the two functions rely on is the documented meaning of
its transaction statements, which is written down here as a small machine (`Sq`): the current contents as
seen through this connection, the durable contents (what another connection, or this program after a
crash, finds), whether a transaction is open, and the stack of savepoints.  `D` is the type of database
contents, arbitrary.

The script is an arbitrary terminating program `Prog` that reads the database, executes statements, calls
`transaction` at any depth and continues in any way according to what it sees (so it can catch
exceptions, loop, throw).  Statements are arbitrary functions that may fail.  Whether SQLite answers
"busy" to a BEGIN or COMMIT is decided by an arbitrary oracle.
-/
namespace Verif.Sql

/-- SQLite connection (environment, after https://www.sqlite.org/lang_transaction.html and
lang_savepoint.html).  `saves`: newest first, all of the same name `_jsi_transaction` (the only name
jsish uses; a script using its own savepoint names is not modelled).  `auto`: autocommit mode, that is, no
transaction open.  `first`: the oldest savepoint opened the transaction. -/
structure Sq (D : Type) where
  cur : D
  durable : D
  auto : Bool
  first : Bool
  saves : List D

/-- The transaction statements (SQLite documentation). -/
inductive TCmd where
  | savepoint | begin (lock : Bool) | release | rollbackTo | commit | rollback

/-- Effect of a transaction statement; `busy`: SQLite answers SQLITE_BUSY where it may.  The second
component is true for SQLITE_OK.  A plain BEGIN and SAVEPOINT take no lock. -/
def Sq.exec {D : Type} (s : Sq D) (busy : Bool) : TCmd → Sq D × Bool
  | .savepoint => (⟨s.cur, s.durable, false, if s.auto then true else s.first, s.cur :: s.saves⟩, true)
  | .begin lock =>
    if s.auto = false then (s, false)
    else if lock && busy then (s, false)
    else (⟨s.cur, s.durable, false, false, []⟩, true)
  | .release =>
    match s.saves with
    | [] => (s, false)
    | _ :: rest =>
      if rest.isEmpty && s.first then
        if busy then (s, false) else (⟨s.cur, s.cur, true, false, []⟩, true)
      else (⟨s.cur, s.durable, s.auto, s.first, rest⟩, true)
  | .rollbackTo =>
    match s.saves with
    | [] => (s, false)
    | d :: _ => (⟨d, s.durable, s.auto, s.first, s.saves⟩, true)
  | .commit =>
    if s.auto then (s, false)
    else if busy then (s, false)
    else (⟨s.cur, s.cur, true, false, []⟩, true)
  | .rollback =>
    if s.auto then (s, false)
    else (⟨s.durable, s.durable, true, false, []⟩, true)

/-- What a statement of the script does: nothing but fail, change the contents, or fail and roll back
the whole transaction (`INSERT OR ROLLBACK`). -/
inductive Eff (D : Type) where
  | fail
  | set (d : D)
  | failAll

/-- Effect of an ordinary statement: durable at once in autocommit mode. -/
def Sq.stmt {D : Type} (s : Sq D) : Eff D → Sq D × Bool
  | .fail => (s, false)
  | .set d => (⟨d, if s.auto then d else s.durable, s.auto, s.first, s.saves⟩, true)
  | .failAll =>
    if s.auto then (s, false)
    else (⟨s.durable, s.durable, true, false, []⟩, false)

/-- Return codes of jsish calls: normal, error (an exception that was not caught), and the others
(JSI_EXIT and so on). -/
inductive Rc where
  | ok | error | other
  deriving DecidableEq

/-- The transaction types of the two-argument call (jsiSqlite.c 3407-3430). -/
inductive TType where
  | none | deferred | exclusive | immediate
  deriving DecidableEq

/-- A script, as what it does with one database handle: end with a code, execute a statement (which may
depend on the contents and on the oracle) and continue according to whether it failed, look at the
contents, execute a transaction statement of its own, or call `transaction` with a function and continue
according to the code. -/
inductive Prog (D : Type) where
  | done (rc : Rc)
  | stmt (f : D → Bool → Eff D) (k : Bool → Prog D)
  | look (k : D → Prog D)
  | raw (c : TCmd) (k : Bool → Prog D)
  | trans (t : TType) (body : Prog D) (k : Rc → Prog D)

/-- State of a database handle: SQLite, `nTransaction` (jsiSqlite.c 248), the position in the oracle
and the durable contents after every single SQLite call so far, newest first (what a crash at that point
leaves). -/
structure Db (D : Type) where
  sq : Sq D
  nTrans : Nat
  tick : Nat
  seen : List D

/-- `sqlite3_exec` of one statement: advances the oracle and records the durable contents. -/
def Db.call {D : Type} (o : Nat → Bool) (s : Db D) (c : TCmd) : Db D × Bool :=
  let r := s.sq.exec (o s.tick) c
  (⟨r.1, s.nTrans, s.tick + 1, r.1.durable :: s.seen⟩, r.2)

/-- An ordinary statement. -/
def Db.stmt {D : Type} (o : Nat → Bool) (s : Db D) (f : D → Bool → Eff D) : Db D × Bool :=
  let r := s.sq.stmt (f s.sq.cur (o s.tick))
  (⟨r.1, s.nTrans, s.tick + 1, r.1.durable :: s.seen⟩, r.2)

/-- `sqlite3_exec` of several statements stops at the first that fails. -/
def Db.calls {D : Type} (o : Nat → Bool) (s : Db D) : List TCmd → Db D × Bool
  | [] => (s, true)
  | c :: cs =>
    match s.call o c with
    | (s', true) => s'.calls o cs
    | (s', false) => (s', false)

/-- `zBegin` (jsiSqlite.c 3405-3430): the type counts in the outermost call only. -/
def beginCmd (n : Nat) (t : TType) : TCmd :=
  if n = 0 then
    match t with
    | .none => .savepoint
    | .deferred => .savepoint
    | .exclusive => .begin true
    | .immediate => .begin true
  else .savepoint

/-- `azEnd[(rc==JSI_ERROR)*2 + (db->nTransaction==0)]` (jsiSqlite.c 1706-1716). -/
def endCmds (rc : Rc) (n : Nat) : List TCmd :=
  if rc = .error then
    if n = 0 then [.rollback] else [.rollbackTo, .release]
  else
    if n = 0 then [.commit] else [.release]

/-- `dbTransPostCmd` (jsiSqlite.c 1701-1740).  Not modelled: the error message. -/
def postCmd {D : Type} (o : Nat → Bool) (s : Db D) (rc : Rc) : Rc × Db D :=
  let s1 : Db D := ⟨s.sq, s.nTrans - 1, s.tick, s.seen⟩
  match s1.calls o (endCmds rc s1.nTrans) with
  | (s2, true) => (rc, s2)
  | (s2, false) => (.error, (s2.call o .rollback).1)

/-- `++nTransaction` (jsiSqlite.c 3442). -/
def Db.enter {D : Type} (s : Db D) : Db D := ⟨s.sq, s.nTrans + 1, s.tick, s.seen⟩

/-- A script run on a handle; the case `trans` is `SqliteTransactionCmd` (jsiSqlite.c 3395-3447): BEGIN or
SAVEPOINT, count, the function, `dbTransPostCmd`.  Simplified: the argument checks (two arguments, a
function) are taken as passed; the authorizer callback that is switched off meanwhile. -/
def run {D : Type} (o : Nat → Bool) : Prog D → Db D → Rc × Db D
  | .done rc, s => (rc, s)
  | .stmt f k, s => let r := s.stmt o f; run o (k r.2) r.1
  | .look k, s => run o (k s.sq.cur) s
  | .raw c k, s => let r := s.call o c; run o (k r.2) r.1
  | .trans t body k, s =>
    match s.call o (beginCmd s.nTrans t) with
    | (s1, false) => run o (k .error) s1
    | (s1, true) =>
      let r := run o body s1.enter
      let q := postCmd o r.2 r.1
      run o (k q.1) q.2

/-! ## Specification -/

/-- A script that leaves the transaction statements to `transaction`: it executes no BEGIN, COMMIT,
ROLLBACK, SAVEPOINT, RELEASE itself and no statement with OR ROLLBACK. -/
inductive Plain {D : Type} : Prog D → Prop
  | done (rc : Rc) : Plain (.done rc)
  | stmt {f : D → Bool → Eff D} {k : Bool → Prog D} (h : ∀ d b, f d b ≠ .failAll) (hk : ∀ b, Plain (k b)) :
      Plain (.stmt f k)
  | look {k : D → Prog D} (hk : ∀ d, Plain (k d)) : Plain (.look k)
  | trans {t : TType} {body : Prog D} {k : Rc → Prog D} (hb : Plain body) (hk : ∀ r, Plain (k r)) :
      Plain (.trans t body k)

/-- The ideal meaning of a script: `transaction` runs the function on the contents; if it throws, or the
outermost commit is refused, the contents are those before.  There are no savepoints, no counters and
no durable contents in it.  `outer`: not inside a transaction.  Arguments: contents and position in the
oracle. -/
def ideal {D : Type} (o : Nat → Bool) : Prog D → Bool → D → Nat → Rc × D × Nat
  | .done rc, _, d, n => (rc, d, n)
  | .stmt f k, outer, d, n =>
    match f d (o n) with
    | .set d' => ideal o (k true) outer d' (n + 1)
    | _ => ideal o (k false) outer d (n + 1)
  | .look k, outer, d, n => ideal o (k d) outer d n
  | .raw _ k, outer, d, n => ideal o (k false) outer d (n + 1)
  | .trans t body k, outer, d, n =>
    if outer && (t == .exclusive || t == .immediate) && o n then
      ideal o (k .error) outer d (n + 1)      -- BEGIN was refused
    else
      let r := ideal o body false d (n + 1)
      if r.1 = .error then
        -- one SQLite call for ROLLBACK, two for ROLLBACK TO and RELEASE
        ideal o (k .error) outer d (r.2.2 + if outer then 1 else 2)
      else if outer && o r.2.2 then
        ideal o (k .error) outer d (r.2.2 + 2)  -- COMMIT was refused
      else ideal o (k r.1) outer r.2.1 (r.2.2 + 1)

/-! ## Proofs -/

variable {D : Type}

/-- A handle between calls of `transaction`: the counter tells how many savepoints are open, except that
the outermost level may be a BEGIN. -/
structure Inv (s : Db D) : Prop where
  zero : s.nTrans = 0 → s.sq.auto = true ∧ s.sq.saves = [] ∧ s.sq.durable = s.sq.cur
  pos : s.nTrans ≠ 0 → s.sq.auto = false ∧
    (s.sq.saves.length = s.nTrans ∧ s.sq.first = true ∨ s.sq.saves.length + 1 = s.nTrans ∧ s.sq.first = false)

/-- What a run does to a handle: everything about SQLite but the contents is as before. -/
structure Kept (s s' : Db D) (d : D) (n : Nat) : Prop where
  cur : s'.sq.cur = d
  tick : s'.tick = n
  nTrans : s'.nTrans = s.nTrans
  auto : s'.sq.auto = s.sq.auto
  first : s.nTrans ≠ 0 → s'.sq.first = s.sq.first
  saves : s'.sq.saves = s.sq.saves
  durable : s'.sq.durable = if s.nTrans = 0 then d else s.sq.durable
  seen : ∃ l, s'.seen = l ++ s.seen ∧ (s.nTrans ≠ 0 → ∀ x ∈ l, x = s.sq.durable)

theorem Kept.inv {s s' : Db D} {d : D} {n : Nat} (h : Kept s s' d n) (hi : Inv s) : Inv s' := by
  constructor
  · intro h0
    rw [h.nTrans] at h0
    obtain ⟨a, b, c⟩ := hi.zero h0
    refine ⟨h.auto.trans a, h.saves.trans b, ?_⟩
    rw [h.durable, h.cur, if_pos h0]
  · intro h0
    rw [h.nTrans] at h0
    obtain ⟨a, b⟩ := hi.pos h0
    refine ⟨h.auto.trans a, ?_⟩
    rw [h.saves, h.nTrans, h.first h0]
    exact b

theorem Kept.trans {s s1 s2 : Db D} {d1 d2 : D} {n1 n2 : Nat} (h : Kept s s1 d1 n1) (h' : Kept s1 s2 d2 n2) :
    Kept s s2 d2 n2 := by
  refine ⟨h'.cur, h'.tick, h'.nTrans.trans h.nTrans, h'.auto.trans h.auto, ?_, h'.saves.trans h.saves, ?_, ?_⟩
  · intro h0
    exact (h'.first (by rw [h.nTrans]; exact h0)).trans (h.first h0)
  · rw [h'.durable, h.nTrans]
    by_cases h0 : s.nTrans = 0
    · rw [if_pos h0, if_pos h0]
    · rw [if_neg h0, if_neg h0, h.durable, if_neg h0]
  · obtain ⟨l, e, hl⟩ := h.seen
    obtain ⟨l', e', hl'⟩ := h'.seen
    refine ⟨l' ++ l, by rw [e', e, List.append_assoc], ?_⟩
    intro h0 x hx
    rcases List.mem_append.1 hx with hx | hx
    · have := hl' (by rw [h.nTrans]; exact h0) x hx
      rw [this, h.durable, if_neg h0]
    · exact hl h0 x hx

theorem Kept.refl {s : Db D} (hi : Inv s) : Kept s s s.sq.cur s.tick := by
  refine ⟨rfl, rfl, rfl, rfl, fun _ => rfl, rfl, ?_, [], rfl, fun _ x hx => by cases hx⟩
  by_cases h0 : s.nTrans = 0
  · rw [if_pos h0]; exact (hi.zero h0).2.2
  · rw [if_neg h0]

/-- What one call of `transaction` does, given what its function does. -/
theorem run_plain (o : Nat → Bool) {p : Prog D} (hp : Plain p) : ∀ {s : Db D}, Inv s →
    let r := run o p s
    let i := ideal o p (s.nTrans == 0) s.sq.cur s.tick
    r.1 = i.1 ∧ Kept s r.2 i.2.1 i.2.2 := by
  induction hp with
  | done rc => intro s hi; exact ⟨rfl, Kept.refl hi⟩
  | @stmt f k h hk ih =>
    intro s hi
    have key : ∀ b s1 d, Kept s s1 d (s.tick + 1) → s1.sq.cur = d →
        (run o (k b) s1).1 = (ideal o (k b) (s.nTrans == 0) d (s.tick + 1)).1 ∧
        Kept s (run o (k b) s1).2 (ideal o (k b) (s.nTrans == 0) d (s.tick + 1)).2.1
          (ideal o (k b) (s.nTrans == 0) d (s.tick + 1)).2.2 := by
      intro b s1 d hk1 hc
      have := ih b (hk1.inv hi)
      rw [hk1.nTrans, hk1.cur, hk1.tick] at this
      exact ⟨this.1, hk1.trans this.2⟩
    have hf := h s.sq.cur (o s.tick)
    show (run o (k (s.stmt o f).2) (s.stmt o f).1).1 = _ ∧ Kept s (run o (k (s.stmt o f).2) (s.stmt o f).1).2 _ _
    simp only [ideal]
    unfold Db.stmt
    generalize f s.sq.cur (o s.tick) = e at hf
    cases e with
    | fail =>
      refine key false _ _ ⟨rfl, rfl, rfl, rfl, fun _ => rfl, rfl, ?_, [s.sq.durable], rfl, ?_⟩ rfl
      · show s.sq.durable = _
        by_cases h0 : s.nTrans = 0
        · rw [if_pos h0]; exact (hi.zero h0).2.2
        · rw [if_neg h0]
      · intro _ x hx; simpa using hx
    | set d =>
      refine key true _ _ ⟨rfl, rfl, rfl, rfl, fun _ => rfl, rfl, ?_, [_], rfl, ?_⟩ rfl
      · show (if s.sq.auto = true then d else s.sq.durable) = _
        by_cases h0 : s.nTrans = 0
        · rw [if_pos h0, if_pos (hi.zero h0).1]
        · rw [if_neg h0, (hi.pos h0).1]; rfl
      · intro h0 x hx
        have : x = if s.sq.auto = true then d else s.sq.durable := by simpa [Sq.stmt] using hx
        rw [this, (hi.pos h0).1]; rfl
    | failAll => exact absurd rfl hf
  | @look k hk ih => intro s hi; exact ih s.sq.cur hi
  | @trans t body k hb hk ihb ihk =>
    intro s hi
    -- the continuation, once the call has been dealt with
    have key : ∀ rc s1 d n, Kept s s1 d n →
        (run o (k rc) s1).1 = (ideal o (k rc) (s.nTrans == 0) d n).1 ∧
        Kept s (run o (k rc) s1).2 (ideal o (k rc) (s.nTrans == 0) d n).2.1
          (ideal o (k rc) (s.nTrans == 0) d n).2.2 := by
      intro rc s1 d n hk1
      have := ihk rc (hk1.inv hi)
      rw [hk1.nTrans, hk1.cur, hk1.tick] at this
      exact ⟨this.1, hk1.trans this.2⟩
    simp only [run, ideal]
    by_cases h0 : s.nTrans = 0
    · -- outermost
      obtain ⟨ha, hs, hd⟩ := hi.zero h0
      have hb0 : (s.nTrans == 0) = true := by simp [h0]
      -- the handle behind BEGIN or SAVEPOINT
      have beg : s.call o (beginCmd s.nTrans t) =
          if (t == .exclusive || t == .immediate) && o s.tick then
            (⟨s.sq, s.nTrans, s.tick + 1, s.sq.durable :: s.seen⟩, false)
          else (⟨⟨s.sq.cur, s.sq.durable, false, !(t == .exclusive || t == .immediate),
              if (t == .exclusive || t == .immediate) then [] else [s.sq.cur]⟩, s.nTrans, s.tick + 1,
              s.sq.durable :: s.seen⟩, true) := by
        cases t <;> cases hb : o s.tick <;>
          simp [beginCmd, h0, Db.call, Sq.exec, ha, hs, hb]
      rw [beg]
      by_cases hr : ((t == .exclusive || t == .immediate) && o s.tick) = true
      · rw [if_pos hr]
        rw [hb0, Bool.true_and, if_pos hr]
        have := key .error ⟨s.sq, s.nTrans, s.tick + 1, s.sq.durable :: s.seen⟩ s.sq.cur (s.tick + 1)
          ⟨rfl, rfl, rfl, rfl, fun _ => rfl, rfl, by rw [if_pos h0]; exact hd, [s.sq.durable], rfl,
            fun h => absurd h0 h⟩
        rw [hb0] at this
        exact this
      · rw [if_neg hr]
        rw [hb0, Bool.true_and, if_neg hr]
        rw [hb0] at key
        generalize hs1 : (⟨⟨s.sq.cur, s.sq.durable, false, !(t == .exclusive || t == .immediate),
              if (t == .exclusive || t == .immediate) then [] else [s.sq.cur]⟩, s.nTrans, s.tick + 1,
              s.sq.durable :: s.seen⟩ : Db D) = s1
        have e1 : s1.nTrans = 0 := by rw [← hs1]; exact h0
        have ec : s1.sq.cur = s.sq.cur := by rw [← hs1]
        have ed : s1.sq.durable = s.sq.durable := by rw [← hs1]
        have et : s1.tick = s.tick + 1 := by rw [← hs1]
        have es : s1.seen = s.sq.durable :: s.seen := by rw [← hs1]
        have ea : s1.sq.auto = false := by rw [← hs1]
        have hinv : Inv s1.enter := by
          constructor
          · intro h; exact absurd h (Nat.succ_ne_zero _)
          · intro _
            refine ⟨ea, ?_⟩
            show s1.sq.saves.length = s1.nTrans + 1 ∧ s1.sq.first = true ∨
              s1.sq.saves.length + 1 = s1.nTrans + 1 ∧ s1.sq.first = false
            rw [e1, ← hs1]
            cases hx : (t == .exclusive || t == .immediate) <;> simp
        have hbody := ihb hinv
        have hen : (s1.enter.nTrans == 0) = false := by simp [Db.enter]
        rw [hen] at hbody
        have ecur : s1.enter.sq.cur = s.sq.cur := ec
        have etick : s1.enter.tick = s.tick + 1 := et
        rw [ecur, etick] at hbody
        obtain ⟨hrc, hkept⟩ := hbody
        generalize ideal o body false s.sq.cur (s.tick + 1) = I at hrc hkept ⊢
        show (run o (k (postCmd o (run o body s1.enter).2 (run o body s1.enter).1).1)
          (postCmd o (run o body s1.enter).2 (run o body s1.enter).1).2).1 = _ ∧
          Kept s (run o (k (postCmd o (run o body s1.enter).2 (run o body s1.enter).1).1)
          (postCmd o (run o body s1.enter).2 (run o body s1.enter).1).2).2 _ _
        generalize run o body s1.enter = R at hrc hkept ⊢
        obtain ⟨rc, s2⟩ := R
        obtain ⟨rcI, dI, nI⟩ := I
        simp only at hrc hkept ⊢
        subst hrc
        have a2 : s2.sq.auto = false := hkept.auto.trans ea
        have n2 : s2.nTrans - 1 = 0 := by
          have := hkept.nTrans
          simp only [Db.enter, e1] at this
          omega
        have d2 : s2.sq.durable = s.sq.durable := by
          rw [hkept.durable, if_neg (by simp [Db.enter])]; exact ed
        obtain ⟨l, el, hl⟩ := hkept.seen
        have el' : s2.seen = l ++ (s.sq.durable :: s.seen) := by rw [el]; show l ++ s1.seen = _; rw [es]
        have roll : ∀ (tk : Nat) (sn : List D), Kept s
            (⟨⟨s2.sq.durable, s2.sq.durable, true, false, []⟩, 0, tk, sn ++ s.seen⟩ : Db D) s.sq.cur tk := by
          intro tk sn
          refine ⟨d2.trans hd, rfl, h0.symm, ha.symm, fun h => absurd h0 h, hs.symm, ?_, sn, rfl, fun h => absurd h0 h⟩
          rw [if_pos h0]; exact d2.trans hd
        by_cases hre : rc = .error
        · rw [if_pos hre]
          have : postCmd o s2 rc = (rc, ⟨⟨s2.sq.durable, s2.sq.durable, true, false, []⟩, 0, s2.tick + 1,
              (s2.sq.durable :: (l ++ [s.sq.durable])) ++ s.seen⟩) := by
            simp [postCmd, n2, endCmds, hre, Db.calls, Db.call, Sq.exec, a2, el']
          rw [this]
          simp only
          rw [hre]
          have ht : s2.tick + 1 = nI + 1 := by rw [hkept.tick]
          have := key .error _ _ _ (roll (s2.tick + 1) (s2.sq.durable :: (l ++ [s.sq.durable])))
          rw [ht] at this ⊢
          exact this
        · rw [if_neg hre]
          rw [Bool.true_and]
          by_cases hbz : o nI = true
          · rw [if_pos hbz]
            have : postCmd o s2 rc = (.error, ⟨⟨s2.sq.durable, s2.sq.durable, true, false, []⟩, 0, s2.tick + 2,
                (s2.sq.durable :: s2.sq.durable :: (l ++ [s.sq.durable])) ++ s.seen⟩) := by
              rw [← hkept.tick] at hbz
              simp [postCmd, n2, endCmds, hre, Db.calls, Db.call, Sq.exec, a2, el', hbz]
            rw [this]
            simp only
            have ht : s2.tick + 2 = nI + 2 := by rw [hkept.tick]
            have := key .error _ _ _ (roll (s2.tick + 2) (s2.sq.durable :: s2.sq.durable :: (l ++ [s.sq.durable])))
            rw [ht] at this ⊢
            exact this
          · rw [if_neg hbz]
            have : postCmd o s2 rc = (rc, ⟨⟨s2.sq.cur, s2.sq.cur, true, false, []⟩, 0, s2.tick + 1,
                (s2.sq.cur :: (l ++ [s.sq.durable])) ++ s.seen⟩) := by
              rw [← hkept.tick] at hbz
              simp [postCmd, n2, endCmds, hre, Db.calls, Db.call, Sq.exec, a2, el', hbz]
            rw [this]
            simp only
            have hk2 : Kept s (⟨⟨s2.sq.cur, s2.sq.cur, true, false, []⟩, 0, s2.tick + 1,
                (s2.sq.cur :: (l ++ [s.sq.durable])) ++ s.seen⟩ : Db D) dI (nI + 1) := by
              refine ⟨hkept.cur, by show s2.tick + 1 = _; rw [hkept.tick], h0.symm, ha.symm, fun h => absurd h0 h,
                hs.symm, ?_, _, rfl, fun h => absurd h0 h⟩
              rw [if_pos h0]; exact hkept.cur
            exact key rc _ _ _ hk2
    · -- nested
      obtain ⟨ha, hs⟩ := hi.pos h0
      have hb0 : (s.nTrans == 0) = false := by simp [h0]
      have beg : s.call o (beginCmd s.nTrans t) =
          (⟨⟨s.sq.cur, s.sq.durable, false, s.sq.first, s.sq.cur :: s.sq.saves⟩, s.nTrans, s.tick + 1,
            s.sq.durable :: s.seen⟩, true) := by
        simp [beginCmd, h0, Db.call, Sq.exec, ha]
      rw [beg, hb0, Bool.false_and]
      rw [hb0] at key
      simp only [Bool.false_and, Bool.false_eq_true, if_false]
      generalize hs1 : (⟨⟨s.sq.cur, s.sq.durable, false, s.sq.first, s.sq.cur :: s.sq.saves⟩, s.nTrans, s.tick + 1,
            s.sq.durable :: s.seen⟩ : Db D) = s1
      have hinv : Inv s1.enter := by
        constructor
        · intro h; exact absurd h (Nat.succ_ne_zero _)
        · intro _
          rw [← hs1]
          refine ⟨rfl, ?_⟩
          show (s.sq.cur :: s.sq.saves).length = s.nTrans + 1 ∧ s.sq.first = true ∨
              (s.sq.cur :: s.sq.saves).length + 1 = s.nTrans + 1 ∧ s.sq.first = false
          rcases hs with ⟨x, y⟩ | ⟨x, y⟩
          · left; exact ⟨by simp [x], y⟩
          · right; exact ⟨by simp only [List.length_cons]; omega, y⟩
      have hbody := ihb hinv
      have hen : (s1.enter.nTrans == 0) = false := by simp [Db.enter]
      have ecur : s1.enter.sq.cur = s.sq.cur := by rw [← hs1]; rfl
      have etick : s1.enter.tick = s.tick + 1 := by rw [← hs1]; rfl
      rw [hen, ecur, etick] at hbody
      obtain ⟨hrc, hkept⟩ := hbody
      generalize ideal o body false s.sq.cur (s.tick + 1) = I at hrc hkept ⊢
      generalize run o body s1.enter = R at hrc hkept ⊢
      obtain ⟨rc, s2⟩ := R
      obtain ⟨rcI, dI, nI⟩ := I
      simp only at hrc hkept ⊢
      subst hrc
      have a2 : s2.sq.auto = false := hkept.auto.trans (by rw [← hs1]; rfl)
      have f2 : s2.sq.first = s.sq.first := (hkept.first (by simp [Db.enter])).trans (by rw [← hs1]; rfl)
      have n2 : s2.nTrans - 1 = s.nTrans := by
        rw [hkept.nTrans, ← hs1]; rfl
      have v2 : s2.sq.saves = s.sq.cur :: s.sq.saves := hkept.saves.trans (by rw [← hs1]; rfl)
      have d2 : s2.sq.durable = s.sq.durable := by
        rw [hkept.durable, if_neg (by simp [Db.enter]), ← hs1]; rfl
      obtain ⟨l, el, hl⟩ := hkept.seen
      have el' : s2.seen = l ++ (s.sq.durable :: s.seen) := by rw [el, ← hs1]; rfl
      have hl' : ∀ x ∈ l, x = s.sq.durable := by
        intro x hx; rw [hl (by simp [Db.enter]) x hx, ← hs1]; rfl
      -- the inner savepoint is not the one that opened the transaction
      have hne : (s.sq.saves.isEmpty && s.sq.first) = false := by
        rcases hs with ⟨x, y⟩ | ⟨x, y⟩
        · cases hsv : s.sq.saves with
          | nil => rw [hsv] at x; exact absurd x.symm h0
          | cons a b => rfl
        · rw [y, Bool.and_false]
      by_cases hre : rc = .error
      · rw [if_pos hre]
        have : postCmd o s2 rc = (rc, ⟨⟨s.sq.cur, s2.sq.durable, s2.sq.auto, s2.sq.first, s.sq.saves⟩, s.nTrans, s2.tick + 2,
            (s2.sq.durable :: s2.sq.durable :: (l ++ [s.sq.durable])) ++ s.seen⟩) := by
          simp [postCmd, n2, endCmds, hre, h0, Db.calls, Db.call, Sq.exec, v2, f2, hne, el']
        rw [this]
        simp only
        rw [hre]
        refine key .error _ _ _ ⟨rfl, by show s2.tick + 2 = _; rw [hkept.tick], rfl, a2.trans ha.symm, fun _ => f2, rfl,
          by rw [if_neg h0]; exact d2, _, rfl, ?_⟩
        intro _ x hx
        simp only [List.mem_cons, List.mem_append, List.not_mem_nil, or_false] at hx
        rcases hx with hx | hx | hx | hx
        · exact hx.trans d2
        · exact hx.trans d2
        · exact hl' x hx
        · exact hx
      · rw [if_neg hre]
        have : postCmd o s2 rc = (rc, ⟨⟨s2.sq.cur, s2.sq.durable, s2.sq.auto, s2.sq.first, s.sq.saves⟩, s.nTrans, s2.tick + 1,
            (s2.sq.durable :: (l ++ [s.sq.durable])) ++ s.seen⟩) := by
          simp [postCmd, n2, endCmds, hre, h0, Db.calls, Db.call, Sq.exec, v2, f2, hne, el']
        rw [this]
        simp only
        refine key rc _ _ _ ⟨hkept.cur, by show s2.tick + 1 = _; rw [hkept.tick], rfl, a2.trans ha.symm, fun _ => f2, rfl,
          by rw [if_neg h0]; exact d2, _, rfl, ?_⟩
        intro _ x hx
        simp only [List.mem_cons, List.mem_append, List.not_mem_nil, or_false] at hx
        rcases hx with hx | hx | hx
        · exact hx.trans d2
        · exact hl' x hx
        · exact hx

/-! ## The property -/

/-- One call of `db.transaction` on a handle. -/
def transaction (o : Nat → Bool) (t : TType) (body : Prog D) (s : Db D) : Rc × Db D :=
  run o (.trans t body .done) s

/-- A handle that a script has just opened on a database with contents `d`. -/
def opened (d : D) : Db D := ⟨⟨d, d, true, false, []⟩, 0, 0, []⟩

theorem inv_opened (d : D) : Inv (opened d) := ⟨fun _ => ⟨rfl, rfl, rfl⟩, fun h => absurd rfl h⟩

/-- Every script that leaves the transaction statements to `transaction` sees and leaves exactly what the
ideal meaning says: a transaction that throws, or that SQLite refuses to begin or to commit, has changed
nothing, and what was done in one that returned is there.  When the script is not in a transaction
everything is durable. -/
theorem C98_scripts_partial (o : Nat → Bool) (p : Prog D) (hp : Plain p) (d : D) :
    (run o p (opened d)).1 = (ideal o p true d 0).1 ∧
    (run o p (opened d)).2.sq.cur = (ideal o p true d 0).2.1 ∧
    (run o p (opened d)).2.sq.durable = (ideal o p true d 0).2.1 ∧
    (run o p (opened d)).2.sq.auto = true := by
  have h := run_plain o hp (inv_opened d)
  obtain ⟨h1, h2⟩ := h
  refine ⟨h1, h2.cur, ?_, h2.auto⟩
  rw [h2.durable]; rfl

theorem exec_cur (s : Sq D) (b : Bool) (c : TCmd) (h : c = .commit ∨ c = .release) : (s.exec b c).1.cur = s.cur := by
  rcases h with rfl | rfl
  · simp only [Sq.exec]; repeat' split
    all_goals rfl
  · simp only [Sq.exec]; repeat' split
    all_goals rfl

theorem calls_one_cur (o : Nat → Bool) (s : Db D) (c : TCmd) (h : c = .commit ∨ c = .release) :
    (s.calls o [c]).1.sq.cur = s.sq.cur := by
  have := exec_cur s.sq (o s.tick) c h
  simp only [Db.calls, Db.call]
  generalize s.sq.exec (o s.tick) c = q at this ⊢
  obtain ⟨x, y⟩ := q
  cases y <;> exact this

/-- All or nothing, at every depth: if a call of `transaction` fails the contents are those before the
call, otherwise they are those the function left. -/
theorem C98_all_or_nothing_partial (o : Nat → Bool) (t : TType) (body : Prog D) (hb : Plain body) (s : Db D)
    (hi : Inv s) :
    ((transaction o t body s).1 = .error → (transaction o t body s).2.sq.cur = s.sq.cur) ∧
    ((transaction o t body s).1 ≠ .error →
      (transaction o t body s).1 = (run o body (s.call o (beginCmd s.nTrans t)).1.enter).1 ∧
      (transaction o t body s).2.sq.cur = (run o body (s.call o (beginCmd s.nTrans t)).1.enter).2.sq.cur) ∧
    Inv (transaction o t body s).2 := by
  have hp : Plain (.trans t body Prog.done) := .trans hb fun r => .done r
  obtain ⟨h1, h2⟩ := run_plain o hp hi
  refine ⟨fun he => ?_, fun he => ?_, h2.inv hi⟩
  · show (run o (.trans t body .done) s).2.sq.cur = _
    rw [h2.cur]
    have he' : (run o (.trans t body .done) s).1 = .error := he
    rw [h1] at he'
    simp only [ideal] at he' ⊢
    split
    · rfl
    · split
      · rfl
      · split
        · rfl
        · rename_i a b c
          rw [if_neg a, if_neg c] at he'
          split at he'
          · rename_i e; exact absurd e b
          · exact absurd he' b
  · have he' : (run o (.trans t body .done) s).1 ≠ .error := he
    unfold transaction
    simp only [run] at he' ⊢
    generalize s.call o (beginCmd s.nTrans t) = q at he' ⊢
    obtain ⟨s1, ok⟩ := q
    cases ok with
    | false => exact absurd rfl he'
    | true =>
      simp only at he' ⊢
      generalize run o body s1.enter = R at he' ⊢
      obtain ⟨rc, s2⟩ := R
      simp only [postCmd] at he' ⊢
      generalize hq : Db.calls o (⟨s2.sq, s2.nTrans - 1, s2.tick, s2.seen⟩ : Db D) (endCmds rc (s2.nTrans - 1)) = Q at he' ⊢
      obtain ⟨s3, ok⟩ := Q
      cases ok with
      | false => exact absurd rfl he'
      | true =>
        simp only at he' ⊢
        refine ⟨trivial, ?_⟩
        have hre : rc ≠ .error := he'
        unfold endCmds at hq
        rw [if_neg hre] at hq
        by_cases h0 : s2.nTrans - 1 = 0
        · rw [if_pos h0] at hq
          have := calls_one_cur o (⟨s2.sq, s2.nTrans - 1, s2.tick, s2.seen⟩ : Db D) .commit (Or.inl rfl)
          rw [hq] at this; exact this
        · rw [if_neg h0] at hq
          have := calls_one_cur o (⟨s2.sq, s2.nTrans - 1, s2.tick, s2.seen⟩ : Db D) .release (Or.inr rfl)
          rw [hq] at this; exact this

/-- Crash points: while an outermost `transaction` runs, what is durable after each single SQLite call is
what was there before the call, up to the last call, behind which it is the final contents.  So a crash
at any point leaves all of the transaction or nothing of it, and nothing of one that fails. -/
theorem C98_crash_partial (o : Nat → Bool) (t : TType) (body : Prog D) (hb : Plain body) (s : Db D)
    (hi : Inv s) (h0 : s.nTrans = 0) :
    ∃ last rest, (transaction o t body s).2.seen = last :: rest ++ s.seen ∧
      last = (transaction o t body s).2.sq.cur ∧ (∀ x ∈ rest, x = s.sq.cur) ∧
      ((transaction o t body s).1 = .error → last = s.sq.cur) := by
  obtain ⟨ha, hs, hd⟩ := hi.zero h0
  have hfin := (C98_all_or_nothing_partial o t body hb s hi).1
  unfold transaction at hfin ⊢
  simp only [run] at hfin ⊢
  have hcall : (s.call o (beginCmd s.nTrans t)).1.seen = s.sq.durable :: s.seen ∧
      (s.call o (beginCmd s.nTrans t)).1.sq.durable = s.sq.durable ∧
      (s.call o (beginCmd s.nTrans t)).1.nTrans = 0 ∧
      ((s.call o (beginCmd s.nTrans t)).2 = true →
        (s.call o (beginCmd s.nTrans t)).1.sq.auto = false ∧ Inv (s.call o (beginCmd s.nTrans t)).1.enter) ∧
      ((s.call o (beginCmd s.nTrans t)).2 = false → (s.call o (beginCmd s.nTrans t)).1.sq.cur = s.sq.cur) := by
    cases t <;> cases hb : o s.tick <;>
      simp [beginCmd, h0, Db.call, Sq.exec, ha, hs, hb] <;>
      exact ⟨fun h => absurd h (Nat.succ_ne_zero _), fun _ => by simp [Db.enter]⟩
  generalize s.call o (beginCmd s.nTrans t) = q at hfin hcall ⊢
  obtain ⟨s1, ok⟩ := q
  obtain ⟨c1, c2, c3, c4, c5⟩ := hcall
  simp only at c1 c2 c3 c4 c5
  cases ok with
  | false =>
    exact ⟨s.sq.durable, [], c1, by rw [hd]; exact (c5 rfl).symm, fun x hx => (by cases hx), fun _ => hd⟩
  | true =>
    obtain ⟨c6, c7⟩ := c4 rfl
    obtain ⟨_, k⟩ := run_plain o hb c7
    simp only at hfin ⊢
    generalize run o body s1.enter = R at hfin k ⊢
    obtain ⟨rc, s2⟩ := R
    simp only at hfin k ⊢
    generalize (ideal o body (s1.enter.nTrans == 0) s1.enter.sq.cur s1.enter.tick) = I at k
    obtain ⟨l, el, hl⟩ := k.seen
    have hl' : ∀ x ∈ l, x = s.sq.cur := by
      intro x hx
      rw [hl (by simp [Db.enter]) x hx]
      show s1.sq.durable = _
      rw [c2, hd]
    have e2 : s2.seen = l ++ (s.sq.durable :: s.seen) := by rw [el]; show l ++ s1.seen = _; rw [c1]
    have a2 : s2.sq.auto = false := k.auto.trans c6
    have d2 : s2.sq.durable = s.sq.cur := by
      rw [k.durable, if_neg (by simp [Db.enter])]; show s1.sq.durable = _; rw [c2, hd]
    have n2 : s2.nTrans - 1 = 0 := by
      have := k.nTrans
      simp only [Db.enter, c3] at this
      omega
    have hrest : ∀ x ∈ l ++ [s.sq.durable], x = s.sq.cur := by
      intro x hx
      rcases List.mem_append.1 hx with hx | hx
      · exact hl' x hx
      · rw [List.mem_singleton.1 hx, hd]
    by_cases hre : rc = .error
    · have : postCmd o s2 rc = (rc, ⟨⟨s2.sq.durable, s2.sq.durable, true, false, []⟩, 0, s2.tick + 1,
          s2.sq.durable :: (l ++ [s.sq.durable]) ++ s.seen⟩) := by
        simp [postCmd, n2, endCmds, hre, Db.calls, Db.call, Sq.exec, a2, e2]
      rw [this]
      exact ⟨_, _, rfl, rfl, hrest, fun _ => d2⟩
    · by_cases hbz : o s2.tick = true
      · have : postCmd o s2 rc = (.error, ⟨⟨s2.sq.durable, s2.sq.durable, true, false, []⟩, 0, s2.tick + 2,
            s2.sq.durable :: (s2.sq.durable :: (l ++ [s.sq.durable])) ++ s.seen⟩) := by
          simp [postCmd, n2, endCmds, hre, Db.calls, Db.call, Sq.exec, a2, e2, hbz]
        rw [this]
        refine ⟨_, _, rfl, rfl, ?_, fun _ => d2⟩
        intro x hx
        rcases List.mem_cons.1 hx with hx | hx
        · rw [hx, d2]
        · exact hrest x hx
      · have : postCmd o s2 rc = (rc, ⟨⟨s2.sq.cur, s2.sq.cur, true, false, []⟩, 0, s2.tick + 1,
            s2.sq.cur :: (l ++ [s.sq.durable]) ++ s.seen⟩) := by
          simp [postCmd, n2, endCmds, hre, Db.calls, Db.call, Sq.exec, a2, e2, hbz]
        rw [this]
        exact ⟨_, _, rfl, rfl, hrest, fun h => absurd h hre⟩

/-- A statement that always succeeds and sets the contents. -/
def setTo (d : D) (k : Prog D) : Prog D := .stmt (fun _ _ => .set d) fun _ => k

/-- The property for all scripts: a failing `transaction` changes nothing and a successful one keeps what
the function did, whatever the script did before. -/
def Full98 : Prop :=
  ∀ (o : Nat → Bool) (before body : Prog Nat) (t : TType), Plain body →
    let s := (run o before (opened 0)).2
    (transaction o t body s).1 = .error → (transaction o t body s).2.sq.cur = s.sq.cur

/-- The script begins a transaction of its own, changes something and calls `transaction`: if the
function fails, the changes made before the call are lost as well. -/
theorem C98_own_begin_refuted : ¬ Full98 := by
  intro h
  have := h (fun _ => false) (.raw (.begin false) fun _ => setTo 7 (.done .ok)) (.done .error) .none (.done _)
  revert this
  decide +kernel

/-- ... and if the function succeeds the script's own transaction is committed, although the
documentation says that nothing is done when no new transaction was started; the script's ROLLBACK then
fails and the changes stay. -/
theorem C98_own_begin_commits_refuted :
    let p : Prog Nat := .raw (.begin false) fun _ => setTo 7 (.trans .none (.done .ok) fun _ =>
      .raw .rollback fun ok => .done (if ok then .ok else .other))
    (run (fun _ => false) p (opened 0)).1 = .other ∧ (run (fun _ => false) p (opened 0)).2.sq.durable = 7 := by
  decide +kernel

/-- A statement with OR ROLLBACK that fails inside the function ends the transaction; if the function
goes on, what it does then is durable at once although the call of `transaction` fails. -/
theorem C98_or_rollback_refuted :
    let body : Prog Nat := .stmt (fun _ _ => .failAll) fun _ => setTo 7 (.done .error)
    (transaction (fun _ => false) .none body (opened 0)).1 = .error ∧
    (transaction (fun _ => false) .none body (opened 0)).2.sq.durable = 7 := by
  decide +kernel

/-- The hypotheses are met by a nested transaction whose inner function fails and is caught. -/
example :
    let inner : Prog Nat := setTo 2 (.done .error)
    let body : Prog Nat := setTo 1 (.trans .none inner fun _ => .look fun d => setTo (d + 10) (.done .ok))
    Plain body ∧ (transaction (fun _ => false) .immediate body (opened 0)).1 = .ok ∧
    (transaction (fun _ => false) .immediate body (opened 0)).2.sq.durable = 11 ∧
    (transaction (fun _ => false) .immediate body (opened 0)).2.seen = [11, 0, 0, 0, 0, 0, 0, 0] := by
  refine ⟨?_, by decide +kernel, by decide +kernel, by decide +kernel⟩
  refine .stmt (fun _ _ => by intro h; cases h) fun _ => .trans ?_ fun _ => .look fun _ => ?_
  · exact .stmt (fun _ _ => by intro h; cases h) fun _ => .done _
  · exact .stmt (fun _ _ => by intro h; cases h) fun _ => .done _

end Verif.Sql
