import Verif.Sql.ObjBind
/-!
# SQL from an object: theorems (C207)
-/
namespace Verif.Sql.ObjBind

/-- Each text with what stands before it. -/
def tailc : Bytes → List Bytes → Bytes
  | _, [] => []
  | p, x :: r => p ++ x ++ tailc (asc ", ") r

theorem commas_tail (x : Bytes) (r : List Bytes) : commas (x :: r) = x ++ tailc (asc ", ") r := by
  induction r generalizing x with
  | nil => simp [commas, tailc]
  | cons y r ih =>
    have : commas (x :: y :: r) = x ++ (asc ", " ++ commas (y :: r)) := by simp [commas]
    rw [this, ih y, tailc]
    simp

theorem tailc_nil (l : List Bytes) : tailc [] l = commas l := by
  cases l with
  | nil => rfl
  | cons x r => rw [commas_tail]; simp [tailc]

/-- What a field adds to `sStr`. -/
def inS (o : Opts) : Kind → Bytes × FV → Option Bytes
  | .insert, f => some (asc "[" ++ f.1 ++ asc "]")
  | .create, f => some (asc "[" ++ f.1 ++ asc "]" ++ column o f.1 f.2)
  | .update, _ => none

/-- … to `vStr`. -/
def inV (name : Bytes) : Kind → Bytes × FV → Option Bytes
  | .insert, f => some (asc "$" ++ name ++ asc "(" ++ f.1 ++ asc ")")
  | .create, _ => none
  | .update, f => some (asc "[" ++ f.1 ++ asc "]" ++ asc " = " ++ asc "$" ++ name ++ asc "(" ++ f.1 ++ asc ")")

theorem fold_put (o : Opts) (kd : Kind) (name : Bytes) : ∀ (fs : List (Bytes × FV)) (a : Acc),
    (fs.foldl (put o kd name) a).s = a.s ++ tailc a.pre (fs.filterMap (inS o kd)) ∧
      (fs.foldl (put o kd name) a).v = a.v ++ tailc a.pre (fs.filterMap (inV name kd))
  | [], a => by simp [tailc]
  | f :: fs, a => by
    rw [List.foldl_cons]
    obtain ⟨h1, h2⟩ := fold_put o kd name fs (put o kd name a f)
    rw [h1, h2]
    cases kd with
    | insert =>
      have g1 : List.filterMap (inS o Kind.insert) (f :: fs) = (asc "[" ++ f.1 ++ asc "]") :: List.filterMap (inS o Kind.insert) fs := rfl
      have g2 : List.filterMap (inV name Kind.insert) (f :: fs) =
        (asc "$" ++ name ++ asc "(" ++ f.1 ++ asc ")") :: List.filterMap (inV name Kind.insert) fs := rfl
      rw [g1, g2]
      simp only [put, tailc]
      constructor <;> simp [List.append_assoc]
    | create =>
      have e : List.filterMap (inV name Kind.create) fs = [] := by
        simp [List.filterMap_eq_nil_iff, inV]
      have e' : List.filterMap (inV name Kind.create) (f :: fs) = [] := by
        simp [List.filterMap_eq_nil_iff, inV]
      have g1 : List.filterMap (inS o Kind.create) (f :: fs) =
        (asc "[" ++ f.1 ++ asc "]" ++ column o f.1 f.2) :: List.filterMap (inS o Kind.create) fs := rfl
      rw [e, e', g1]
      simp only [put, tailc]
      constructor <;> simp [List.append_assoc]
    | update =>
      have e : List.filterMap (inS o Kind.update) fs = [] := by
        simp [List.filterMap_eq_nil_iff, inS]
      have e' : List.filterMap (inS o Kind.update) (f :: fs) = [] := by
        simp [List.filterMap_eq_nil_iff, inS]
      have g2 : List.filterMap (inV name Kind.update) (f :: fs) =
        (asc "[" ++ f.1 ++ asc "]" ++ asc " = " ++ asc "$" ++ name ++ asc "(" ++ f.1 ++ asc ")") :: List.filterMap (inV name Kind.update) fs := rfl
      rw [e, e', g2]
      simp only [put, tailc]
      constructor <;> simp [List.append_assoc]

theorem fold_turn (o : Opts) (kd : Kind) (name : Bytes) : ∀ (fs : List (Bytes × FV)) (a : Acc),
    fs.foldl (turn o kd name) a = (columns o.skip fs).foldl (put o kd name) a
  | [], _ => rfl
  | f :: fs, a => by
    rw [List.foldl_cons, fold_turn o kd name fs]
    unfold turn
    by_cases h1 : f.1 = asc "rowid"
    · have : columns o.skip (f :: fs) = columns o.skip fs := by simp [columns, h1]
      rw [if_pos h1, this]
    · rw [if_neg h1]
      by_cases h2 : f.1 ∈ o.skip
      · have : columns o.skip (f :: fs) = columns o.skip fs := by simp [columns, h2]
        rw [if_pos h2, this]
      · have : columns o.skip (f :: fs) = f :: columns o.skip fs := by
          unfold columns
          rw [List.filter_cons_of_pos (by simp [h1, h2])]
        rw [if_neg h2, this, List.foldl_cons]

theorem cut_spec (p : Bytes) (hp : p ≠ []) : ∀ (b a : Bytes), ¬ p <:+: b ++ p.dropLast → cut p (b ++ p ++ a) = some (b, a)
  | [], a, _ => by
    cases p with
    | nil => exact absurd rfl hp
    | cons c p =>
      show cut (c :: p) (c :: (p ++ a)) = _
      rw [cut, if_pos ⟨a, rfl⟩]
      have : (c :: (p ++ a)).drop (c :: p).length = a := by simp
      rw [this]
  | x :: b, a, h => by
    show cut p (x :: (b ++ p ++ a)) = _
    have hn : ¬ p <+: x :: (b ++ p ++ a) := by
      intro h1
      apply h
      have hl : p.length = p.dropLast.length + 1 := by
        have := List.length_dropLast (xs := p)
        have := List.length_pos_iff.2 hp
        omega
      have e : p = p.dropLast ++ [p.getLast hp] := (List.dropLast_concat_getLast hp).symm
      have h2 : x :: b ++ p.dropLast <+: x :: (b ++ p ++ a) := by
        refine ⟨p.getLast hp :: a, ?_⟩
        have : b ++ p ++ a = b ++ (p.dropLast ++ [p.getLast hp]) ++ a := by rw [← e]
        rw [this]
        simp
      have h3 : p <+: x :: b ++ p.dropLast := by
        refine List.prefix_of_prefix_length_le h1 h2 ?_
        simp only [List.length_append, List.length_cons]
        omega
      exact h3.isInfix
    rw [cut, if_neg hn]
    have h' : ¬ p <:+: b ++ p.dropLast := by
      intro h1
      apply h
      obtain ⟨s, t, e⟩ := h1
      exact ⟨x :: s, t, by simp [← e]⟩
    rw [cut_spec p hp b a h']
    rfl

theorem kind_starts {s w : Bytes} (h : Starts w s) (hw : w.length = 6) : (s.take 6).map lower = w := by
  obtain ⟨a, b, e, h2⟩ := h
  have hl : a.length = 6 := by rw [← hw, ← h2, List.length_map]
  rw [e, ← hl, List.take_left', h2]
  rfl

/-- The query is `b %v a`, and this `%v` is the first. -/
def Query (sql b a : Bytes) : Prop := sql = b ++ asc " %v" ++ a ∧ ¬ asc " %v" <:+: b ++ asc " %"

theorem cut2_query {sql b a : Bytes} (h : Query sql b a) : cut2 sql = some (b, a) := by
  unfold cut2
  rw [h.1, cut_spec (asc " %v") (by decide) b a h.2]
  rfl

theorem objBinds_query {o : Opts} {name : Bytes} {fs : List (Bytes × FV)} {sql b a : Bytes} (h : Query sql b a) {kd : Kind} (hk : kindOf sql = some kd) :
    objBinds o name (some fs) sql = some (close kd ⟨(acc0 kd b).s ++ commas ((columns o.skip fs).filterMap (inS o kd)),
      (acc0 kd b).v ++ commas ((columns o.skip fs).filterMap (inV name kd)), (fs.foldl (turn o kd name) (acc0 kd b)).pre⟩ a) := by
  unfold objBinds
  simp only [hk, cut2_query h, Option.map_some]
  congr 1
  obtain ⟨h1, h2⟩ := fold_put o kd name (columns o.skip fs) (acc0 kd b)
  rw [← fold_turn] at h1 h2
  unfold close
  rw [h1, h2]
  have : (acc0 kd b).pre = [] := rfl
  rw [this, tailc_nil, tailc_nil]

theorem filterMap_some {α β : Type} (g : α → β) (l : List α) : l.filterMap (fun x => some (g x)) = l.map g := by
  induction l with
  | nil => rfl
  | cons x l ih => simp

/-- **C207 (part).** An `INSERT` names the fields that are columns, each once, and then in the same order their values. -/
theorem C207_insert_partial (o : Opts) (name : Bytes) (fs : List (Bytes × FV)) {sql b a : Bytes} (h : Query sql b a) (hs : Starts (asc "insert") sql) :
    queryObj o name (some fs) sql = .runs (b ++ asc " (" ++ commas ((columns o.skip fs).map fun f => asc "[" ++ f.1 ++ asc "]") ++
      asc ")  VALUES(" ++ commas ((columns o.skip fs).map fun f => asc "$" ++ name ++ asc "(" ++ f.1 ++ asc ")") ++ asc ")" ++ a) := by
  have hk : kindOf sql = some .insert := by
    unfold kindOf
    rw [kind_starts hs (by decide), if_neg (by decide), if_pos rfl]
  unfold queryObj
  rw [objBinds_query h hk]
  have e1 : inS o .insert = fun f => some (asc "[" ++ f.1 ++ asc "]") := rfl
  have e2 : inV name .insert = fun f => some (asc "$" ++ name ++ asc "(" ++ f.1 ++ asc ")") := rfl
  rw [e1, e2, filterMap_some, filterMap_some]
  have e3 : asc ")  VALUES(" = asc ") " ++ asc " VALUES(" := by decide
  rw [e3]
  simp [close, acc0, List.append_assoc]

/-- **C207 (part).** An `UPDATE` sets each field that is a column to its value, once. -/
theorem C207_update_partial (o : Opts) (name : Bytes) (fs : List (Bytes × FV)) {sql b a : Bytes} (h : Query sql b a) (hs : Starts (asc "update") sql) :
    queryObj o name (some fs) sql = .runs (b ++ asc " SET " ++
      commas ((columns o.skip fs).map fun f => asc "[" ++ f.1 ++ asc "] = $" ++ name ++ asc "(" ++ f.1 ++ asc ")") ++ a) := by
  have hk : kindOf sql = some .update := by
    unfold kindOf
    rw [kind_starts hs (by decide), if_neg (by decide), if_neg (by decide), if_pos rfl]
  unfold queryObj
  rw [objBinds_query h hk]
  have e1 : (columns o.skip fs).filterMap (inS o .update) = [] := by simp [List.filterMap_eq_nil_iff, inS]
  have e2 : inV name .update = fun f => some (asc "[" ++ f.1 ++ asc "] = $" ++ name ++ asc "(" ++ f.1 ++ asc ")") := by
    funext f
    have : asc "] = $" = asc "]" ++ (asc " = " ++ asc "$") := by decide
    rw [this]
    simp [inV, List.append_assoc]
  rw [e1, e2, filterMap_some]
  have : commas [] = [] := rfl
  rw [this]
  simp [close, acc0, List.append_assoc]

/-- The options of a `CREATE` when none is given. -/
def plain (skip : List Bytes) : Opts := ⟨skip, false, false, false, false⟩

/-- What a column is when no option is given. -/
def declared (k : Bytes) : FV → Bytes
  | .bool b => asc "[" ++ k ++ asc "] BOOLEAN DEFAULT " ++ (if b then asc "1" else asc "0") ++
      asc " CONSTRAINT '" ++ k ++ asc " Invalid' CHECK(typeof(" ++ k ++ asc ") == 'integer' AND " ++ k ++ asc " IN (0,1))"
  | .num g => asc "[" ++ k ++ asc "] NUMERIC DEFAULT " ++ g ++
      asc " CONSTRAINT '" ++ k ++ asc " Invalid' CHECK(typeof(" ++ k ++ asc ") IN ('real','integer'))"
  | .json t => asc "[" ++ k ++ asc "] CHARJSON DEFAULT '" ++ t ++ asc "'"
  | .str s => asc "[" ++ k ++ asc "] TEXT DEFAULT '" ++ s ++ asc "' CONSTRAINT '" ++ k ++ asc " Invalid' CHECK(typeof(" ++ k ++ asc ") == 'text')"
  | .other => asc "[" ++ k ++ asc "] DEFAULT NULL"

theorem declared_column (skip : List Bytes) (f : Bytes × FV) : asc "[" ++ f.1 ++ asc "]" ++ column (plain skip) f.1 f.2 = declared f.1 f.2 := by
  obtain ⟨k, v⟩ := f
  cases v with
  | bool b => simp [column, plain, part, colType, colDefault, colCheck, checkText, declared, asc, List.append_assoc]
  | num g => simp [column, plain, part, colType, colDefault, colCheck, checkText, declared, asc, List.append_assoc]
  | json t => simp [column, plain, part, colType, colDefault, colCheck, checkText, declared, asc, List.append_assoc]
  | str s => simp [column, plain, part, colType, colDefault, colCheck, checkText, declared, asc, List.append_assoc]
  | other => simp [column, plain, part, colType, colDefault, colCheck, checkText, declared, asc, List.append_assoc]

/-- **C207 (part).** A `CREATE` declares a column for each of these fields, of its type and with its value as the default. -/
theorem C207_create_partial (skip : List Bytes) (name : Bytes) (fs : List (Bytes × FV)) {sql b a : Bytes} (h : Query sql b a)
    (hs : Starts (asc "create") sql) :
    queryObj (plain skip) name (some fs) sql =
      .runs (b ++ asc " (" ++ commas ((columns skip fs).map fun f => declared f.1 f.2) ++ asc ") " ++ a) := by
  have hk : kindOf sql = some .create := by
    unfold kindOf
    rw [kind_starts hs (by decide), if_pos rfl]
  unfold queryObj
  rw [objBinds_query h hk]
  have e1 : (columns skip fs).filterMap (inV name .create) = [] := by simp [List.filterMap_eq_nil_iff, inV]
  have e2 : inS (plain skip) .create = fun f => some (declared f.1 f.2) := by
    funext f
    show some (asc "[" ++ f.1 ++ asc "]" ++ column (plain skip) f.1 f.2) = _
    rw [declared_column]
  have e0 : (plain skip).skip = skip := rfl
  rw [e0, e1, e2, filterMap_some]
  have : commas [] = [] := rfl
  rw [this]
  simp [close, acc0, List.append_assoc]

theorem sqlText_go : ∀ (s r : Bytes), 39 ∉ s → r.head? ≠ some 39 → sqlText.go (s ++ 39 :: r) = some (s, r)
  | [], r, _, hr => by
    cases r with
    | nil => rfl
    | cons c r =>
      have hc : c ≠ 39 := fun h => hr (by rw [h]; rfl)
      show sqlText.go (39 :: c :: r) = _
      rw [sqlText.go]
      simpa using hc
  | c :: s, r, hs, hr => by
    have hc : c ≠ 39 := fun h => hs (h ▸ List.mem_cons_self ..)
    show sqlText.go (c :: (s ++ 39 :: r)) = _
    rw [sqlText.go, sqlText_go s r (fun h => hs (List.mem_cons_of_mem _ h)) hr]
    · rfl
    all_goals (intros; first | exact hc ‹_› | assumption)

/-- **C207 (part).** The default of a text without `'` is that text, the name of a column without `]` is that of the field. -/
theorem C207_read_partial (s k r : Bytes) (hs : 39 ∉ s) (hr : r.head? ≠ some 39) (hk : 93 ∉ k) :
    sqlText (asc "'" ++ s ++ asc "'" ++ r) = some (s, r) ∧ sqlName (asc "[" ++ k ++ asc "]" ++ r) = some (k, r) := by
  constructor
  · have : asc "'" ++ s ++ asc "'" ++ r = 39 :: (s ++ 39 :: r) := by simp [asc]
    rw [this]
    exact sqlText_go s r hs hr
  · have : asc "[" ++ k ++ asc "]" ++ r = 91 :: (k ++ asc "]" ++ r) := by simp [asc]
    rw [this]
    show cut (asc "]") (k ++ asc "]" ++ r) = _
    refine cut_spec (asc "]") (by decide) k r ?_
    rintro ⟨x, y, e⟩
    apply hk
    have e' : k ++ (asc "]").dropLast = k := by simp [asc]
    rw [← e', ← e]
    simp [asc]

/-- The hypotheses are met. -/
example : Query (asc "Insert INTO t %v;") (asc "Insert INTO t") (asc ";") ∧ Starts (asc "insert") (asc "Insert INTO t %v;") ∧
    queryObj (plain [asc "c"]) (asc "o") (some [(asc "a", .num (asc "1")), (asc "rowid", .num (asc "5")), (asc "b", .str (asc "x")), (asc "c", .other)])
      (asc "Insert INTO t %v;") = .runs (asc "Insert INTO t ([a], [b])  VALUES($o(a), $o(b));") := by
  refine ⟨⟨by decide +kernel, by decide +kernel⟩, ⟨asc "Insert", asc " INTO t %v;", by decide +kernel, by decide +kernel⟩, by decide +kernel⟩

/-- **C207 refuted.** A `'` in a text is not doubled: the default ends there. -/
theorem C207_quote_refuted :
    queryObj (plain []) (asc "o") (some [(asc "a", .str (asc "x'); DROP TABLE t;--"))]) (asc "create table t %v") =
        .runs (asc "create table t ([a] TEXT DEFAULT 'x'); DROP TABLE t;--' CONSTRAINT 'a Invalid' CHECK(typeof(a) == 'text')) ") ∧
      sqlText (asc "'x'); DROP TABLE t;--'") = some (asc "x", asc "); DROP TABLE t;--'") := ⟨by decide +kernel, by decide +kernel⟩

/-- **C207 refuted.** A space before the first word, and other words than the three: `%v` stays. -/
theorem C207_space_refuted (o : Opts) (name : Bytes) (fs : List (Bytes × FV)) :
    queryObj o name (some fs) (asc " INSERT INTO t %v") = .runs (asc " INSERT INTO t %v") ∧
      queryObj o name (some fs) (asc "REPLACE INTO t %v") = .runs (asc "REPLACE INTO t %v") := by
  have h1 : kindOf (asc " INSERT INTO t %v") = none := by decide +kernel
  have h2 : kindOf (asc "REPLACE INTO t %v") = none := by decide +kernel
  simp [queryObj, objBinds, h1, h2]

/-- **C207 refuted.** `noDefaults` does nothing. -/
theorem C207_noDefaults_refuted (o : Opts) (name : Bytes) (obj : Option (List (Bytes × FV))) (sql : Bytes) :
    queryObj { o with noDefaults := true } name obj sql = queryObj { o with noDefaults := false } name obj sql := rfl

/-- **C207 refuted.** Without the object, or without `%v`, nothing is run, and `query` gives no error. -/
theorem C207_silent_refuted (o : Opts) (name : Bytes) (fs : List (Bytes × FV)) :
    queryObj o name none (asc "INSERT INTO t %v") = .nothing ∧ queryObj o name (some fs) (asc "DELETE FROM t") = .runs (asc "DELETE FROM t") ∧
      queryObj o name (some fs) (asc "UPDATE t\n%v") = .nothing := by
  refine ⟨rfl, ?_, ?_⟩
  · have h : kindOf (asc "DELETE FROM t") = none := by decide +kernel
    simp [queryObj, objBinds, h]
  · have h : kindOf (asc "UPDATE t\n%v") = some .update := by decide +kernel
    have h2 : cut2 (asc "UPDATE t\n%v") = none := by decide +kernel
    simp [queryObj, objBinds, h, h2]

/-- **C207 refuted.** With no field left the statement is not SQL. -/
theorem C207_empty_refuted (o : Opts) (name : Bytes) : queryObj o name (some []) (asc "INSERT INTO t %v") = .runs (asc "INSERT INTO t ()  VALUES()") := by
  have h : kindOf (asc "INSERT INTO t %v") = some .insert := by decide +kernel
  have h2 : cut2 (asc "INSERT INTO t %v") = some (asc "INSERT INTO t", []) := by decide +kernel
  have e : asc "INSERT INTO t ()  VALUES()" = asc "INSERT INTO t" ++ (asc " (" ++ (asc ") " ++ (asc " VALUES(" ++ asc ")"))) := by decide +kernel
  rw [e]
  simp [queryObj, objBinds, h, h2, close, acc0]

/-- **C207 refuted.** With `defaultNull` a text has no type. -/
theorem C207_null_refuted : queryObj ⟨[], true, false, false, false⟩ (asc "o") (some [(asc "a", .str (asc "x"))]) (asc "CREATE TABLE t %v") =
    .runs (asc "CREATE TABLE t ([a] DEFAULT NULL) ") := by decide +kernel

end Verif.Sql.ObjBind
