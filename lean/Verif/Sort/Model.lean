import Verif.Value.Model
import Verif.Dict.Props

/-!
Model of `Array.sort`: `SortSubCmd`, `jsi_ArraySortCmd` (src/jsiArray.c:933-1128), `Jsi_ValueCmp` with its sign
(src/jsiValue.c:895-961), `Jsi_StrcmpDict` (src/jsiChar.c:135-140).

`qsort` is any function that does what the C standard says (see `Qsort`).  Numbers and values are those of
`Verif.Value`.  A comparison function given by the user depends on its arguments only and does not touch the array.
-/

namespace Verif.Sort

open Verif.Value (Val Num Ctx OKind numEq numLt toInt sub toNum toPrim vt strcmp)

abbrev Bytes := List UInt8

/-- A slot of the array: NULL where there is no element. -/
abbrev Elem := Option Val

/-- What a call of the comparison function gives: a number, something else, an exception. -/
inductive Ret where
  | num (n : Num)
  | other
  | error

/-- `SortInfo`: the mode, `unique`, `compare`. -/
structure Opts where
  desc : Bool
  dict : Bool
  nocase : Bool
  unique : Bool
  compare : Option (Val → Val → Ret)

/-- sort() -/
def Opts.default : Opts := ⟨false, false, false, false, none⟩

/-- Negation of a C int (the negation of INT_MIN is INT_MIN). -/
def neg32 (x : Int) : Int := if x = -2147483648 then x else -x

/-- A number of 64 bits stored in an int. -/
def wrap32 (x : Int) : Int := (x + 2147483648) % 4294967296 - 2147483648

/-- `tolower` -/
def lower (c : UInt8) : UInt8 := if 65 ≤ c ∧ c ≤ 90 then c + 32 else c

/-- `strcasecmp` -/
def strcasecmp (a b : Bytes) : Int := strcmp (a.map lower) (b.map lower)

/-- src/jsiChar.c:135-140  `Jsi_StrcmpDict` -/
def strcmpDict (o : Opts) (a b : Bytes) : Int :=
  if o.dict then Dict.dictCmp (Value.cstr a) (Value.cstr b) else if o.nocase then strcasecmp a b else strcmp a b

/-- src/jsiValue.c:926-958: two values of the same type.  An object is known by its place, in units of its size. -/
def sameCmp (c : Ctx) (o : Opts) : Val → Val → Int
  | .num a, .num b => if numEq b a then 0 else if numLt b a then -1 else 1
  | .bool a, .bool b => (if b then 1 else 0) - (if a then 1 else 0)
  | .str a, .str b => strcmpDict o b a
  | .obj i, .obj j =>
    match c.kind i, c.kind j with
    | .str a, .str b => strcmpDict o b a
    | _, _ => wrap32 ((j : Int) - (i : Int))
  | _, _ => 0

/-- src/jsiValue.c:895-961  `Jsi_ValueCmp`; the values are not at the same place. -/
def valueCmp (c : Ctx) (o : Opts) (v1 v2 : Val) : Int :=
  if vt v1 = vt v2 then sameCmp c o v1 v2
  else if vt (toPrim c v1) = vt (toPrim c v2) then sameCmp c o (toPrim c v1) (toPrim c v2)
  else if (toPrim c v1 = .undef ∨ toPrim c v1 = .null) ∧ (toPrim c v2 = .undef ∨ toPrim c v2 = .null) then 0
  else toInt (sub (toNum c (toPrim c v2)) (toNum c (toPrim c v1)))

/-- src/jsiArray.c:971-1004: the value of `rc`. -/
def rawCmp (c : Ctx) (o : Opts) : Elem → Elem → Int
  | some v1, some v2 =>
    match o.compare with
    | none => valueCmp c o v1 v2
    | some f =>
      match f v1 v2 with
      | .error => 1
      | .num n => neg32 (toInt n)
      | .other => 0
  | none, none => 0
  | none, some _ => 1
  | some _, none => -1

/-- src/jsiArray.c:955-1008  `SortSubCmd` -/
def subCmd (c : Ctx) (o : Opts) (e1 e2 : Elem) : Int :=
  if o.desc then rawCmp c o e1 e2 else neg32 (rawCmp c o e1 e2)

/-- src/jsiArray.c:1089-1115: `unique` after sorting, `x` being the last element kept.  Two holes are at the same place
(NULL), so both are kept. -/
def uniq (cmp : Elem → Elem → Int) : Elem → List Elem → List Elem
  | x, [] => [x]
  | x, y :: r =>
    if x = none ∧ y = none then x :: uniq cmp y r
    else if cmp x y ≠ 0 then x :: uniq cmp y r
    else uniq cmp x r

/-- src/jsiArray.c:1089-1115, from the first element on -/
def uniqAll (cmp : Elem → Elem → Int) : List Elem → List Elem
  | [] => []
  | x :: r => uniq cmp x r

/-- src/jsiArray.c:1037-1128  `jsi_ArraySortCmd`: the new contents of the array, which is also the result. -/
def sort (q : (Elem → Elem → Int) → List Elem → List Elem) (c : Ctx) (o : Opts) (l : List Elem) : List Elem :=
  if l.length ≤ 1 then l
  else if o.unique then uniqAll (subCmd c o) (q (subCmd c o) l)
  else q (subCmd c o) l

/-! ### the C library -/

/-- The comparison is one qsort may be used with: "consistent". -/
structure Consistent (cmp : Elem → Elem → Int) (l : List Elem) : Prop where
  anti : ∀ x ∈ l, ∀ y ∈ l, cmp x y ≤ 0 ↔ 0 ≤ cmp y x
  trans : ∀ x ∈ l, ∀ y ∈ l, ∀ z ∈ l, cmp x y ≤ 0 → cmp y z ≤ 0 → cmp x z ≤ 0

/-- What is relied on: the elements stay the same, and they are in order if the comparison is consistent. -/
structure Qsort (q : (Elem → Elem → Int) → List Elem → List Elem) : Prop where
  perm : ∀ cmp l, (q cmp l).Perm l
  ordered : ∀ cmp l, Consistent cmp l → (q cmp l).Pairwise (fun x y => cmp x y ≤ 0)

/-- The merge sort that glibc uses. -/
def msort (cmp : Elem → Elem → Int) (l : List Elem) : List Elem :=
  if h : l.length ≤ 1 then l
  else List.merge (msort cmp (l.take (l.length / 2))) (msort cmp (l.drop (l.length / 2))) (fun x y => decide (cmp x y ≤ 0))
termination_by l.length
decreasing_by
  · simp; omega
  · simp; omega

/-! ### the memory of the array with `unique` -/

/-- `obj->arr` with all its slots, `obj->arrCnt`, the reference counts of the values. -/
structure Buf where
  arr : List (Option Nat)
  cnt : Nat
  refs : Nat → Nat

/-- `Jsi_DecrRefCount` -/
def dec (refs : Nat → Nat) (p : Nat) : Nat → Nat := fun k => if k = p then refs k - 1 else refs k
/-- `Jsi_IncrRefCount` -/
def inc (refs : Nat → Nat) (p : Nat) : Nat → Nat := fun k => if k = p then refs k + 1 else refs k

/-- src/jsiArray.c:1091-1113: the loop, `k` turns being left, at `n` and `i`. -/
def uniqLoop (same : Nat → Nat → Bool) : Nat → Nat → Nat → Nat → Buf → Nat × Buf
  | 0, _, _, dups, b => (dups, b)
  | k + 1, n, i, dups, b =>
    let x := (b.arr[n]?).join
    let y := (b.arr[i]?).join
    let diff := if x = y then true else
      match x, y with
      | some p, some q => !same p q
      | _, _ => true
    if diff then uniqLoop same k (n + 1) (i + 1) dups ⟨b.arr.set (n + 1) y, b.cnt, b.refs⟩
    else uniqLoop same k n (i + 1) (dups + 1)
      ⟨b.arr.set i none, b.cnt, match y with
        | some p => dec b.refs p
        | none => b.refs⟩

/-- src/jsiArray.c:1089-1114 -/
def uniqBuf (same : Nat → Nat → Bool) (b : Buf) : Buf :=
  ⟨(uniqLoop same (b.cnt - 1) 0 1 0 b).2.arr, b.cnt - (uniqLoop same (b.cnt - 1) 0 1 0 b).1,
    (uniqLoop same (b.cnt - 1) 0 1 0 b).2.refs⟩

/-- src/jsiObj.c:401-420, 449-468  `Jsi_ObjArraySet` of a new value, as `push` calls it (src/jsiValue.c:1299-1310), in a
buffer with room. -/
def arraySet (b : Buf) (p i : Nat) : Buf :=
  ⟨b.arr.set i (some p), max b.cnt (i + 1),
    inc (match (b.arr[i]?).join with
      | some q => dec b.refs q
      | none => b.refs) p⟩

/-- src/jsiArray.c:16-40  `push` of one value -/
def push (b : Buf) (p : Nat) : Buf := arraySet b p b.cnt

end Verif.Sort
