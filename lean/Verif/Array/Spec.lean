import Verif.Array.Model

/-!
What JavaScript says an array does, on plain lists.  An element is `some v`, a hole is `none`.
Nothing here mentions the model of the code, except `elems`, which reads off the elements of an
array of the model.
-/

namespace Verif.Array

variable {V : Type}

/-- The elements a script sees: `a[0]`, ..., `a[a.length-1]`. -/
def elems (h : Heap V) (a : Arr) : List (Option V) := (a.mem.take a.cnt).map (Option.map h.val)

namespace ES

/-- ECMAScript's relative index: a negative one counts from the end, and it is clamped to
`[0, len]`. -/
def rel (len : Nat) (i : Int) : Nat := if i < 0 then (len + i).toNat else min i.toNat len

/-- `Array.prototype.slice`. -/
def slice (l : List (Option V)) (s : Int) (e : Option Int) : List (Option V) :=
  let i := rel l.length s
  let j := rel l.length (e.getD l.length)
  (l.drop i).take (j - i)

/-- `Array.prototype.fill`. -/
def fill (l : List (Option V)) (v : V) (s e : Option Int) : List (Option V) :=
  let i := rel l.length (s.getD 0)
  let j := rel l.length (e.getD l.length)
  l.take i ++ List.replicate (j - i) (some v) ++ l.drop (max i j)

/-- The number of elements `Array.prototype.splice` removes. -/
def spliceCount (l : List (Option V)) (s : Int) (how : Option Int) : Nat :=
  let i := rel l.length s
  match how with
  | none => l.length - i
  | some k => min k.toNat (l.length - i)

/-- `Array.prototype.splice`: the removed elements and what is left. -/
def splice (l : List (Option V)) (s : Int) (how : Option Int) (items : List V) :
    List (Option V) × List (Option V) :=
  let i := rel l.length s
  let k := spliceCount l s how
  ((l.drop i).take k, l.take i ++ items.map some ++ l.drop (i + k))

/-- `a[n] = v`: past the end, the gap is filled with holes. -/
def assign (l : List (Option V)) (n : Nat) (v : V) : List (Option V) :=
  if n < l.length then l.set n (some v)
  else l ++ List.replicate (n - l.length) none ++ [some v]

end ES

/-! ### Histories

Several arrays, named by their number, and the operations a script applies to them. -/

/-- An argument of `concat`: another array, or a value that is not an array. -/
inductive Item (V : Type) where
  | arr (i : Nat)
  | val (v : V)

/-- One operation of a script. -/
inductive Op (V : Type) where
  | create
  | push (i : Nat) (vs : List V)
  | pop (i : Nat)
  | shift (i : Nat)
  | unshift (i : Nat) (vs : List V)
  | assign (i n : Nat) (v : V)
  | reverse (i : Nat)
  | slice (i : Nat) (s : Int) (e : Option Int)
  | fill (i : Nat) (v : V) (s e : Option Int)
  | concat (i : Nat) (args : List (Item V))
  | splice (i : Nat) (s : Int) (how : Option Int) (vs : List V)

/-- What the operation returns. A returned array is a new one: it is added to the arrays. -/
inductive Ret (V : Type) where
  | undef
  | value (v : V)
  | num (n : Nat)
  | newArray
  | this
  | error
deriving DecidableEq

def Ret.ofOption : Option (Option V) → Ret V
  | some (some v) => .value v
  | _ => .undef

/-- The elements an item contributes to `concat`. -/
def Item.spec (s : List (List (Option V))) : Item V → Option (List (Option V))
  | .arr i => s[i]?
  | .val v => some [some v]

/-- All of them; `none` if an array number is wrong. -/
def itemsSpec (s : List (List (Option V))) : List (Item V) → Option (List (Option V))
  | [] => some []
  | it :: rest =>
    match it.spec s, itemsSpec s rest with
    | some x, some y => some (x ++ y)
    | _, _ => none

/-- An array length that is safely below the limit `M`: the code needs some slack for its own
rounding. -/
def roomFor (M n : Nat) : Prop := n + 20 ≤ M

instance (M n : Nat) : Decidable (roomFor M n) := inferInstanceAs (Decidable (_ ≤ _))

/-- jsish's `end` argument, translated to JavaScript's: jsish includes the element at `end`. -/
def inclusive : Option Int → Option Int
  | none => none
  | some e => if e = -1 then none else some (e + 1)

/-- What JavaScript says the operation does to the arrays, and returns.  `none` where jsish is not
claimed to follow JavaScript:
 * the lengths come near the limit;
 * `unshift` without arguments (it returns 0), `shift` when the first element is a hole (the length
   stays);
 * `slice`/`fill` with a `start` below `-length`; `splice` with `start > length` or a negative count.
For `slice` and `fill`, the `end` argument is taken to be inclusive, as jsish does. -/
def specStep (M : Nat) (s : List (List (Option V))) : Op V → Option (List (List (Option V)) × Ret V)
  | .create => some (s ++ [[]], .newArray)
  | .push i vs => do
    let l ← s[i]?
    if roomFor M (l.length + vs.length) then
      some (s.set i (l ++ vs.map some), .num (l.length + vs.length))
    else none
  | .pop i => do
    let l ← s[i]?
    some (s.set i l.dropLast, Ret.ofOption l.getLast?)
  | .shift i => do
    let l ← s[i]?
    if (l.head?).any Option.isNone then none else some (s.set i l.tail, Ret.ofOption l.head?)
  | .unshift i vs => do
    let l ← s[i]?
    if vs ≠ [] ∧ roomFor M (l.length + vs.length) then
      some (s.set i (vs.map some ++ l), .num (l.length + vs.length))
    else none
  | .assign i n v => do
    let l ← s[i]?
    if roomFor M (max n l.length + 1) then some (s.set i (ES.assign l n v), .undef) else none
  | .reverse i => do
    let l ← s[i]?
    some (s.set i l.reverse, .this)
  | .slice i st e => do
    let l ← s[i]?
    if -(l.length : Int) ≤ st ∧ roomFor M l.length then
      some (s ++ [ES.slice l st (inclusive e)], .newArray)
    else none
  | .fill i v st e => do
    let l ← s[i]?
    if -(l.length : Int) ≤ st.getD 0 then
      some (s.set i (ES.fill l v st (inclusive e)), .this)
    else none
  | .concat i args => do
    let l ← s[i]?
    let ls ← itemsSpec s args
    if roomFor M (l.length + ls.length) then some (s ++ [l ++ ls], .newArray) else none
  | .splice i st how vs => do
    let l ← s[i]?
    if st ≤ l.length ∧ 0 ≤ how.getD 0 ∧ (how = none → vs = []) ∧
        roomFor M (l.length + vs.length) then
      let r := ES.splice l st how vs
      some (s.set i r.2 ++ [r.1], .newArray)
    else none

/-- The number of calls of `concat` in a history. -/
def concats : List (Op V) → Nat
  | [] => 0
  | .concat _ _ :: ops => concats ops + 1
  | _ :: ops => concats ops

/-- A history, collecting the results. -/
def specRun (M : Nat) : List (List (Option V)) → List (Op V) →
    Option (List (List (Option V)) × List (Ret V))
  | s, [] => some (s, [])
  | s, op :: ops => do
    let (s1, r) ← specStep M s op
    let (s2, rs) ← specRun M s1 ops
    some (s2, r :: rs)

end Verif.Array
