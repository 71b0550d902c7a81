/-!
Model of `Jsi_Stack`, src/jsiUtils.c:2231-2297.

The vector is a list of slots, `none` being an uninitialised one.  Every operation returns
`Option`: `none` is undefined behaviour (a read of an uninitialised slot or an access outside the
vector).  `void*` elements are an arbitrary type; the C functions return NULL on an empty stack,
modelled by `none` in the result.  `int` lengths are unbounded here (a stack of 2^30 elements would
exhaust memory first).
-/

namespace Verif.Stack

structure Stk (α : Type) where
  vector : List (Option α)
  len : Nat
  maxlen : Nat

variable {α : Type}

/-- src/jsiUtils.c:2231-2235  `Jsi_StackNew` (calloc). -/
def new : Stk α := ⟨[], 0, 0⟩

/-- `Jsi_Realloc` of the vector: the old slots are kept, the new ones are uninitialised. -/
def realloc (v : List (Option α)) (n : Nat) : List (Option α) :=
  v.take n ++ List.replicate (n - v.length) none

/-- Store in a slot; `none` if outside. -/
def store (v : List (Option α)) (i : Nat) (x : α) : Option (List (Option α)) :=
  if i < v.length then some (v.set i (some x)) else none

/-- Read a slot; `none` if outside or uninitialised. -/
def read (v : List (Option α)) (i : Nat) : Option α := (v[i]?).join

/-- src/jsiUtils.c:2248-2258  `Jsi_StackPush`. -/
def push (s : Stk α) (x : α) : Option (Stk α) :=
  let needed := s.len + 1
  let s := if needed > s.maxlen then
      let m := if needed < 20 then 20 else needed * 2
      { s with maxlen := m, vector := realloc s.vector m }
    else s
  (store s.vector s.len x).map fun v => { s with vector := v, len := s.len + 1 }

/-- src/jsiUtils.c:2260-2266  `Jsi_StackPop`. -/
def pop (s : Stk α) : Option (Option α × Stk α) :=
  if s.len = 0 then some (none, s)
  else (read s.vector (s.len - 1)).map fun x => (some x, { s with len := s.len - 1 })

/-- src/jsiUtils.c:2268-2276  `Jsi_StackUnshift`: removes the first element; `memmove` of `len`
slots from index 1 to index 0. -/
def unshift (s : Stk α) : Option (Option α × Stk α) :=
  if s.len = 0 then some (none, s)
  else
    let n := s.len - 1
    (read s.vector 0).bind fun x =>
      if 1 + n ≤ s.vector.length then
        some (some x, { s with len := n, vector := (s.vector.drop 1).take n ++ s.vector.drop n })
      else none

/-- src/jsiUtils.c:2278-2283  `Jsi_StackPeek`. -/
def peek (s : Stk α) : Option (Option α) :=
  if s.len = 0 then some none else (read s.vector (s.len - 1)).map some

/-- src/jsiUtils.c:2285-2290  `Jsi_StackHead`. -/
def head (s : Stk α) : Option (Option α) :=
  if s.len = 0 then some none else (read s.vector 0).map some

/-- src/jsiUtils.c:2292-2298  `Jsi_StackFreeElements`: the elements handed to `freeProc`, in order. -/
def freeElements (s : Stk α) : Option (List α × Stk α) :=
  ((List.range s.len).mapM (read s.vector)).map fun l => (l, { s with len := 0 })

/-- The public operations. -/
inductive Op (α : Type) where
  | push (x : α) | pop | unshift | peek | head | size | free

/-- What an operation lets the caller see. -/
inductive Out (α : Type) where
  | unit | elem (x : Option α) | size (n : Nat) | freed (l : List α)
  deriving DecidableEq

/-- One call. -/
def step (s : Stk α) : Op α → Option (Out α × Stk α)
  | .push x => (push s x).map fun s => (.unit, s)
  | .pop => (pop s).map fun (x, s) => (.elem x, s)
  | .unshift => (unshift s).map fun (x, s) => (.elem x, s)
  | .peek => (peek s).map fun x => (.elem x, s)
  | .head => (head s).map fun x => (.elem x, s)
  | .size => some (.size s.len, s)
  | .free => (freeElements s).map fun (l, s) => (.freed l, s)

/-- A history of calls on a stack. -/
def run (s : Stk α) : List (Op α) → Option (List (Out α))
  | [] => some []
  | o :: os => (step s o).bind fun (r, s') => (run s' os).map (r :: ·)

end Verif.Stack
