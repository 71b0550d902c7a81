/-!
Model of `Jsi_List`, src/jsiUtils.c:1476-1625, for one list and entries that belong to it.

Entries are numbered; the heap is given by functions `nx` (next), `pv` (prev) and `alive`.  Every
operation returns `Option`: `none` is undefined behaviour (use of a freed entry, a NULL dereference)
or a failing `assert`.  Entry values and `freeListProc` are not modelled.
-/

namespace Verif.LList

structure L where
  nx : Nat → Option Nat
  pv : Nat → Option Nat
  alive : Nat → Bool
  head : Option Nat
  tail : Option Nat
  num : Nat
  fresh : Nat     -- next unused entry number (allocator)

/-- Function update. -/
def upd {β : Type} (f : Nat → β) (i : Nat) (v : β) : Nat → β := fun j => if j = i then v else f j

/-- src/jsiUtils.c:1476-1486 `Jsi_ListNew` (calloc). -/
def new : L := ⟨fun _ => none, fun _ => none, fun _ => false, none, none, 0, 0⟩

/-- `i->next`. -/
def L.next (s : L) (i : Nat) : Option (Option Nat) := if s.alive i then some (s.nx i) else none
/-- `i->prev`. -/
def L.prev (s : L) (i : Nat) : Option (Option Nat) := if s.alive i then some (s.pv i) else none
/-- `i->next = v`. -/
def L.setNext (s : L) (i : Nat) (v : Option Nat) : Option L :=
  if s.alive i then some { s with nx := upd s.nx i v } else none
/-- `i->prev = v`. -/
def L.setPrev (s : L) (i : Nat) (v : Option Nat) : Option L :=
  if s.alive i then some { s with pv := upd s.pv i v } else none

/-- src/jsiUtils.c:1557-1579 `Jsi_ListPop`. -/
def pop (s : L) (item : Nat) : Option L :=
  match s.head, s.tail with
  | some h, some t => do
    let s ←
      if item = h then
        if h = t then some { s with head := none, tail := none }
        else do
          let n ← s.next h
          some { s with head := n }
      else if item = t then do
        let p ← s.prev t
        match p with
        | none => none
        | some p => ({ s with tail := some p } : L).setNext p none
      else do
        let p ← s.prev item
        let n ← s.next item
        match p with
        | none => none
        | some p => do
          let s ← s.setNext p n
          match n with
          | some n => s.setPrev n (some p)
          | none => some s
    let s := { s with num := s.num - 1 }
    let s ← s.setNext item none
    s.setPrev item none
  | _, _ => none       -- Assert(list->head && list->tail)

/-- src/jsiUtils.c:1519-1555 `Jsi_ListPush`. -/
def push (s : L) (item : Nat) (before : Option Nat) : Option L := do
  let p ← s.prev item
  let n ← s.next item
  let s ← if s.head = some item ∨ p.isSome ∨ n.isSome then pop s item else some s
  let s ←
    match s.head with
    | none => some { s with head := some item, tail := some item }
    | some h =>
      if item = h then none         -- assert(0)
      else match before with
        | none => do
          let s ← s.setPrev item s.tail
          match s.tail with
          | none => none
          | some t => do
            let s ← s.setNext t (some item)
            some { s with tail := some item }
        | some b =>
          if b = h then do
            let s ← s.setNext item (some h)
            let s ← s.setPrev h (some item)
            some { s with head := some item }
          else do
            let s ← s.setNext item (some b)
            let bp ← s.prev b
            let s ← s.setPrev item bp
            match bp with
            | none => none
            | some q => do
              let s ← s.setNext q (some item)
              s.setPrev b (some item)
  some { s with num := s.num + 1 }

/-- src/jsiUtils.c:1581-1590 `Jsi_ListEntryNew`: the new entry is number `s.fresh`. -/
def entryNew (s : L) (before : Option Nat) : Option L :=
  let i := s.fresh
  push { s with fresh := i + 1, alive := upd s.alive i true, nx := upd s.nx i none,
                pv := upd s.pv i none } i before

/-- src/jsiUtils.c:1592-1598 `Jsi_ListEntryDelete`. -/
def entryDelete (s : L) (i : Nat) : Option L := do
  let n ← s.next i
  let p ← s.prev i
  let s ← if n.isSome ∨ p.isSome then pop s i else some s
  if s.alive i then some { s with alive := upd s.alive i false } else none

/-- src/jsiUtils.c:1506-1517 `Jsi_ListClear`; `fuel` bounds the loop, `none` when it is exhausted. -/
def clearLoop : Nat → L → Option L
  | 0, _ => none
  | fuel + 1, s =>
    match s.head with
    | none => some { s with num := 0 }
    | some l => do
      let n ← s.next l
      let s := { s with head := n }
      let s ← s.setNext l none
      let s ← s.setPrev l none
      let s ← entryDelete s l
      clearLoop fuel s

/-- `Jsi_ListClear`: a list has at most `fresh` entries. -/
def clear (s : L) : Option L := clearLoop (s.fresh + 1) s

/-- src/jsiUtils.c:1600-1621 `Jsi_ListSearchFirst/Next` without JSI_LIST_REVERSE: the entries
visited from `o` on. -/
def fwdFrom (s : L) : Nat → Option Nat → Option (List Nat)
  | _, none => some []
  | 0, some _ => none
  | fuel + 1, some i => do
    let n ← s.next i
    let r ← fwdFrom s fuel n
    some (i :: r)

/-- Forward search of the whole list. -/
def fwd (s : L) : Option (List Nat) := fwdFrom s s.fresh s.head

/-- Same with JSI_LIST_REVERSE, from `o` on. -/
def bwdFrom (s : L) : Nat → Option Nat → Option (List Nat)
  | _, none => some []
  | 0, some _ => none
  | fuel + 1, some i => do
    let p ← s.prev i
    let r ← bwdFrom s fuel p
    some (i :: r)

/-- Reverse search of the whole list. -/
def bwd (s : L) : Option (List Nat) := bwdFrom s s.fresh s.tail

/-- The public operations. -/
inductive Op where
  | new (before : Option Nat)
  | push (item : Nat) (before : Option Nat)
  | pop (item : Nat)
  | delete (item : Nat)
  | clear

/-- One call. -/
def step (s : L) : Op → Option L
  | .new b => entryNew s b
  | .push i b => push s i b
  | .pop i => pop s i
  | .delete i => entryDelete s i
  | .clear => clear s

/-- A history of calls. -/
def run (s : L) : List Op → Option L
  | [] => some s
  | o :: os => (step s o).bind fun s => run s os

end Verif.LList
