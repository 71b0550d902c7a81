/-!
Hash tables: `src/jsiHash.c`.

Entries carry an identity (`id`) that plays the role of their address: value updates and deletions in
the C code go through the entry pointer, not through the key.  Chains are lists, a bucket array is a
list of chains.  Sizes are unbounded naturals; `C14_no_overflow` shows when they fit in the C `int`s.

Not modelled: the lock and free callbacks (`opts.lockHashProc`, `opts.freeHashProc`), memory
allocation failure, the 64-bit variant of `RANDOM_INDEX` (`JSI_IS64BIT` is never set by gcc:
src/jsiInt.h:167-181 tests `__X86_64__`, gcc defines `__x86_64__`).
-/

namespace Verif.Hash

/-- `RANDOM_INDEX` (src/jsiHash.c:16-17): 64-bit multiplication, shift, mask. -/
def randomIndex (downShift mask word : Nat) : Nat :=
  ((word * 1103515245 % 2 ^ 64) >>> downShift) &&& mask

/-- `HashString` (src/jsiHash.c:42-51): `char` is signed and is widened to 64 bits. -/
def hashString (s : List UInt8) : Nat :=
  s.foldl (fun r c =>
    (r + (r * 8 + (if c.toNat < 128 then c.toNat else 2 ^ 64 - 256 + c.toNat))) % 2 ^ 64) 0

/-- `jsi_HashArray` (src/jsiHash.c:261-272): 32-bit arithmetic. -/
def hashArray (s : List UInt8) : Nat :=
  s.foldl (fun r c => (r + (r * 8 + c.toNat)) % 2 ^ 32) 0

/-- What differs between the kinds of key. -/
structure KeyOps (K : Type) where
  /-- the `hval` stored in an entry -/
  hval : K → Nat
  /-- bucket index used by find and create, from `downShift`, `mask` and the key -/
  findIdx : Nat → Nat → K → Nat
  /-- bucket index used by `RebuildTable` -/
  rebIdx : Nat → Nat → K → Nat
  /-- bucket index used by `Jsi_HashEntryDelete`, from the stored `hval` -/
  delIdx : Nat → Nat → Nat → Nat
  /-- key comparison in a chain: entry key, searched key -/
  same : K → K → Bool

/-- `JSI_KEYS_ONEWORD` (src/jsiHash.c:203-258, 375-385, 461-462). -/
def wordOps : KeyOps (BitVec 64) where
  hval k := k.toNat
  findIdx ds m k := randomIndex ds m k.toNat
  rebIdx ds m k := randomIndex ds m k.toNat
  delIdx ds m h := randomIndex ds m h
  same a b := a == b

/-- `JSI_KEYS_STRING` (src/jsiHash.c:52-127, 386-396, 463-464): NUL terminated strings, here without
the terminator; the character loop of lines 71-78 is equality. -/
def stringOps : KeyOps (List UInt8) where
  hval k := hashString k
  findIdx _ m k := hashString k &&& m
  rebIdx _ m k := hashString k &&& m
  delIdx _ m h := h &&& m
  same a b := hashString a == hashString b && a == b

/-- Struct keys of a given size (src/jsiHash.c:274-328, 386-396, 463-464): byte blocks. -/
def structOps : KeyOps (List UInt8) where
  hval k := hashArray k
  findIdx _ m k := hashArray k &&& m
  rebIdx _ m k := hashArray k &&& m
  delIdx _ m h := h &&& m
  same a b := hashArray a == hashArray b && a == b

/-- `JSI_KEYS_STRINGKEY` (src/jsiHash.c:428-432): created and searched like words, but
`RebuildTable` (386-396) and `Jsi_HashEntryDelete` (463-464) take the other branch. -/
def strkeyOps : KeyOps (BitVec 64) where
  hval k := k.toNat
  findIdx ds m k := randomIndex ds m k.toNat
  rebIdx _ m k := k.toNat &&& m
  delIdx _ m h := h &&& m
  same a b := a == b

/-- `Jsi_HashEntry` (src/jsiInt.h:605-613). -/
structure Entry (K V : Type) where
  id : Nat
  key : K
  val : V
deriving DecidableEq, Repr

/-- `Jsi_Hash` (src/jsiInt.h:616-632); `nextId` is the allocator. -/
structure Tbl (K V : Type) where
  buckets : List (List (Entry K V))
  numBuckets : Nat
  numEntries : Nat
  rebuildSize : Nat
  mask : Nat
  downShift : Nat
  nextId : Nat
deriving DecidableEq, Repr

variable {K V : Type}

/-- `Jsi_HashNew` (src/jsiHash.c:402-449). -/
def new : Tbl K V := ⟨List.replicate 16 [], 16, 0, 48, 15, 28, 0⟩

/-- The find procedures (src/jsiHash.c:52-80, 203-219, 274-286). -/
def find (o : KeyOps K) (t : Tbl K V) (k : K) : Option (Entry K V) :=
  (t.buckets.getD (o.findIdx t.downShift t.mask k) []).find? (fun e => o.same e.key k)

/-- Put an entry in front of a chain. -/
def push (bs : List (List (Entry K V))) (i : Nat) (e : Entry K V) : List (List (Entry K V)) :=
  bs.modify i (e :: ·)

/-- `RebuildTable` (src/jsiHash.c:356-400). -/
def rebuild (o : KeyOps K) (t : Tbl K V) : Tbl K V :=
  let nb := t.numBuckets * 4
  let ds := t.downShift - 2
  let m := nb - 1
  { t with
    numBuckets := nb
    rebuildSize := t.rebuildSize * 4
    downShift := ds
    mask := m
    buckets := t.buckets.flatten.foldl (fun bs e => push bs (o.rebIdx ds m e.key) e)
      (List.replicate nb []) }

/-- The create procedures (src/jsiHash.c:82-127, 221-258, 288-328): the entry and whether it is new.
A new entry has the null value `z`. -/
def create (o : KeyOps K) (z : V) (t : Tbl K V) (k : K) : Tbl K V × Nat × Bool :=
  match find o t k with
  | some e => (t, e.id, false)
  | none =>
    let t1 := { t with
      buckets := push t.buckets (o.findIdx t.downShift t.mask k) ⟨t.nextId, k, z⟩
      numEntries := t.numEntries + 1
      nextId := t.nextId + 1 }
    (if t1.rebuildSize ≤ t1.numEntries then rebuild o t1 else t1, t.nextId, true)

/-- `Jsi_HashValueSet` (src/jsiHash.c:548-551): through the entry pointer. -/
def valueSet (t : Tbl K V) (id : Nat) (v : V) : Tbl K V :=
  { t with buckets := t.buckets.map (·.map fun e => if e.id = id then { e with val := v } else e) }

/-- `Jsi_HashSet` (src/jsiHash.c:588-595). -/
def set (o : KeyOps K) (z : V) (t : Tbl K V) (k : K) (v : V) : Tbl K V :=
  valueSet (create o z t k).1 (create o z t k).2.1 v

/-- `Jsi_HashGet` (src/jsiHash.c:597-603); `none` is NULL. -/
def get (o : KeyOps K) (t : Tbl K V) (k : K) : Option V := (find o t k).map (·.val)

/-- `Jsi_HashEntryDelete` (src/jsiHash.c:451-496); `none` when the entry is not in the chain that is
searched, where the C code reports a malformed chain and then reads through a null pointer. -/
def entryDelete (o : KeyOps K) (t : Tbl K V) (e : Entry K V) : Option (Tbl K V) :=
  let i := o.delIdx t.downShift t.mask (o.hval e.key)
  if (t.buckets.getD i []).any (fun x => x.id == e.id) then
    some { t with
      buckets := t.buckets.modify i (fun c => c.eraseP (fun x => x.id == e.id))
      numEntries := t.numEntries - 1 }
  else none

/-- `Jsi_HashUnset` (src/jsiHash.c:606-613). -/
def unset (o : KeyOps K) (t : Tbl K V) (k : K) : Option (Tbl K V × Bool) :=
  match find o t k with
  | none => some (t, false)
  | some e => (entryDelete o t e).map (·, true)

/-- `Jsi_HashSize` (src/jsiHash.c:672). -/
def size (t : Tbl K V) : Nat := t.numEntries

/-- State of a search (`Jsi_HashSearch`): next bucket and the rest of the current chain. -/
structure Search (K V : Type) where
  nextIndex : Nat
  nextEntry : List (Entry K V)

/-- The bucket loop of `Jsi_HashSearchNext` (src/jsiHash.c:564-578): skip to a non-empty chain. -/
def skip (t : Tbl K V) (s : Search K V) : Option (Search K V) :=
  match s.nextEntry with
  | _ :: _ => some s
  | [] =>
    if h : t.numBuckets ≤ s.nextIndex then none
    else skip t ⟨s.nextIndex + 1, t.buckets.getD s.nextIndex []⟩
termination_by t.numBuckets - s.nextIndex

/-- `Jsi_HashSearchNext` (src/jsiHash.c:557-585). -/
def searchNext (t : Tbl K V) (s : Search K V) : Option (Entry K V × Search K V) :=
  match skip t s with
  | some ⟨i, e :: r⟩ => some (e, ⟨i, r⟩)
  | _ => none

/-- A full search: `Jsi_HashSearchFirst` (src/jsiHash.c:533-540), then `Jsi_HashSearchNext` until
NULL; at most `n` calls. -/
def searchFrom (t : Tbl K V) : Nat → Search K V → List (Entry K V)
  | 0, _ => []
  | n + 1, s =>
    match searchNext t s with
    | none => []
    | some (e, s') => e :: searchFrom t n s'

/-- All entries in search order; `numEntries + 1` calls suffice. -/
def searchAll (t : Tbl K V) : List (Entry K V) := searchFrom t (t.numEntries + 1) ⟨0, []⟩

/-- `Jsi_HashClear` (src/jsiHash.c:498-522): the chains are emptied, the counters are not touched. -/
def clear (t : Tbl K V) : Tbl K V := { t with buckets := t.buckets.map fun _ => [] }

/-! ### Histories -/

/-- The operations of the API. -/
inductive Op (K V : Type)
  /-- `Jsi_HashEntryNew` -/
  | new (k : K)
  /-- `Jsi_HashSet` -/
  | set (k : K) (v : V)
  /-- `Jsi_HashUnset` -/
  | unset (k : K)

/-- One operation; `none` is a crash. -/
def exec (o : KeyOps K) (z : V) (t : Tbl K V) : Op K V → Option (Tbl K V)
  | .new k => some (create o z t k).1
  | .set k v => some (set o z t k v)
  | .unset k => (unset o t k).map (·.1)

/-- A history. -/
def run (o : KeyOps K) (z : V) (t : Tbl K V) : List (Op K V) → Option (Tbl K V)
  | [] => some t
  | op :: ops => (exec o z t op).bind (fun t' => run o z t' ops)

end Verif.Hash
