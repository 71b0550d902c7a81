import Verif.Hash.Spec

/-!
Ordered (red-black) trees: `src/jsiTree.c`.

A node and the nodes below it are a value of `T`; the chain of `parent` pointers from a node to the root
is a list of frames (`Ctx`), the parent first.  "`n == n->parent->left`" is the `left` flag of the
first frame; `sibling(n)` is its `sib`.  A pointer read or write through NULL is `none`.  This
representation assumes that `parent` pointers agree with `left`/`right` pointers, which
`replace_node`, `rotate_left`, `rotate_right` and `SwapNodes` maintain by inspection.

In the code smaller keys are to the *right*: `Jsi_TreeEntryFind` goes left when the node's key is
smaller than the key searched for.

Not modelled: lock callbacks, `freeTreeProc`, the `nonredblack` and `internstr` flags (never set),
`Jsi_TreeClear`/`Jsi_TreeDelete`.  `Assert` is empty in normal builds (src/jsiInt.h:103-108).
-/

namespace Verif.Tree

/-- `_JSI_TREE_RED`, `_JSI_TREE_BLACK` (src/jsiTree.c:10). -/
inductive Color | red | black
deriving DecidableEq, Repr

/-- `Jsi_TreeEntry` (src/jsiInt.h:655-676): `id` stands for its address, `fl` for the attribute bits
`f` other than the colour (readonly, dontenum, dontdel, ...). -/
structure Entry (K V : Type) where
  id : Nat
  key : K
  val : V
  fl : Nat
deriving DecidableEq, Repr

/-- A node with all that is below it; `nil` is NULL. -/
inductive T (K V : Type)
  | nil
  | node (c : Color) (l : T K V) (e : Entry K V) (r : T K V)
deriving DecidableEq, Repr

/-- A parent node seen from one of its children. -/
structure Frame (K V : Type) where
  /-- the child is the left child -/
  left : Bool
  color : Color
  e : Entry K V
  /-- the other child -/
  sib : T K V
deriving DecidableEq, Repr

/-- The parents of a node, nearest first. -/
abbrev Ctx (K V : Type) := List (Frame K V)

variable {K V : Type}

/-- The parent node with `t` in the child's place (`replace_node`, src/jsiTree.c:42-57). -/
def Frame.fill (f : Frame K V) (t : T K V) : T K V :=
  if f.left then .node f.color t f.e f.sib else .node f.color f.sib f.e t

/-- The whole tree, from a node and its parents. -/
def plug (t : T K V) : Ctx K V → T K V
  | [] => t
  | f :: ctx => plug (f.fill t) ctx

/-- `node_color` (src/jsiTree.c:33-35). -/
def T.color : T K V → Color
  | .nil => .black
  | .node c _ _ _ => c

/-- `set_color(n, _JSI_TREE_BLACK)` (src/jsiTree.c:37-40): nothing on NULL. -/
def T.setBlack : T K V → T K V
  | .nil => .nil
  | .node _ l e r => .node .black l e r

/-- `rotate_left` (src/jsiTree.c:59-70). -/
def rotateLeft : T K V → Option (T K V)
  | .node c l e (.node c2 l2 e2 r2) => some (.node c2 (.node c l e l2) e2 r2)
  | _ => none

/-- `rotate_right` (src/jsiTree.c:72-83). -/
def rotateRight : T K V → Option (T K V)
  | .node c (.node c2 l2 e2 r2) e r => some (.node c2 l2 e2 (.node c r2 e r))
  | _ => none

/-- `insert_case5` (src/jsiTree.c:85-95): `n` below `p` below `g`. -/
def insCase5 (n : T K V) (p g : Frame K V) (ctx : Ctx K V) : Option (T K V) :=
  let gt := { g with color := .red }.fill ({ p with color := .black }.fill n)
  (if p.left then rotateRight gt else rotateLeft gt).map (plug · ctx)

/-- `insert_case4` (src/jsiTree.c:97-107): rotate `n` with its parent, which becomes the new `n`. -/
def insCase4 (n : T K V) (p g : Frame K V) (ctx : Ctx K V) : Option (T K V) :=
  match n with
  | .nil => none
  | .node nc nl ne nr =>
    if !p.left && g.left then insCase5 (.node p.color p.sib p.e nl) ⟨true, nc, ne, nr⟩ g ctx
    else if p.left && !g.left then insCase5 (.node p.color nr p.e p.sib) ⟨false, nc, ne, nl⟩ g ctx
    else insCase5 n p g ctx

/-- `insert_case1`, `insert_case2`, `insert_case3` (src/jsiTree.c:109-136): the whole tree after
rebalancing at `n`. -/
def insCase1 (n : T K V) : Ctx K V → Option (T K V)
  | [] => some n.setBlack
  | p :: ctx =>
    if p.color = .black then some (plug (p.fill n) ctx)
    else match ctx with
      | [] => none
      | g :: rest =>
        if g.sib.color = .red then
          insCase1 ({ g with color := .red, sib := g.sib.setBlack }.fill
            ({ p with color := .black }.fill n)) rest
        else insCase4 n p g rest

/-! #### Deletion: the cases only look at the parents of `n`, never below `n`, so each maps the chain of
parents to the chain of parents afterwards. -/

/-- `delete_case6` (src/jsiTree.c:146-161). -/
def delCase6 (f : Frame K V) (rest : Ctx K V) : Option (Ctx K V) :=
  match f.sib with
  | .nil => none
  | .node _ sl se sr =>
    if f.left then some (⟨true, .black, f.e, sl⟩ :: ⟨true, f.color, se, sr.setBlack⟩ :: rest)
    else some (⟨false, .black, f.e, sr⟩ :: ⟨false, f.color, se, sl.setBlack⟩ :: rest)

/-- `delete_case5` (src/jsiTree.c:163-184). -/
def delCase5 (f : Frame K V) (rest : Ctx K V) : Option (Ctx K V) :=
  match f.sib with
  | .nil => none
  | .node sc sl se sr =>
    if sc = .black then
      if f.left && sr.color = .black && sl.color = .red then
        match rotateRight (.node .red sl.setBlack se sr) with
        | none => none
        | some s' => delCase6 { f with sib := s' } rest
      else if !f.left && sr.color = .red && sl.color = .black then
        match rotateLeft (.node .red sl se sr.setBlack) with
        | none => none
        | some s' => delCase6 { f with sib := s' } rest
      else delCase6 f rest
    else delCase6 f rest

/-- `delete_case4` (src/jsiTree.c:186-198). -/
def delCase4 (f : Frame K V) (rest : Ctx K V) : Option (Ctx K V) :=
  match f.sib with
  | .nil => none
  | .node sc sl se sr =>
    if f.color = .red ∧ sc = .black ∧ sl.color = .black ∧ sr.color = .black then
      some (⟨f.left, .black, f.e, .node .red sl se sr⟩ :: rest)
    else delCase5 f rest

/-- `delete_case1`, `delete_case2`, `delete_case3` (src/jsiTree.c:200-235).  After the rotation of case
2 the parent of `n` is red, so the test of case 3 fails and case 4 is next. -/
def delCase1 : Ctx K V → Option (Ctx K V)
  | [] => some []
  | f :: rest =>
    match f.sib with
    | .nil => none
    | .node .red sl se sr =>
      if f.left then delCase4 ⟨true, .red, f.e, sl⟩ (⟨true, .black, se, sr⟩ :: rest)
      else delCase4 ⟨false, .red, f.e, sr⟩ (⟨false, .black, se, sl⟩ :: rest)
    | .node .black sl se sr =>
      if f.color = .black ∧ sl.color = .black ∧ sr.color = .black then
        (delCase1 rest).map (⟨f.left, f.color, f.e, .node .red sl se sr⟩ :: ·)
      else delCase4 f rest

/-- `delete_one_child` (src/jsiTree.c:559-583): a node of colour `c`, its only child `child`, and its
parents. -/
def delOne (c : Color) (child : T K V) (ctx : Ctx K V) : Option (T K V) :=
  (if c = .black then delCase1 ctx else some ctx).map fun ctx' =>
    match ctx' with
    | [] => child.setBlack
    | _ :: _ => plug child ctx'

/-- `maximum_node` (src/jsiTree.c:138-144), from the node `c l e r` with parents `ctx`: the last node
on the right, its left child and its parents. -/
def maxDown (c : Color) (l : T K V) (e : Entry K V) : T K V → Ctx K V →
    Color × T K V × Entry K V × Ctx K V
  | .nil, ctx => (c, l, e, ctx)
  | .node c2 l2 e2 r2, ctx => maxDown c2 l2 e2 r2 (⟨false, c, e, l⟩ :: ctx)

/-- What `Jsi_TreeEntryDelete` does with the kind of key (src/jsiTree.c:598-628). -/
inductive Kind
  /-- `JSI_KEYS_ONEWORD`, `JSI_KEYS_STRINGKEY`: key and value are exchanged, the other node goes -/
  | word
  /-- `JSI_KEYS_STRING`: the nodes exchange places (and colours) -/
  | string
  /-- struct keys: key and value are exchanged, but the original node goes -/
  | struct
deriving DecidableEq, Repr

/-- `Jsi_TreeEntryDelete` (src/jsiTree.c:585-640) of the node `c l e r` with parents `ctx`: the tree
afterwards. -/
def deleteAt (kind : Kind) (c : Color) (l : T K V) (e : Entry K V) (r : T K V) (ctx : Ctx K V) :
    Option (T K V) :=
  match l, r with
  | .node lc ll le lr, .node _ _ _ _ =>
    let pe := (maxDown lc ll le lr []).2.2.1
    match kind with
    | .word =>
      let (pc, pl, _, pctx) := maxDown lc ll le lr (⟨true, c, ⟨e.id, pe.key, pe.val, e.fl⟩, r⟩ :: ctx)
      delOne pc pl pctx
    | .string =>
      let (pc, pl, _, pctx) := maxDown lc ll le lr (⟨true, c, pe, r⟩ :: ctx)
      delOne pc pl pctx
    | .struct => delOne c r ctx
  | l, .nil => delOne c l ctx
  | .nil, r => delOne c r ctx

/-- `Jsi_TreeEntryFind` (src/jsiTree.c:368-386). -/
def find (cmp : K → K → Int) (k : K) : T K V → Option (Entry K V)
  | .nil => none
  | .node _ l e r =>
    let rc := cmp e.key k
    if rc = 0 then some e else if rc < 0 then find cmp k l else find cmp k r

/-- The same descent, keeping the parents: where the key is, or where it would go
(src/jsiTree.c:414-441). -/
def locate (cmp : K → K → Int) (k : K) : T K V → Ctx K V → T K V × Ctx K V
  | .nil, ctx => (.nil, ctx)
  | .node c l e r, ctx =>
    let rc := cmp e.key k
    if rc = 0 then (.node c l e r, ctx)
    else if rc < 0 then locate cmp k l (⟨true, c, e, r⟩ :: ctx)
    else locate cmp k r (⟨false, c, e, l⟩ :: ctx)

/-- `Jsi_Tree` (src/jsiInt.h:634-653). -/
structure Tree (K V : Type) where
  root : T K V
  numEntries : Nat
  nextId : Nat
deriving DecidableEq, Repr

/-- `Jsi_TreeNew` (src/jsiTree.c:450-492). -/
def new : Tree K V := ⟨.nil, 0, 0⟩

/-- `Jsi_TreeEntryNew` with the create procedures (src/jsiTree.c:277-354, 388-448): the tree and the
entry's address; `none` is a crash. -/
def create (cmp : K → K → Int) (z : V) (t : Tree K V) (k : K) : Option (Tree K V × Nat) :=
  match find cmp k t.root with
  | some e => some (t, e.id)
  | none =>
    (insCase1 (.node .red .nil ⟨t.nextId, k, z, 0⟩ .nil) (locate cmp k t.root []).2).map fun r =>
      (⟨r, t.numEntries + 1, t.nextId + 1⟩, t.nextId)

/-- Change the entry with address `id`. -/
def T.update (id : Nat) (g : Entry K V → Entry K V) : T K V → T K V
  | .nil => .nil
  | .node c l e r => .node c (l.update id g) (if e.id = id then g e else e) (r.update id g)

/-- `Jsi_TreeSet` with `Jsi_TreeValueSet` (src/jsiTree.c:764-773, 803-811). -/
def set (cmp : K → K → Int) (z : V) (t : Tree K V) (k : K) (v : V) : Option (Tree K V) :=
  (create cmp z t k).map fun (t', id) =>
    { t' with root := t'.root.update id (fun e => { e with val := v }) }

/-- Setting attribute bits through the entry (src/jsiObj.c:46, src/jsiValue.c:1427-1432). -/
def setFlags (cmp : K → K → Int) (t : Tree K V) (k : K) (fl : Nat) : Tree K V :=
  match find cmp k t.root with
  | none => t
  | some e => { t with root := t.root.update e.id (fun e => { e with fl := fl }) }

/-- `Jsi_TreeGet` (src/jsiTree.c:813-819). -/
def get (cmp : K → K → Int) (t : Tree K V) (k : K) : Option V := (find cmp k t.root).map (·.val)

/-- `Jsi_TreeUnset` (src/jsiTree.c:822-828); `none` is a crash. -/
def unset (cmp : K → K → Int) (kind : Kind) (t : Tree K V) (k : K) : Option (Tree K V × Bool) :=
  match locate cmp k t.root [] with
  | (.nil, _) => some (t, false)
  | (.node c l e r, ctx) =>
    (deleteAt kind c l e r ctx).map fun root => (⟨root, t.numEntries - 1, t.nextId⟩, true)

/-- `tree_inorder` (src/jsiTree.c:830-846): what `Jsi_TreeWalk` in order visits, when the callback
neither fails nor changes the tree. -/
def T.walk : T K V → List (Entry K V)
  | .nil => []
  | .node _ l e r => r.walk ++ e :: l.walk

/-- `tree_preorder` (src/jsiTree.c:849-863). -/
def T.walkPre : T K V → List (Entry K V)
  | .nil => []
  | .node _ l e r => e :: (r.walkPre ++ l.walkPre)

/-- `tree_postorder` (src/jsiTree.c:866-881). -/
def T.walkPost : T K V → List (Entry K V)
  | .nil => []
  | .node _ l e r => r.walkPost ++ l.walkPost ++ [e]

/-- `tree_levelorder` (src/jsiTree.c:884-906): the entries at depth `n`. -/
def T.level : T K V → Nat → List (Entry K V)
  | .nil, _ => []
  | .node _ _ e _, 0 => [e]
  | .node _ l _ r, n + 1 => r.level n ++ l.level n

/-- The level loop of `Jsi_TreeWalk` (src/jsiTree.c:920-928): levels until one is empty. -/
def levelLoop (t : T K V) : Nat → Nat → List (Entry K V)
  | 0, _ => []
  | fuel + 1, n => if t.level n = [] then [] else t.level n ++ levelLoop t fuel (n + 1)

/-- Number of nodes. -/
def T.count : T K V → Nat
  | .nil => 0
  | .node _ l _ r => l.count + r.count + 1

/-- Length of the longest path. -/
def T.height : T K V → Nat
  | .nil => 0
  | .node _ l _ r => max l.height r.height + 1

/-- `Jsi_TreeSize` (src/jsiTree.c:1017). -/
def size (t : Tree K V) : Nat := t.numEntries

/-- One operation; `none` is a crash. -/
def exec (cmp : K → K → Int) (kind : Kind) (z : V) (t : Tree K V) : Hash.Op K V → Option (Tree K V)
  | .new k => (create cmp z t k).map (·.1)
  | .set k v => set cmp z t k v
  | .unset k => (unset cmp kind t k).map (·.1)

/-- A history. -/
def run (cmp : K → K → Int) (kind : Kind) (z : V) (t : Tree K V) :
    List (Hash.Op K V) → Option (Tree K V)
  | [] => some t
  | op :: ops => (exec cmp kind z t op).bind fun t' => run cmp kind z t' ops

/-! ### Key comparisons -/

/-- `strcmp` (src/jsiChar.c:130-133, used by `StringPtrCompare`, src/jsiTree.c:239-245), on strings
without their terminator. -/
def strcmp : List UInt8 → List UInt8 → Int
  | [], [] => 0
  | [], b :: _ => 0 - b.toNat
  | a :: _, [] => a.toNat
  | a :: as, b :: bs => if a = b then strcmp as bs else a.toNat - b.toNat

/-- `OneWordCompare` (src/jsiTree.c:254-257): the 64-bit difference converted to `int`. -/
def oneWordCompare (a b : BitVec 64) : Int := ((a - b).truncate 32).toInt

/-- `TreeArrayCompare` (src/jsiTree.c:259-262): `memcmp` of blocks of the same length. -/
def memcmp : List UInt8 → List UInt8 → Int
  | a :: as, b :: bs => if a = b then memcmp as bs else a.toNat - b.toNat
  | _, _ => 0

end Verif.Tree
