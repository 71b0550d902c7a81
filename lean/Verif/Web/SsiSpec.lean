import Verif.Web.Ssi

/-!
What a page with server side includes means.  A page is a tree (`Doc`): texts, items and conditionals.  `render`
is the file, `mean` what a visitor is to get.  Nothing here refers to the evaluator.
-/

namespace Verif.Web

/-- The characters that may stand before a name in a condition: `~ : ? @ * !`. -/
inductive Mod where
  | queryFirst | noQuery | noData | lax | required | negate
  deriving DecidableEq

/-- A condition `${...}`. -/
structure Cond where
  mods : List Mod
  name : Str

/-- The items: `include`, `echo 'text'`, `echo 'text${name}text'`, `set name='value'`. -/
inductive Item where
  | inc (virt : Bool) (name : Str)
  | echo (q : UInt8) (text : Str)
  | echoVar (q : UInt8) (pre name post : Str)
  | set (q : UInt8) (name value : Str)

mutual
/-- A page, or the part of a page between two directives of a conditional. -/
inductive Doc where
  | text (t : Str)
  | item (t : Str) (i : Item) (rest : Doc)
  | cond (t : Str) (c : Cond) (body : Doc) (alt : Alt) (rest : Doc)
/-- What follows the first part of a conditional: `#endif`; `#else ... #endif`; `#elif ...`. -/
inductive Alt where
  | fin
  | els (body : Doc)
  | elif (c : Cond) (body : Doc) (alt : Alt)
end

/-! ### The file -/

/-- The character of a modifier. -/
def Mod.char : Mod → UInt8
  | .queryFirst => 126
  | .noQuery => 58
  | .noData => 63
  | .lax => 64
  | .required => 42
  | .negate => 33

/-- `${...}` -/
def Cond.render (c : Cond) : Str := 36 :: 123 :: c.mods.map Mod.char ++ c.name ++ [125]

/-- The text of an item, without `<!--#` and `-->`. -/
def Item.render : Item → Str
  | .inc false n => asc "include file=\"" ++ n ++ [34]
  | .inc true n => asc "include virtual=\"" ++ n ++ [34]
  | .echo q t => asc "echo " ++ q :: t ++ [q]
  | .echoVar q a n b => asc "echo " ++ q :: a ++ 36 :: 123 :: n ++ 125 :: b ++ [q]
  | .set q k v => asc "set " ++ k ++ 61 :: q :: v ++ [q]

def ifText (c : Cond) : Str := asc "if expr=\"" ++ c.render ++ [34]
def elifText (c : Cond) : Str := asc "elif expr=\"" ++ c.render ++ [34]

/-- `<!--#...-->` -/
def tag (d : Str) : Str := opening ++ d ++ closing

mutual
def Doc.render : Doc → Str
  | .text t => t
  | .item t i rest => t ++ (tag i.render ++ rest.render)
  | .cond t c body alt rest => t ++ (tag (ifText c) ++ (body.render ++ (alt.render ++ rest.render)))
def Alt.render : Alt → Str
  | .fin => tag (asc "endif")
  | .els body => tag (asc "else") ++ (body.render ++ tag (asc "endif"))
  | .elif c body alt => tag (elifText c) ++ (body.render ++ alt.render)
end

/-! ### The meaning -/

/-- What a name stands for.  Where it is looked for: in the data, then in the query; with `~` the other way
around; with `?` not in the data; with `:` (and without `~`) not in the query. -/
def Cond.value (query : Option (Str → Option Val)) (data : UD) (c : Cond) : Option Val :=
  let q := query.bind (· c.name)
  let d := data.bind (· c.name)
  let inData := if .noData ∈ c.mods then none else d
  if .queryFirst ∈ c.mods then q.or inData
  else if .noQuery ∈ c.mods then inData
  else inData.or q

/-- The truth of a condition; `none` when it has none: a name that is required and missing, or something that is
not a boolean (nor one of the texts for a boolean). -/
def Cond.holds (query : Option (Str → Option Val)) (data : UD) (c : Cond) : Option Bool :=
  let flip (b : Bool) : Bool := if .negate ∈ c.mods then !b else b
  match c.value query data with
  | none => if .required ∈ c.mods then none else some (flip false)
  | some (.bool b) => some (flip b)
  | some (.str s) => (getBool s).map flip
  | some .other => none

/-- One leading newline is dropped behind a directive. -/
def chunk (afterTag : Bool) (t : Str) : Str :=
  if afterTag && t.head? = some 10 then t.tail else t

/-- What an item writes and does to the data.  `none`: it has no meaning, or the claim does not cover it, which
is so for `#echo` and `#set` in a part that is left out. -/
def Item.act (key : Str) (include_ : Str → UD → Option (Str × UD)) (live : Bool) (data : UD) : Item → Option (Str × UD)
  | .inc _ n => if live then include_ n data else some ([], data)
  | .echo _ t => if live then some (t, data) else none
  | .echoVar _ a n b =>
    if !live then none
    else if n = asc "#" then some (a ++ 39 :: key ++ 39 :: b, data)
    else match data with
      | none => some (a ++ b, data)
      | some u => match u n with
        | some (.str s) => some (a ++ s ++ b, data)
        | _ => none
  | .set _ k v =>
    if !live then none
    else match data with
      | none => none
      | some u => some ([], some (fun x => if x = k then some (.str v) else u x))

mutual
/-- What a part of a page writes and does to the data; `live`: it is not left out; `afterTag`: it follows a
directive. -/
def Doc.mean (query : Option (Str → Option Val)) (key : Str) (inc : Str → UD → Option (Str × UD)) (afterTag live : Bool) (data : UD) :
    Doc → Option (Str × UD)
  | .text t => some (if live then chunk afterTag t else [], data)
  | .item t i rest => do
    let (o1, u1) ← i.act key inc live data
    let (o2, u2) ← rest.mean query key inc true live u1
    some ((if live then chunk afterTag t else []) ++ (o1 ++ o2), u2)
  | .cond t c body alt rest => do
    let b ← c.holds query data
    let (o1, u1) ← body.mean query key inc true (live && b) data
    let (o2, u2) ← alt.mean query key inc live b u1
    let (o3, u3) ← rest.mean query key inc true live u2
    some ((if live then chunk afterTag t else []) ++ (o1 ++ (o2 ++ o3)), u3)
/-- The same for the other parts of a conditional; `taken`: a part before was the one. -/
def Alt.mean (query : Option (Str → Option Val)) (key : Str) (inc : Str → UD → Option (Str × UD)) (live taken : Bool) (data : UD) :
    Alt → Option (Str × UD)
  | .fin => some ([], data)
  | .els body => body.mean query key inc true (live && !taken) data
  | .elif c body alt => do
    let b ← c.holds query data
    let (o1, u1) ← body.mean query key inc true (live && (!taken && b)) data
    let (o2, u2) ← alt.mean query key inc live (taken || b) u1
    some (o1 ++ o2, u2)
end

/-! ### Which pages -/

/-- `p` does not occur in `s`. -/
def Free (p s : Str) : Prop := ¬ ∃ a b, s = a ++ p ++ b

/-- The inside of a directive: no newline, no `-->`. -/
def Clean (d : Str) : Prop := 10 ∉ d ∧ Free closing d

def Cond.ok (c : Cond) : Prop := c.name.head?.any isalpha ∧ Clean (ifText c) ∧ Clean (elifText c)

def Item.ok : Item → Prop
  | .inc v n => n ≠ [] ∧ n.getLast? ≠ some 61 ∧ Clean (Item.inc v n).render
  | .echo q t => (q = 34 ∨ q = 39) ∧ Free [36, 123] t ∧ Clean (Item.echo q t).render
  | .echoVar q a n b => (q = 34 ∨ q = 39) ∧ Free [36, 123] a ∧ 125 ∉ n ∧ Clean (Item.echoVar q a n b).render
  | .set q k v => (q = 34 ∨ q = 39) ∧ k ≠ [] ∧ 61 ∉ k ∧ Clean (Item.set q k v).render

mutual
def Doc.ok : Doc → Prop
  | .text t => Free opening t
  | .item t i rest => Free opening t ∧ i.ok ∧ rest.ok
  | .cond t c body alt rest => Free opening t ∧ c.ok ∧ body.ok ∧ alt.ok ∧ rest.ok
def Alt.ok : Alt → Prop
  | .fin => True
  | .els body => body.ok
  | .elif c body alt => c.ok ∧ body.ok ∧ alt.ok
end

mutual
/-- How deep conditionals are nested. -/
def Doc.depth : Doc → Nat
  | .text _ => 0
  | .item _ _ rest => rest.depth
  | .cond _ _ body alt rest => max (max (1 + body.depth) (1 + alt.depth)) rest.depth
def Alt.depth : Alt → Nat
  | .fin => 0
  | .els body => body.depth
  | .elif _ body alt => max body.depth alt.depth
end

/-! ### A site -/

/-- The file that `name` means in the page `page`: in the directory of the page. -/
def sibling (root page name : Str) : Str := root ++ 47 :: dirOf (below root page) ++ 47 :: name

/-- A page of a site, with at most `n` pages below each other.  `site`: the pages; `file`: the other files;
`ssi`: the endings of pages. -/
def page (root : Str) (query : Option (Str → Option Val)) (key : Str) (site : Str → Option Doc) (file : Str → Option Str)
    (ssi : Str → Bool) : Nat → Str → UD → Option (Str × UD)
  | 0, _, _ => none
  | n+1, fn, data => do
    let doc ← site fn
    doc.mean query key (fun name u =>
      let f := sibling root fn name
      if (extOf f).any ssi then page root query key site file ssi n f u else (file f).map (·, u)) false true data

end Verif.Web
