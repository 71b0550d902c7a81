import Verif.Basic

/-!
Model of `Channel` objects (src/jsiFilesys.c:702-1012) on ordinary files, through `Jsi_Open` and the functions of stdio
(src/jsiFilesys.c:166-229, 432-618).

A `FILE` has the contents of its file and a position; nothing else writes the file meanwhile, writing does not fail, and
reading and writing may alternate as in glibc.  Not modelled: safe interpreters (C34), other file systems, compressed
files, standard channels, contents of two gigabytes and more.
-/

namespace Verif.Chan

abbrev Bytes := List UInt8

/-- `FILE`: contents, position, the end-of-file flag, and what the mode allows. -/
structure FILE where
  data : Bytes
  pos : Nat
  eof : Bool
  rd : Bool
  wr : Bool
  app : Bool
deriving DecidableEq, Repr

/-- The modes of fopen. -/
inductive Mode where
  | r | rp | w | wp | a | ap
deriving DecidableEq, Repr

/-- `fopen`: the new state of the file (none: there is no such file) and the stream. -/
def fopen (m : Mode) (disk : Option Bytes) : Option FILE :=
  match m, disk with
  | .r, none => none
  | .rp, none => none
  | .r, some d => some ⟨d, 0, false, true, false, false⟩
  | .rp, some d => some ⟨d, 0, false, true, true, false⟩
  | .w, _ => some ⟨[], 0, false, false, true, false⟩
  | .wp, _ => some ⟨[], 0, false, true, true, false⟩
  | .a, d => some ⟨d.getD [], (d.getD []).length, false, false, true, true⟩
  | .ap, d => some ⟨d.getD [], 0, false, true, true, true⟩

/-- `fread(buf, 1, n, fp)` -/
def fread (f : FILE) (n : Nat) : Bytes × FILE :=
  if f.rd then
    ((f.data.drop f.pos).take n,
      ⟨f.data, f.pos + ((f.data.drop f.pos).take n).length, f.eof || decide ((f.data.drop f.pos).length < n), f.rd, f.wr,
        f.app⟩)
  else ([], f)

/-- The bytes up to and with the first line feed. -/
def toLF : Bytes → Bytes
  | [] => []
  | c :: r => if c = 10 then [c] else c :: toLF r

/-- `fgets(s, n + 1, fp)` with `n > 0`; nothing at the end of the file. -/
def fgets (f : FILE) (n : Nat) : Option Bytes × FILE :=
  if f.rd then
    if f.data.drop f.pos = [] then (none, ⟨f.data, f.pos, true, f.rd, f.wr, f.app⟩)
    else
      (some (toLF ((f.data.drop f.pos).take n)),
        ⟨f.data, f.pos + (toLF ((f.data.drop f.pos).take n)).length,
          f.eof || decide ((f.data.drop f.pos).length < n ∧ toLF (f.data.drop f.pos) = f.data.drop f.pos ∧
            (f.data.drop f.pos).getLast? ≠ some 10), f.rd, f.wr, f.app⟩)
  else (none, f)

/-- The contents with `b` at position `p`; a gap is filled with NUL. -/
def patch (d : Bytes) (p : Nat) (b : Bytes) : Bytes :=
  (d ++ List.replicate (p - d.length) 0).take p ++ b ++ d.drop (p + b.length)

/-- `fwrite(b, 1, n, fp)`: the number of bytes written. -/
def fwrite (f : FILE) (b : Bytes) : Nat × FILE :=
  if f.wr then
    (b.length, ⟨patch f.data (if f.app then f.data.length else f.pos) b,
      (if f.app then f.data.length else f.pos) + b.length, f.eof, f.rd, f.wr, f.app⟩)
  else (0, f)

/-- The argument of seek. -/
inductive Whence where
  | set | cur | «end»
deriving DecidableEq, Repr

/-- Where `fseek` counts from. -/
def FILE.origin (f : FILE) : Whence → Nat
  | .set => 0
  | .cur => f.pos
  | .end => f.data.length

/-- `fseek`: 0, or -1 for a place before the beginning. -/
def fseek (f : FILE) (off : Int) (w : Whence) : Int × FILE :=
  if (f.origin w : Int) + off < 0 then (-1, f)
  else (0, ⟨f.data, ((f.origin w : Int) + off).toNat, false, f.rd, f.wr, f.app⟩)

/-- `ftruncate`: -1 if the file cannot be written. -/
def ftruncate (f : FILE) (n : Nat) : Int × FILE :=
  if f.wr then (0, ⟨f.data.take n ++ List.replicate (n - f.data.length) 0, f.pos, f.eof, f.rd, f.wr, f.app⟩) else (-1, f)

/-- What a call returns; `ub` is a use of memory that has been freed. -/
inductive Val where
  | undef
  | str (b : Bytes)
  | bool (b : Bool)
  | num (n : Int)
  | ub
deriving DecidableEq, Repr

/-- `FileObj`: open, or closed, with `chan`, `fname` and `mode` left as they were (src/jsiFilesys.c:702-711). -/
inductive Obj where
  | opened (f : FILE)
  | closed
deriving DecidableEq, Repr

/-- src/jsi.h:220 -/
def bufsiz : Nat := 8192
/-- src/jsiInt.h:248 -/
def maxLoop : Nat := 10000000

/-- src/jsiFilesys.c:850-860: the loop of `FilesysReadCmd`; `n` turns are left, `nsiz < 0` is "all", `sum` bytes have
been read. -/
def readLoop : Nat → Int → Nat → FILE → Bytes × FILE
  | 0, _, _, f => ([], f)
  | n + 1, nsiz, sum, f =>
    let rsiz := if 0 < nsiz ∧ nsiz < ((sum + bufsiz : Nat) : Int) then (nsiz - sum).toNat else bufsiz
    let q := fread f rsiz
    if q.1 = [] then ([], q.2)
    else if 0 ≤ nsiz ∧ nsiz ≤ ((sum + q.1.length : Nat) : Int) then (q.1, q.2)
    else (q.1 ++ (readLoop n nsiz (sum + q.1.length) q.2).1, (readLoop n nsiz (sum + q.1.length) q.2).2)

/-- src/jsiFilesys.c:834-869  `FilesysReadCmd`; without an argument the size is -1. -/
def read (o : Obj) (nsiz : Int) : Val × Obj :=
  match o with
  | .closed => (.undef, .closed)
  | .opened f =>
    (if (readLoop maxLoop nsiz 0 f).1 = [] then .undef else .str (readLoop maxLoop nsiz 0 f).1,
      .opened (readLoop maxLoop nsiz 0 f).2)

/-- What C sees of a string. -/
def cstr (s : Bytes) : Bytes := s.takeWhile (· ≠ 0)

/-- src/jsiFilesys.c:808-811: without the line feed at the end. -/
def chomp (s : Bytes) : Bytes := if s.getLast? = some 10 then s.dropLast else s

/-- src/jsiFilesys.c:793-813  `FilesysGetsCmd` -/
def gets (o : Obj) : Val × Obj :=
  match o with
  | .closed => (.undef, .closed)
  | .opened f =>
    match fgets f (bufsiz - 1) with
    | (none, f') => (.undef, .opened f')
    | (some l, f') => (.str (chomp (cstr l)), .opened f')

/-- src/jsiFilesys.c:951-969  `FilesysWriteCmd`: one turn of the loop writes all. -/
def write (o : Obj) (b : Bytes) : Val × Obj :=
  match o with
  | .closed => (.num 0, .closed)
  | .opened f => if b = [] then (.num 0, .opened f) else (.num (fwrite f b).1, .opened (fwrite f b).2)

/-- src/jsiFilesys.c:971-993  `FilesysPutsCmd`: fprintf with "%s\n". -/
def puts (o : Obj) (b : Bytes) : Val × Obj :=
  match o with
  | .closed => (.bool false, .closed)
  | .opened f =>
    if f.wr then (.bool true, .opened (fwrite f (cstr b ++ [10])).2) else (.bool false, .opened f)

/-- src/jsiFilesys.c:872-896  `FilesysSeekCmd`: `udf->filename` is not looked at. -/
def seek (o : Obj) (off : Int) (w : Whence) : Val × Obj :=
  match o with
  | .closed => (.ub, .closed)
  | .opened f => (.num (fseek f off w).1, .opened (fseek f off w).2)

/-- src/jsiFilesys.c:933-940  `FilesysTellCmd` -/
def tell (o : Obj) : Val × Obj :=
  match o with
  | .closed => (.ub, .closed)
  | .opened f => (.num f.pos, .opened f)

/-- src/jsiFilesys.c:995-1001  `FilesysEofCmd` -/
def eof (o : Obj) : Val × Obj :=
  match o with
  | .closed => (.ub, .closed)
  | .opened f => (.bool f.eof, .opened f)

/-- src/jsiFilesys.c:898-909  `FilesysTruncateCmd` -/
def truncate (o : Obj) (n : Nat) : Val × Obj :=
  match o with
  | .closed => (.ub, .closed)
  | .opened f => (.num (ftruncate f n).1, .opened (ftruncate f n).2)

/-- src/jsiFilesys.c:942-949  `FilesysFlushCmd` -/
def flush (o : Obj) : Val × Obj :=
  match o with
  | .closed => (.ub, .closed)
  | .opened f => (.num 0, .opened f)

/-- src/jsiFilesys.c:702-711, 784-791  `FilesysCloseCmd` -/
def close (_ : Obj) : Val × Obj := (.bool true, .closed)

/-- src/jsiFilesys.c:735-782  `FilesysOpenCmd`: the object is closed first; the result is true in any case. -/
def reopen (_ : Obj) (m : Mode) (disk : Option Bytes) : Val × Obj :=
  match fopen m disk with
  | none => (.bool true, .closed)
  | some f => (.bool true, .opened f)

/-- src/jsiFilesys.c:1080-1105  `new Channel(file, mode)`: an error if the file cannot be opened. -/
def new (m : Mode) (disk : Option Bytes) : Option Obj := (fopen m disk).map .opened

end Verif.Chan
