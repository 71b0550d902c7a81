import Verif.Basic
/-!
# Vfs: the mount of a path (C214) and the files of it (C215)

`VfsLookupMount`, `jsi_VfsSeek`, `Jav_FSReadProc`, `Jav_FSGetcProc`, `Jav_FSUngetcProc`, `Jav_FSGetsProc` (src/jsiVfs.c 50-68, 101-129, 337-390).
Paths are normal and without NUL; numbers do not overflow an `int`.
-/
namespace Verif.Vfs

abbrev Path := List UInt8

/-- The mount `m` is the path or the path goes on with `/` behind it.  src/jsiVfs.c:58-59. -/
def under (m p : Path) : Bool := m.isPrefixOf p && (match p.drop m.length with | [] => true | c :: _ => c == 47)

/-- The body of the loop: the match so far and the next mount.  src/jsiVfs.c:59-62. -/
def better (p : Path) (best : Option Path) (m : Path) : Option Path :=
  if under m p then
    match best with
    | none => some m
    | some b => if m.length < b.length then some m else some b
  else best

/-- `VfsLookupMount`, for the mounts in the order of the table.  src/jsiVfs.c:50-68. -/
def lookup (ms : List Path) (p : Path) : Option Path := ms.foldl (better p) none

/-! ## A file that is open -/

/-- The file's data, the `size` it was listed with, and `resInt[0]`. -/
structure Ch where
  data : List UInt8
  size : Int
  pos : Int

/-- src/jsiVfs.c:126-127. -/
def clamp (size p : Int) : Int := if p < 0 then 0 else if p > size then size else p

/-- `fgets` on the bytes from the position, at most `n` of them; `none`: a byte behind the data and its NUL is read.  src/jsiVfs.c:377-385. -/
def getLine : Nat → List UInt8 → Option (List UInt8)
  | 0, _ => some []
  | _ + 1, [] => none
  | n + 1, c :: l => if c = 10 then some [c] else (getLine n l).map (c :: ·)

inductive Op where
  | read (n : Nat)
  | gets (n : Nat)
  | getc
  | ungetc (c : UInt8)
  | seekSet (o : Int)
  | seekCur (o : Int)
  | seekEnd (o : Int)

/-- What `Jav_FSReadProc` takes.  src/jsiVfs.c:339-343. -/
def count (f : Ch) (n : Nat) : Int := if (n : Int) ≤ f.size - f.pos then n else f.size - f.pos

/-- An operation: the channel after it and the bytes it gave; `none`: memory outside the data is read.  At the end `getc` gives a NUL, which is left
out here.  src/jsiVfs.c:101-129, 337-390. -/
def op (f : Ch) : Op → Option (Ch × List UInt8)
  | .read n =>
    if 0 < count f n ∧ (f.data.length : Int) + 1 < f.pos + count f n then none
    else some ({ f with pos := f.pos + count f n }, ((f.data ++ [0]).drop f.pos.toNat).take (count f n).toNat)
  | .gets n =>
    match getLine (min (n - 1) (f.size - f.pos).toNat) ((f.data ++ [0]).drop f.pos.toNat) with
    | none => none
    | some l => some ({ f with pos := f.pos + l.length }, l)
  | .getc =>
    if f.size ≤ f.pos then some (f, [])
    else match (f.data ++ [0])[f.pos.toNat]? with
      | none => none
      | some c => some ({ f with pos := f.pos + 1 }, [c])
  | .ungetc c =>
    if f.pos ≤ 0 then some (f, [])
    else match (f.data ++ [0])[(f.pos - 1).toNat]? with
      | none => none
      | some d => if d = c then some ({ f with pos := f.pos - 1 }, []) else some (f, [])
  | .seekSet o => some ({ f with pos := clamp f.size o }, [])
  | .seekCur o => some ({ f with pos := clamp f.size (f.pos - o) }, [])
  | .seekEnd o => some ({ f with pos := clamp f.size (f.size - o) }, [])

/-- Operations one after another: what each gave. -/
def ops (f : Ch) : List Op → Option (Ch × List (List UInt8))
  | [] => some (f, [])
  | o :: os =>
    match op f o with
    | none => none
    | some (f, l) =>
      match ops f os with
      | none => none
      | some (f, ls) => some (f, l :: ls)

end Verif.Vfs
