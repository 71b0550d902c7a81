import Verif.Basic

/-!
`File.copy`, `File.write` and `File.read`: src/jsiFileCmds.c:425-493, 520-580, on a disk of named files.

A name stands for one place; two names can refer to the same file (hard links).  Symbolic links, the special
names "stdin", "stdout", "stderr" (src/jsiFilesys.c:446-448), compressed files and the open mode argument are
left out; the check of safe interpreters is property C34.  What the system and the C library decide is in `Io`.
-/

namespace Verif.File.Copy

/-- A path as the script gives it. -/
abbrev Name := List UInt8

/-- The disk: names refer to files, files have contents and permissions; `next` is the number the next new
file gets. -/
structure Disk where
  ent : Name → Option Nat
  data : Nat → List UInt8
  mode : Nat → Nat
  next : Nat

/-- What the system decides. -/
structure Io where
  canRemove : Name → Bool
  canRead : Name → Bool
  canWrite : Name → Bool
  /-- bytes the `n`-th `fread` delivers when so many are asked for and there (0: an error) -/
  rd : Nat → Nat → Nat
  /-- bytes the `n`-th `fwrite` accepts -/
  wr : Nat → Nat → Nat
  /-- of so many accepted bytes, those that reach the disk by `fclose` -/
  kept : Nat → Nat
  /-- permissions of new files -/
  newMode : Nat

/-- Nothing goes wrong. -/
structure Io.Good (io : Io) : Prop where
  rd : ∀ i n, io.rd i n = n
  wr : ∀ i n, io.wr i n = n
  kept : ∀ n, io.kept n = n

def Disk.setEnt (d : Disk) (n : Name) (v : Option Nat) : Disk :=
  { d with ent := fun m => if m = n then v else d.ent m }

def Disk.setData (d : Disk) (i : Nat) (v : List UInt8) : Disk :=
  { d with data := fun k => if k = i then v else d.data k }

def Disk.setMode (d : Disk) (i : Nat) (v : Nat) : Disk :=
  { d with mode := fun k => if k = i then v else d.mode k }

/-- `JSI_BUFSIZ`, src/jsi.h:220. -/
def bufSize : Nat := 8192

/-- `MAX_LOOP_COUNT`, src/jsiInt.h:248. -/
def maxLoop : Nat := 10000000

/-- `fopen(name, "wb+")`: the file is emptied, or made. -/
def openW (io : Io) (d : Disk) (n : Name) : Option (Disk × Nat) :=
  if io.canWrite n then
    match d.ent n with
    | some j => some (d.setData j [], j)
    | none => some ({ ((d.setEnt n (some d.next)).setData d.next []).setMode d.next io.newMode with next := d.next + 1 },
        d.next)
  else none

/-- One `Jsi_Read` of at most `bufSize` bytes from what is left: src/jsiFilesys.c:178-180. -/
def chunk (io : Io) (i : Nat) (rest : List UInt8) : List UInt8 :=
  rest.take (min (io.rd i (min bufSize rest.length)) (min bufSize rest.length))

/-- src/jsiFileCmds.c:533-544: the copy loop; `fuel` above the length of the rest is enough.  Answer: the bytes
accepted for the destination, and whether the loop ended without a write error. -/
def copyLoop (io : Io) : Nat → Nat → List UInt8 → List UInt8 → List UInt8 × Bool
  | 0, _, _, acc => (acc, true)
  | fuel + 1, i, rest, acc =>
    let b := chunk io i rest
    if b = [] then (acc, true)
    else if io.wr i b.length = b.length then copyLoop io fuel (i + 1) (rest.drop b.length) (acc ++ b)
    else (acc ++ b.take (io.wr i b.length), false)

/-- src/jsiFileCmds.c:526-528: with `force` an existing destination is removed; the result is not looked at. -/
def dropDest (io : Io) (d : Disk) (dest : Name) (force : Bool) : Disk :=
  if force && (d.ent dest).isSome && io.canRemove dest then d.setEnt dest none else d

/-- src/jsiFileCmds.c:546-549: `Jsi_Stat(src)`, `Jsi_Chmod(dest)`; `j` is the file of `dest`. -/
def copyMode (d : Disk) (src : Name) (j : Nat) : Disk :=
  match d.ent src with
  | some i => d.setMode j (d.mode i)
  | none => d

/-- `FileCopy`, src/jsiFileCmds.c:520-554.  The source is read through the handle opened first, whatever
happens to its name. -/
def fileCopy (io : Io) (d : Disk) (src dest : Name) (force : Bool) : Disk × Bool :=
  match d.ent src with
  | none => (d, false)
  | some i =>
    if io.canRead src = false then (d, false)
    else
      match openW io (dropDest io d dest force) dest with
      | none => (dropDest io d dest force, false)
      | some (d2, j) =>
        let r := copyLoop io ((d2.data i).length + 1) 0 (d2.data i) []
        let d3 := d2.setData j (r.1.take (io.kept r.1.length))
        if r.2 then (copyMode d3 src j, true) else (d3, false)

/-- `FileCopyCmd`, src/jsiFileCmds.c:560-580: the disk afterwards, and whether the call returned without
error. -/
def copy (io : Io) (d : Disk) (src dest : Name) (force : Bool) : Disk × Bool :=
  if force = false ∧ (d.ent dest).isSome then (d, false) else fileCopy io d src dest force

/-- src/jsiFileCmds.c:484-488: the write loop; answer: the number of bytes accepted. -/
def writeLoop (io : Io) : Nat → Nat → Nat → Nat → Nat
  | 0, _, _, sum => sum
  | fuel + 1, i, len, sum =>
    if len = 0 then sum
    else if min (io.wr i len) len = 0 then sum
    else writeLoop io fuel (i + 1) (len - min (io.wr i len) len) (sum + min (io.wr i len) len)

/-- `FileWriteCmd`, src/jsiFileCmds.c:464-493: the disk afterwards and the number returned (`none`: an error). -/
def write (io : Io) (d : Disk) (n : Name) (bytes : List UInt8) : Disk × Option Nat :=
  match openW io d n with
  | none => (d, none)
  | some (d2, j) =>
    let s := writeLoop io maxLoop 0 bytes.length 0
    (d2.setData j (bytes.take (io.kept s)), some s)

/-- src/jsiFileCmds.c:454-457: the read loop. -/
def readLoop (io : Io) : Nat → Nat → List UInt8 → List UInt8 → List UInt8
  | 0, _, _, acc => acc
  | fuel + 1, i, rest, acc =>
    if chunk io i rest = [] then acc
    else readLoop io fuel (i + 1) (rest.drop (chunk io i rest).length) (acc ++ chunk io i rest)

/-- `FileReadCmd`, src/jsiFileCmds.c:441-461 (`none`: an error). -/
def read (io : Io) (d : Disk) (n : Name) : Option (List UInt8) :=
  match d.ent n with
  | none => none
  | some i => if io.canRead n then some (readLoop io maxLoop 0 (d.data i) []) else none

/-! ### Lemmas -/

theorem chunk_good {io : Io} (h : io.Good) (i : Nat) (rest : List UInt8) :
    chunk io i rest = rest.take bufSize := by
  unfold chunk
  rw [h.rd, Nat.min_self]
  by_cases h1 : bufSize ≤ rest.length
  · rw [Nat.min_eq_left h1]
  · rw [Nat.min_eq_right (by omega), List.take_length, List.take_of_length_le (by omega)]

theorem copyLoop_good {io : Io} (h : io.Good) : ∀ (fuel i : Nat) (rest acc : List UInt8), rest.length < fuel →
    copyLoop io fuel i rest acc = (acc ++ rest, true) := by
  intro fuel
  induction fuel with
  | zero => intro i rest acc hl; omega
  | succ fuel ih =>
    intro i rest acc hl
    unfold copyLoop
    simp only [chunk_good h]
    have hb : bufSize = 8192 := rfl
    by_cases h0 : rest = []
    · subst h0; simp
    · have hpos := List.length_pos_iff.2 h0
      rw [if_neg (by
        intro e
        have := congrArg List.length e
        simp only [List.length_take, List.length_nil] at this
        omega), if_pos (h.wr _ _)]
      rw [ih _ _ _ (by simp only [List.length_drop, List.length_take]; omega)]
      have : rest.drop (rest.take bufSize).length = rest.drop bufSize := by
        rw [List.length_take]
        by_cases h1 : bufSize ≤ rest.length
        · rw [Nat.min_eq_left h1]
        · rw [Nat.min_eq_right (by omega), List.drop_length, List.drop_of_length_le (by omega)]
      rw [this, List.append_assoc, List.take_append_drop]

theorem readLoop_good {io : Io} (h : io.Good) : ∀ (fuel i : Nat) (rest acc : List UInt8),
    rest.length ≤ fuel * bufSize → readLoop io fuel i rest acc = acc ++ rest := by
  have hb : bufSize = 8192 := rfl
  intro fuel
  induction fuel with
  | zero =>
    intro i rest acc hl
    have : rest = [] := List.length_eq_zero_iff.1 (by omega)
    subst this
    simp [readLoop]
  | succ fuel ih =>
    intro i rest acc hl
    unfold readLoop
    simp only [chunk_good h]
    by_cases h0 : rest = []
    · subst h0; simp
    · have hpos := List.length_pos_iff.2 h0
      rw [if_neg (by
        intro e
        have := congrArg List.length e
        simp only [List.length_take, List.length_nil] at this
        omega)]
      rw [ih _ _ _ (by
        simp only [List.length_drop, List.length_take]
        rw [Nat.succ_mul] at hl
        omega)]
      have : rest.drop (rest.take bufSize).length = rest.drop bufSize := by
        rw [List.length_take]
        by_cases h1 : bufSize ≤ rest.length
        · rw [Nat.min_eq_left h1]
        · rw [Nat.min_eq_right (by omega), List.drop_length, List.drop_of_length_le (by omega)]
      rw [this, List.append_assoc, List.take_append_drop]

theorem writeLoop_le (io : Io) : ∀ (fuel i len sum : Nat), writeLoop io fuel i len sum ≤ sum + len := by
  intro fuel
  induction fuel with
  | zero => intro i len sum; simp [writeLoop]
  | succ fuel ih =>
    intro i len sum
    unfold writeLoop
    split
    · omega
    split
    · omega
    · have := ih (i + 1) (len - min (io.wr i len) len) (sum + min (io.wr i len) len)
      omega

theorem writeLoop_good {io : Io} (h : ∀ i n, io.wr i n = n) (fuel i len : Nat) : writeLoop io (fuel + 2) i len 0 = len := by
  unfold writeLoop
  by_cases h0 : len = 0
  · rw [if_pos h0, h0]
  · rw [if_neg h0, h, Nat.min_self, if_neg h0]
    unfold writeLoop
    simp

/-- The names of the disk refer to files made before. -/
def Disk.Ok (d : Disk) : Prop := ∀ n i, d.ent n = some i → i < d.next

/-! ### C109 -/

/-- A copy that is allowed and meets no fault: the destination refers to a new file with the contents the source
had (of any length); no other name and no other file is touched, so that a file of which the destination was a
second name keeps its contents; and the permissions are those of the source, if the two names differ. -/
theorem C109_copies_partial (io : Io) (d : Disk) (hd : d.Ok) (hio : io.Good) (src dest : Name) (force : Bool) (i : Nat)
    (hs : d.ent src = some i) (hr : io.canRead src = true) (hw : io.canWrite dest = true)
    (hm : io.canRemove dest = true) (hf : force = true ∨ d.ent dest = none) :
    (copy io d src dest force).2 = true ∧
    ∃ j, (∀ n, d.ent n ≠ some j) ∧ (copy io d src dest force).1.ent dest = some j ∧
      (copy io d src dest force).1.data j = d.data i ∧
      (src ≠ dest → (copy io d src dest force).1.mode j = d.mode i) ∧
      (∀ n, n ≠ dest → (copy io d src dest force).1.ent n = d.ent n) ∧
      ∀ k, k ≠ j → (copy io d src dest force).1.data k = d.data k := by
  have hi := hd _ _ hs
  have h1 : ¬ (force = false ∧ (d.ent dest).isSome) := by
    rintro ⟨a, b⟩
    rcases hf with h | h
    · rw [h] at a; cases a
    · rw [h] at b; cases b
  have hdrop : (dropDest io d dest force).ent dest = none ∧ (∀ n, n ≠ dest → (dropDest io d dest force).ent n = d.ent n) ∧
      (dropDest io d dest force).data = d.data ∧ (dropDest io d dest force).mode = d.mode ∧
      (dropDest io d dest force).next = d.next := by
    unfold dropDest
    rw [hm]
    cases hx : d.ent dest with
    | none =>
      simp only [Option.isSome_none, Bool.and_false, Bool.false_and, Bool.false_eq_true, if_false]
      exact ⟨hx, by simp, trivial, trivial, trivial⟩
    | some j =>
      have : force = true := by
        rcases hf with h | h
        · exact h
        · rw [hx] at h; cases h
      subst this
      simp only [Option.isSome_some, Bool.and_self, if_true]
      exact ⟨by simp [Disk.setEnt], fun n hn => by simp [Disk.setEnt, hn], rfl, rfl, rfl⟩
  obtain ⟨e1, e2, e3, e4, e5⟩ := hdrop
  have hin : i ≠ d.next := by omega
  unfold copy
  rw [if_neg h1]
  unfold fileCopy
  rw [hs]
  simp only []
  rw [if_neg (by rw [hr]; simp)]
  generalize hg : dropDest io d dest force = g at e1 e2 e3 e4 e5 ⊢
  unfold openW
  rw [hw, e1]
  simp only [if_true, e5]
  have hdi : ({ ((g.setEnt dest (some d.next)).setData d.next []).setMode d.next io.newMode with
      next := d.next + 1 } : Disk).data i = d.data i := by
    simp [Disk.setData, Disk.setMode, Disk.setEnt, hin, e3]
  simp only [hdi, copyLoop_good hio _ _ _ _ (Nat.lt_succ_self _), List.nil_append, hio.kept, List.take_length, if_true]
  refine ⟨trivial, d.next, ?_, ?_⟩
  · intro n e
    have := hd n _ e
    omega
  · unfold copyMode
    by_cases hsd : src = dest
    · subst hsd
      refine ⟨?_, ?_, fun h => absurd rfl h, ?_, ?_⟩
      · simp [Disk.setData, Disk.setMode, Disk.setEnt]
      · simp [Disk.setData, Disk.setMode, Disk.setEnt, hin, e3]
      · intro n hn
        simp [Disk.setData, Disk.setMode, Disk.setEnt, hn, e2 n hn]
      · intro k hk
        simp [Disk.setData, Disk.setMode, Disk.setEnt, hk, e3]
    · have hse : g.ent src = some i := by rw [e2 src hsd]; exact hs
      refine ⟨?_, ?_, fun _ => ?_, ?_, ?_⟩
      · simp [Disk.setData, Disk.setMode, Disk.setEnt, hsd, hse]
      · simp [Disk.setData, Disk.setMode, Disk.setEnt, hsd, hse, hin, e3]
      · simp [Disk.setData, Disk.setMode, Disk.setEnt, hsd, hse, hin, e4]
      · intro n hn
        simp [Disk.setData, Disk.setMode, Disk.setEnt, hsd, hse, hn, e2 n hn]
      · intro k hk
        simp [Disk.setData, Disk.setMode, Disk.setEnt, hsd, hse, hk, e3]

/-- Without `force` an existing destination is left alone, and without a readable source nothing happens: the
call fails and the disk is as before. -/
theorem C109_refuses (io : Io) (d : Disk) (src dest : Name) (force : Bool)
    (h : (force = false ∧ d.ent dest ≠ none) ∨ d.ent src = none ∨ io.canRead src = false) :
    copy io d src dest force = (d, false) := by
  unfold copy
  split
  · rfl
  rename_i h1
  unfold fileCopy
  rcases h with ⟨h, h'⟩ | h | h
  · exact absurd ⟨h, Option.isSome_iff_ne_none.2 h'⟩ h1
  · rw [h]
  · cases d.ent src with
    | none => rfl
    | some i => simp [h]

/-! ### C110 -/

/-- What is written is read again, byte for byte, whatever bytes they are and however many (a string has fewer
than 2^31). -/
theorem C110_round_trip_partial (io : Io) (hio : io.Good) (d : Disk) (n : Name) (bytes : List UInt8)
    (hr : io.canRead n = true) (hw : io.canWrite n = true) (hlen : bytes.length < 2 ^ 31) :
    (write io d n bytes).2 = some bytes.length ∧ read io (write io d n bytes).1 n = some bytes := by
  have hs : writeLoop io maxLoop 0 bytes.length 0 = bytes.length := writeLoop_good hio.wr 9999998 0 _
  have hrl : ∀ x : List UInt8, x = bytes → readLoop io maxLoop 0 x [] = bytes := by
    rintro x rfl
    rw [readLoop_good hio _ _ _ _ (by unfold maxLoop bufSize; omega)]
    rfl
  unfold write openW
  rw [hw]
  cases he : d.ent n with
  | some j =>
    simp only [if_true, hs, hio.kept, List.take_length]
    refine ⟨trivial, ?_⟩
    unfold read
    have : ((d.setData j []).setData j bytes).ent n = some j := he
    rw [this]
    simp only [hr, if_true]
    rw [hrl _ (by simp [Disk.setData])]
  | none =>
    simp only [if_true, hs, hio.kept, List.take_length]
    refine ⟨trivial, ?_⟩
    unfold read
    simp only [Disk.setData, Disk.setMode, Disk.setEnt, if_true, hr]
    rw [hrl _ rfl]

/-- Whatever the `fwrite`s accept: the number `File.write` returns is the number of bytes the file then holds,
the first ones of the text, provided the file can be closed without loss; no other file is touched. -/
theorem C110_returned_number_partial (io : Io) (d : Disk) (hd : d.Ok) (n : Name) (bytes : List UInt8) (s : Nat)
    (hk : ∀ m, io.kept m = m) (h : (write io d n bytes).2 = some s) :
    s ≤ bytes.length ∧ ∃ j, (write io d n bytes).1.ent n = some j ∧ (write io d n bytes).1.data j = bytes.take s ∧
      (bytes.take s).length = s ∧
      (∀ m, m ≠ n → (write io d n bytes).1.ent m = d.ent m) ∧
      ∀ m k, d.ent m = some k → d.ent n ≠ some k → (write io d n bytes).1.data k = d.data k := by
  have hle := writeLoop_le io maxLoop 0 bytes.length 0
  unfold write at h ⊢
  cases ho : openW io d n with
  | none => rw [ho] at h; cases h
  | some x =>
    obtain ⟨d2, j⟩ := x
    rw [ho] at h
    simp only [Option.some.injEq] at h
    simp only []
    rw [h] at hle ⊢
    rw [hk]
    refine ⟨by omega, j, ?_⟩
    unfold openW at ho
    split at ho
    · cases he : d.ent n with
      | some i =>
        rw [he] at ho
        simp only [Option.some.injEq, Prod.mk.injEq] at ho
        obtain ⟨rfl, rfl⟩ := ho
        refine ⟨he, by simp [Disk.setData], by rw [List.length_take]; omega, fun m _ => rfl, ?_⟩
        intro m k hm hne
        have : k ≠ i := by rintro rfl; exact hne rfl
        simp [Disk.setData, this]
      | none =>
        rw [he] at ho
        simp only [Option.some.injEq, Prod.mk.injEq] at ho
        obtain ⟨rfl, rfl⟩ := ho
        refine ⟨by simp [Disk.setData, Disk.setMode, Disk.setEnt], by simp [Disk.setData], by rw [List.length_take]; omega,
          fun m hm => by simp [Disk.setData, Disk.setMode, Disk.setEnt, hm], ?_⟩
        intro m k hm _
        have := hd m k hm
        have : k ≠ d.next := by omega
        simp [Disk.setData, Disk.setMode, Disk.setEnt, this]
    · cases ho

/-! ### Concrete disks -/

/-- Files 1 ("a", also called "b") and 2 ("c"). -/
def demo : Disk where
  ent := fun n => if n = asc "a" ∨ n = asc "b" then some 1 else if n = asc "c" then some 2 else none
  data := fun i => if i = 1 then asc "one" else if i = 2 then asc "two" else []
  mode := fun i => if i = 1 then 0o600 else 0o644
  next := 3

/-- Nothing goes wrong. -/
def fine : Io := ⟨fun _ => true, fun _ => true, fun _ => true, fun _ n => n, fun _ n => n, fun n => n, 0o644⟩

theorem fine_good : fine.Good := ⟨fun _ _ => rfl, fun _ _ => rfl, fun _ => rfl⟩

theorem demo_ok : demo.Ok := by
  intro n i h
  simp only [demo] at h ⊢
  split at h
  · cases h; omega
  split at h
  · cases h; omega
  · cases h

/-- The hypotheses of `C109_copies_partial` are met, with a destination that exists, even one that is a second
name of the source. -/
example : (copy fine demo (asc "a") (asc "b") true).2 = true ∧ read fine (copy fine demo (asc "a") (asc "b") true).1 (asc "b") =
    some (asc "one") := by
  obtain ⟨h1, j, -, h2, h3, -⟩ := C109_copies_partial fine demo demo_ok fine_good (asc "a") (asc "b") true 1
    (by decide +kernel) rfl rfl rfl (.inl rfl)
  refine ⟨h1, ?_⟩
  unfold read
  rw [h2]
  simp only [show fine.canRead (asc "b") = true from rfl, if_true, h3]
  rw [readLoop_good fine_good _ _ _ _ (by decide +kernel)]
  rfl

/-- A copy with `force` onto a second name of the source, in a directory where nothing may be removed: the file
is emptied before it is read, the contents are lost, and the call reports success. -/
theorem C109_alias_refuted :
    let io := { fine with canRemove := fun _ => false }
    io.Good ∧ (copy io demo (asc "a") (asc "b") true).2 = true ∧
      demo.ent (asc "a") = some 1 ∧ (copy io demo (asc "a") (asc "b") true).1.ent (asc "a") = some 1 ∧
      demo.data 1 = asc "one" ∧ (copy io demo (asc "a") (asc "b") true).1.data 1 = [] := by
  refine ⟨⟨fun _ _ => rfl, fun _ _ => rfl, fun _ => rfl⟩, ?_⟩
  decide +kernel

/-- A read error is taken for the end of the file, and an error when the file is closed is not looked at: the
copy is short and the call reports success.  (So is the copy of a directory: an empty file.) -/
theorem C109_fault_refuted :
    let io1 := { fine with rd := fun _ _ => 0 }
    let io2 := { fine with kept := fun _ => 1 }
    (copy io1 demo (asc "a") (asc "new") false).2 = true ∧ (copy io1 demo (asc "a") (asc "new") false).1.data 3 = [] ∧
    (copy io2 demo (asc "a") (asc "new") false).2 = true ∧ (copy io2 demo (asc "a") (asc "new") false).1.data 3 = asc "o" := by
  decide +kernel

/-- A copy with `force` that fails has already removed the old destination. -/
theorem C109_failure_refuted :
    let io := { fine with canWrite := fun _ => false }
    (copy io demo (asc "a") (asc "c") true).2 = false ∧ demo.ent (asc "c") = some 2 ∧
      (copy io demo (asc "a") (asc "c") true).1.ent (asc "c") = none := by
  decide +kernel

/-- Copied onto itself with `force` a file keeps its contents but loses its permissions. -/
theorem C109_self_refuted :
    (copy fine demo (asc "a") (asc "a") true).1.ent (asc "a") = some 3 ∧ demo.mode 1 = 0o600 ∧
      (copy fine demo (asc "a") (asc "a") true).1.mode 3 = 0o644 ∧
      (copy fine demo (asc "a") (asc "a") true).1.data 3 = asc "one" := by
  decide +kernel

/-- `File.write` does not look at the result of closing the file: the number it returns can be too great. -/
theorem C110_close_refuted :
    let io := { fine with kept := fun _ => 0 }
    (write io demo (asc "c") (asc "text")).2 = some 4 ∧ (write io demo (asc "c") (asc "text")).1.data 2 = [] := by
  have : writeLoop { fine with kept := fun _ => 0 } maxLoop 0 4 0 = 4 :=
    writeLoop_good (io := { fine with kept := fun _ => 0 }) (fun _ _ => rfl) 9999998 0 4
  simp only []
  unfold write
  have h4 : (asc "text").length = 4 := by decide +kernel
  have ho : openW { fine with kept := fun _ => 0 } demo (asc "c") = some (demo.setData 2 [], 2) := by
    unfold openW
    have : demo.ent (asc "c") = some 2 := by decide +kernel
    rw [this]
    rfl
  rw [ho, h4, this]
  exact ⟨rfl, by simp [Disk.setData]⟩

/-- The hypotheses of `C110_round_trip_partial` are met, with bytes of all kinds. -/
example : read fine (write fine demo (asc "c") [0, 255, 10, 13, 0]).1 (asc "c") = some [0, 255, 10, 13, 0] :=
  (C110_round_trip_partial fine fine_good demo (asc "c") [0, 255, 10, 13, 0] rfl rfl (by decide)).2

end Verif.File.Copy
