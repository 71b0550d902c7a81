import Verif.Chan.Gets

/-! C152-C156: writing, closed channels, open, positions, modes. -/

namespace Verif.Chan

/-- Specification: the contents `d'` are `d` with `b` in place of the bytes from `p` on; a gap is filled with NUL. -/
def Over (d : Bytes) (p : Nat) (b : Bytes) (d' : Bytes) : Prop :=
  d'.length = max d.length (p + b.length) ∧
  ∀ i : Nat, i < d'.length → d'[i]? =
    if p ≤ i ∧ i < p + b.length then b[i - p]? else if i < d.length then d[i]? else some 0

theorem patch_len (d : Bytes) (p : Nat) (b : Bytes) : (patch d p b).length = max d.length (p + b.length) := by
  simp [patch]; omega

theorem pad_len (d : Bytes) (p : Nat) : ((d ++ List.replicate (p - d.length) (0 : UInt8)).take p).length = p := by
  simp; omega

theorem patch_over (d : Bytes) (p : Nat) (b : Bytes) : Over d p b (patch d p b) := by
  refine ⟨patch_len d p b, ?_⟩
  intro i hi
  rw [patch_len] at hi
  have hp := pad_len d p
  unfold patch
  by_cases h1 : i < p
  · rw [if_neg (by omega), List.append_assoc, List.getElem?_append_left (by omega), List.getElem?_take_of_lt h1]
    split
    · rename_i h2
      rw [List.getElem?_append_left h2]
    · rename_i h2
      rw [List.getElem?_append_right (by omega), List.getElem?_replicate]
      rw [if_pos (by omega)]
  · by_cases h2 : i < p + b.length
    · rw [if_pos ⟨by omega, h2⟩, List.getElem?_append_left (by rw [List.length_append]; omega),
        List.getElem?_append_right (by omega), hp]
    · rw [if_neg (by omega), if_pos (by omega), List.getElem?_append_right (by rw [List.length_append]; omega),
        List.getElem?_drop, List.length_append, hp]
      congr 1; omega

/-- The contents are determined. -/
theorem over_unique {d b x y : Bytes} {p : Nat} (hx : Over d p b x) (hy : Over d p b y) : x = y := by
  apply List.ext_getElem?
  intro i
  by_cases h : i < x.length
  · rw [hx.2 i h, hy.2 i (by rw [hy.1, ← hx.1]; exact h)]
  · rw [List.getElem?_eq_none (by omega), List.getElem?_eq_none (by rw [hy.1, ← hx.1]; omega)]

/-- **C152** `write` puts its argument at the position, leaves the rest of the file, returns the number of bytes, and
the position moves behind them. -/
theorem C152_write (d : Bytes) (p : Nat) (e r : Bool) (b : Bytes) (hb : b ≠ []) :
    ∃ d', Over d p b d' ∧
      write (.opened ⟨d, p, e, r, true, false⟩) b = (.num b.length, .opened ⟨d', p + b.length, e, r, true, false⟩) :=
  ⟨_, patch_over d p b, by simp [write, hb, fwrite]⟩

example : write (.opened ⟨asc "hello", 1, false, true, true, false⟩) (asc "EL") =
    (.num 2, .opened ⟨asc "hELlo", 3, false, true, true, false⟩) := by decide

/-- **C152** A channel opened with mode "a" writes to the end of the file, wherever the position is. -/
theorem C152_append (d : Bytes) (p : Nat) (e r : Bool) (b : Bytes) (hb : b ≠ []) :
    write (.opened ⟨d, p, e, r, true, true⟩) b =
      (.num b.length, .opened ⟨d ++ b, d.length + b.length, e, r, true, true⟩) := by
  simp only [write, hb, if_false, fwrite, if_true]
  congr 2
  simp [patch]

/-- **C152** What was written is read back. -/
theorem C152_read_back (d : Bytes) (p : Nat) (e : Bool) (b : Bytes) (hb : b ≠ []) (hl : b.length < 2 ^ 31) :
    (read (seek (write (.opened ⟨d, p, e, true, true, false⟩) b).2 p .set).2 b.length).1 = .str b := by
  have hb0 : 0 < b.length := by cases b with
    | nil => exact absurd rfl hb
    | cons => simp
  have h1 : (write (.opened ⟨d, p, e, true, true, false⟩) b).2
      = .opened ⟨patch d p b, p + b.length, e, true, true, false⟩ := by simp [write, hb, fwrite]
  have h2 : (seek (.opened ⟨patch d p b, p + b.length, e, true, true, false⟩) p .set).2
      = .opened ⟨patch d p b, p, false, true, true, false⟩ := by
    have hn : ¬ ((p : Int) < 0) := by omega
    simp [seek, fseek, FILE.origin, hn]
  rw [h1, h2, read_pos _ rfl b.length hb0 hl]
  have h3 : ((patch d p b).drop p).take b.length = b := by
    have hp := pad_len d p
    unfold patch
    rw [List.append_assoc, List.drop_left' hp, List.take_left' rfl]
  show ofBytes (((patch d p b).drop p).take b.length) = _
  rw [h3]
  simp [ofBytes, hb]

/-- Calls of `puts`, one for each string. -/
def putsAll : Obj → List Bytes → Obj
  | o, [] => o
  | o, l :: ls => putsAll (puts o l).2 ls

/-- The text of the lines `ls`. -/
def text : List Bytes → Bytes
  | [] => []
  | l :: ls => l ++ 10 :: text ls

theorem putsAll_eq (ls : List Bytes) (d : Bytes) (e r : Bool) (hz : ∀ l ∈ ls, 0 ∉ l) :
    putsAll (.opened ⟨d, d.length, e, r, true, false⟩) ls =
      .opened ⟨d ++ text ls, (d ++ text ls).length, e, r, true, false⟩ := by
  induction ls generalizing d with
  | nil => simp [putsAll, text]
  | cons l ls ih =>
    have h1 : (puts (.opened ⟨d, d.length, e, r, true, false⟩) l).2 =
        .opened ⟨d ++ (l ++ [10]), (d ++ (l ++ [10])).length, e, r, true, false⟩ := by
      simp only [puts, if_true, cstr_id l (hz l (by simp)), fwrite]
      simp [patch]
    rw [putsAll, h1, ih _ (fun x hx => hz x (by simp [hx]))]
    simp [text]

theorem lines_text (ls : List Bytes) (h : ∀ l ∈ ls, 10 ∉ l) : lines (text ls) = ls := by
  induction ls with
  | nil => rfl
  | cons l ls ih =>
    rw [text, lines_lf l _ (h l (by simp)), ih (fun x hx => h x (by simp [hx]))]

theorem text_nul (ls : List Bytes) (h : ∀ l ∈ ls, 0 ∉ l) : 0 ∉ text ls := by
  induction ls with
  | nil => simp [text]
  | cons l ls ih =>
    intro hh
    rw [text, List.mem_append] at hh
    rcases hh with hh | hh
    · exact h l (by simp) hh
    · rcases List.mem_cons.mp hh with h' | h'
      · revert h'; decide
      · exact ih (fun x hx => h x (by simp [hx])) h'

/-- **C152** Lines written with `puts` to a new file are those that `gets` returns.

Missing: lines of more than 8190 bytes or with bytes NUL. -/
theorem C152_lines_partial (ls : List Bytes) (disk : Option Bytes)
    (h : ∀ l ∈ ls, 10 ∉ l ∧ 0 ∉ l ∧ l.length ≤ 8190) :
    ∃ o, new .wp disk = some o ∧ Yields (seek (putsAll o ls) 0 .set).2 ls := by
  refine ⟨.opened ⟨[], 0, false, true, true, false⟩, by cases disk <;> rfl, ?_⟩
  have h1 := putsAll_eq ls [] false true (fun l hl => (h l hl).2.1)
  rw [List.nil_append] at h1
  rw [show (Obj.opened ⟨[], 0, false, true, true, false⟩) = .opened ⟨[], ([] : Bytes).length, false, true, true, false⟩ from rfl,
    h1]
  have h2 : (seek (.opened ⟨text ls, (text ls).length, false, true, true, false⟩) 0 .set).2
      = .opened ⟨text ls, 0, false, true, true, false⟩ := by simp [seek, fseek, FILE.origin]
  rw [h2]
  have hl := lines_text ls (fun l hl => (h l hl).1)
  have h3 := C151_gets_partial (text ls) 0 false true false
    (by simpa using text_nul ls (fun l hl => (h l hl).2.1))
    (by rw [List.drop_zero, hl]; exact fun l hl => (h l hl).2.2)
  rw [List.drop_zero, hl] at h3
  exact h3

example : ∃ o, new .wp none = some o ∧
    Yields (seek (putsAll o [asc "one", [], asc "three"]) 0 .set).2 [asc "one", [], asc "three"] :=
  C152_lines_partial _ none (by decide)

/-- **C152** (the code does not do this) `puts` writes its argument: it writes what is before the first byte NUL. -/
theorem C152_puts_nul_refuted :
    ∃ b, puts (.opened ⟨[], 0, false, true, true, false⟩) b = (.bool true, .opened ⟨[65, 10], 2, false, true, true, false⟩)
      ∧ b = [65, 0, 66] := ⟨_, by decide, rfl⟩

/-! ### calls -/

/-- The calls of methods of a channel, but for `open`. -/
inductive Op where
  | read (n : Int) | gets | write (b : Bytes) | puts (b : Bytes) | seek (off : Int) (w : Whence) | tell | eof
  | truncate (n : Nat) | flush | close

/-- One call. -/
def Op.run (o : Obj) : Op → Val × Obj
  | .read n => Chan.read o n
  | .gets => Chan.gets o
  | .write b => Chan.write o b
  | .puts b => Chan.puts o b
  | .seek off w => Chan.seek o off w
  | .tell => Chan.tell o
  | .eof => Chan.eof o
  | .truncate n => Chan.truncate o n
  | .flush => Chan.flush o
  | .close => Chan.close o

/-- A series of calls. -/
def runs (o : Obj) : List Op → Obj
  | [] => o
  | c :: cs => runs (c.run o).2 cs

/-- **C153** The methods that look if the channel is closed: reading gives undefined, writing 0 and false; closing again
does nothing.

Missing: the other methods, see below. -/
theorem C153_closed_partial (n : Int) (b : Bytes) :
    read .closed n = (.undef, .closed) ∧ gets .closed = (.undef, .closed) ∧ write .closed b = (.num 0, .closed) ∧
      puts .closed b = (.bool false, .closed) ∧ close .closed = (.bool true, .closed) := ⟨rfl, rfl, rfl, rfl, rfl⟩

/-- **C153** After `close`, whatever is called, the channel stays closed. -/
theorem C153_stays_closed (o : Obj) (cs : List Op) : runs (close o).2 cs = .closed := by
  have h : ∀ cs : List Op, runs .closed cs = .closed := by
    intro cs
    induction cs with
    | nil => rfl
    | cons c cs ih => cases c <;> simpa [runs, Op.run, read, gets, write, puts, seek, tell, eof, truncate, flush, close] using ih
  exact h cs

/-- **C153** (the code does not do this) No method of a closed channel uses memory that has been freed: these do. -/
theorem C153_freed_refuted (o : Obj) (off : Int) (w : Whence) (n : Nat) :
    (seek (close o).2 off w).1 = .ub ∧ (tell (close o).2).1 = .ub ∧ (eof (close o).2).1 = .ub ∧
      (truncate (close o).2 n).1 = .ub ∧ (flush (close o).2).1 = .ub := ⟨rfl, rfl, rfl, rfl, rfl⟩

/-- An open channel never does. -/
theorem C153_opened_safe (f : FILE) (c : Op) : (c.run (.opened f)).1 ≠ .ub := by
  cases c <;> simp only [Op.run, read, gets, write, puts, seek, tell, eof, truncate, flush, close]
  all_goals first
    | (split <;> simp)
    | simp

/-- **C154** `new Channel(file, mode)` fails exactly if the file does not exist and the mode is "r" or "r+"; else the
position is 0 (but for "a"), "w" empties the file, the other modes leave it as it is. -/
theorem C154_new (m : Mode) (disk : Option Bytes) :
    (new m disk = none ↔ disk = none ∧ (m = .r ∨ m = .rp)) ∧
      ∀ f, new m disk = some (.opened f) →
        f.data = (if m = .w ∨ m = .wp then [] else disk.getD []) ∧ (m ≠ .a → f.pos = 0) ∧ f.eof = false ∧
        (f.rd = true ↔ m ≠ .w ∧ m ≠ .a) ∧ (f.wr = true ↔ m ≠ .r) := by
  cases m <;> cases disk <;> simp [new, fopen] <;> (intro f hf; subst hf; simp)

/-- **C154** If the file can be opened, `open` returns true and the channel is as new. -/
theorem C154_open_partial (o : Obj) (m : Mode) (disk : Option Bytes) (o' : Obj) (h : new m disk = some o') :
    reopen o m disk = (.bool true, o') := by
  unfold new at h
  cases hf : fopen m disk with
  | none => rw [hf] at h; simp at h
  | some f => rw [hf] at h; simp at h; subst h; simp [reopen, hf]

example : reopen .closed .r (some [1]) = (.bool true, .opened ⟨[1], 0, false, true, false, false⟩) :=
  C154_open_partial _ _ _ _ rfl

/-- **C154** (the code does not do this) `open` returns false if the file cannot be opened: it returns true. -/
theorem C154_open_refuted (o : Obj) : reopen o .r none = (.bool true, .closed) := rfl

/-- **C155** After `seek(p, 'set')`, `tell` is `p` and `eof` is false; nothing in the file changes. -/
theorem C155_seek_tell (f : FILE) (p : Nat) :
    ∃ f', seek (.opened f) p .set = (.num 0, .opened f') ∧ (tell (.opened f')).1 = .num p ∧
      (eof (.opened f')).1 = .bool false ∧ f'.data = f.data := by
  refine ⟨⟨f.data, p, false, f.rd, f.wr, f.app⟩, ?_, rfl, rfl, rfl⟩
  have : ¬ ((FILE.origin f .set : Int) + p < 0) := by simp [FILE.origin]
  simp [seek, fseek, this]
  simp [FILE.origin]

/-- **C155** `seek` from the position or the end; a place before the beginning is refused and nothing changes. -/
theorem C155_seek_rel (f : FILE) (off : Int) (w : Whence) (base : Nat)
    (hb : base = match w with | .set => 0 | .cur => f.pos | .end => f.data.length) :
    if (base : Int) + off < 0 then seek (.opened f) off w = (.num (-1), .opened f)
    else ∃ f', seek (.opened f) off w = (.num 0, .opened f') ∧ (tell (.opened f')).1 = .num (base + off) ∧
      (eof (.opened f')).1 = .bool false ∧ f'.data = f.data := by
  have ho : FILE.origin f w = base := by cases w <;> simp [hb, FILE.origin]
  split
  · rename_i h
    simp [seek, fseek, ho, h]
  · rename_i h
    refine ⟨⟨f.data, (base + off).toNat, false, f.rd, f.wr, f.app⟩, ?_, ?_, rfl, rfl⟩
    · simp [seek, fseek, ho, h]
    · simp [tell]; omega

/-- **C155** After `read(n)`, `eof` is true exactly if fewer than `n` bytes were left (or it was true before). -/
theorem C155_eof_read (d : Bytes) (p : Nat) (e w a : Bool) (k : Nat) (hk : 0 < k) (hs : k < 2 ^ 31) :
    (eof (read (.opened ⟨d, p, e, true, w, a⟩) k).2).1 = .bool (e || decide (d.length - p < k)) := by
  rw [read_pos _ rfl k hk hs]
  simp [eof, FILE.adv, FILE.rest]

/-- **C155** If `gets` returns undefined, `eof` is true. -/
theorem C155_eof_gets (d : Bytes) (p : Nat) (e w a : Bool) (o : Obj)
    (h : gets (.opened ⟨d, p, e, true, w, a⟩) = (.undef, o)) : (eof o).1 = .bool true := by
  by_cases h0 : d.drop p = []
  · simp only [gets, fgets, if_true, h0] at h
    obtain ⟨_, rfl⟩ := Prod.mk.inj h
    rfl
  · obtain ⟨e', he⟩ := gets_some ⟨d, p, e, true, w, a⟩ rfl h0
    rw [he] at h
    simp at h

example : (eof (gets (.opened ⟨[65], 1, false, true, false, false⟩)).2).1 = .bool true :=
  C155_eof_gets [65] 1 false false false _ (by decide)

/-- The contents of an open file. -/
def Obj.Has (o : Obj) (d : Bytes) : Prop := match o with
  | .closed => True
  | .opened f => f.data = d ∧ f.wr = false

theorem fread_keep (f : FILE) (n : Nat) : (fread f n).2.data = f.data ∧ (fread f n).2.wr = f.wr := by
  unfold fread; split <;> simp

theorem readLoop_keep (n : Nat) (k : Int) (sum : Nat) (f : FILE) :
    (readLoop n k sum f).2.data = f.data ∧ (readLoop n k sum f).2.wr = f.wr := by
  induction n generalizing sum f with
  | zero => exact ⟨rfl, rfl⟩
  | succ n ih =>
    rw [readLoop]
    generalize (if 0 < k ∧ k < ((sum + bufsiz : Nat) : Int) then (k - sum).toNat else bufsiz) = m
    have hf := fread_keep f m
    split
    · exact hf
    · split
      · exact hf
      · have := ih (sum + (fread f m).1.length) (fread f m).2
        exact ⟨this.1.trans hf.1, this.2.trans hf.2⟩

theorem fgets_keep (f : FILE) (n : Nat) : (fgets f n).2.data = f.data ∧ (fgets f n).2.wr = f.wr := by
  unfold fgets; split
  · split <;> simp
  · simp

theorem run_has (o : Obj) (d : Bytes) (c : Op) (h : o.Has d) : (c.run o).2.Has d := by
  cases o with
  | closed => cases c <;> trivial
  | opened f =>
    obtain ⟨h1, h2⟩ := h
    cases c with
    | read n =>
      have := readLoop_keep maxLoop n 0 f
      exact ⟨this.1.trans h1, this.2.trans h2⟩
    | gets =>
      have := fgets_keep f (bufsiz - 1)
      show Obj.Has (gets (.opened f)).2 d
      rw [gets]
      generalize fgets f (bufsiz - 1) = q at *
      obtain ⟨a, f'⟩ := q
      cases a <;> exact ⟨this.1.trans h1, this.2.trans h2⟩
    | write b =>
      show Obj.Has (write (.opened f) b).2 d
      rw [write]
      split
      · exact ⟨h1, h2⟩
      · simp [fwrite, h2, Obj.Has, h1]
    | puts b => simp [Op.run, puts, h2, Obj.Has, h1]
    | seek off w =>
      show Obj.Has (.opened (fseek f off w).2) d
      unfold fseek; split <;> exact ⟨h1, h2⟩
    | tell => exact ⟨h1, h2⟩
    | eof => exact ⟨h1, h2⟩
    | truncate n =>
      show Obj.Has (.opened (ftruncate f n).2) d
      unfold ftruncate; simp [h2, Obj.Has, h1]
    | flush => exact ⟨h1, h2⟩
    | close => trivial

/-- **C156** Whatever methods of a channel opened with mode "r" are called, the file does not change. -/
theorem C156_read_only (d : Bytes) (o : Obj) (cs : List Op) (f : FILE) (h : new .r (some d) = some o)
    (hf : runs o cs = .opened f) : f.data = d := by
  have hr : ∀ (cs : List Op) (o : Obj), o.Has d → (runs o cs).Has d := by
    intro cs
    induction cs with
    | nil => intro o h; exact h
    | cons c cs ih => intro o h; exact ih _ (run_has o d c h)
  have h0 : o.Has d := by simp [new, fopen] at h; subst h; exact ⟨rfl, rfl⟩
  have := hr cs o h0
  rw [hf] at this
  exact this.1

/-- **C156** Such a channel reports that nothing was written. -/
theorem C156_told (d : Bytes) (o : Obj) (cs : List Op) (h : new .r (some d) = some o) (b : Bytes) (n : Nat) :
    (write (runs o cs) b).1 = .num 0 ∧ (puts (runs o cs) b).1 = .bool false ∧
      ((truncate (runs o cs) n).1 = .num (-1) ∨ runs o cs = .closed) := by
  have hr : ∀ (cs : List Op) (o : Obj), o.Has d → (runs o cs).Has d := by
    intro cs
    induction cs with
    | nil => intro o h; exact h
    | cons c cs ih => intro o h; exact ih _ (run_has o d c h)
  have h0 : o.Has d := by simp [new, fopen] at h; subst h; exact ⟨rfl, rfl⟩
  have := hr cs o h0
  cases hq : runs o cs with
  | closed => simp [write, puts]
  | opened f =>
    rw [hq] at this
    obtain ⟨_, h2⟩ := this
    refine ⟨?_, by simp [puts, h2], Or.inl (by simp [truncate, ftruncate, h2])⟩
    rw [write]; split <;> simp [fwrite, h2]

example : ∃ o f, new .r (some [65, 66]) = some o ∧ runs o [.write [67], .read 1, .truncate 0] = .opened f ∧
    f.data = [65, 66] := by
  refine ⟨_, _, rfl, rfl, ?_⟩
  exact C156_read_only [65, 66] _ [.write [67], .read 1, .truncate 0] _ rfl rfl

end Verif.Chan
