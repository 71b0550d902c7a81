import Verif.Basic

/-!
Model of base64 in src/jsiCmds.c:4228-4348.

`char` operands are promoted to (possibly negative) `int` in C; every result is masked with at most
eight low bits, so bytes are modelled by their unsigned value as `Nat`.
-/

namespace Verif.Base64

/-- src/jsiCmds.c:4229  `b64ev` (without its terminating NUL). -/
def b64ev : List UInt8 :=
  asc "ABCDEFGHIJKLMNOPQRSTUVWXYZabcdefghijklmnopqrstuvwxyz0123456789+/"

/-- `b64ev[s]`; all indices used are masked below 64. -/
def ev (s : Nat) : UInt8 := b64ev.getD s 0

/-- src/jsiCmds.c:4307  `PPDCS(n,s)`: `((pos+n)>ilen ? '=' : b64ev[s])`.
`left` is `ilen-pos`; `s` is only evaluated in the second case. -/
def ppdcs (left n : Nat) (s : Option Nat) : Option UInt8 :=
  if n > left then some 61 else s.map ev

/-- src/jsiCmds.c:4299-4326  `B64EncodeDStr`.  `rest` is `ib[pos..ilen)`, `c` the line buffer of `i`
characters, `out` the dynamic string.  `none` = read beyond the terminating NUL. -/
def encLoop (rest c out : List UInt8) : Option (List UInt8) :=
  if 0 < rest.length then do
    let b0 ← rdC rest 0
    let c0 := ev ((b0.toNat >>> 2) &&& 0x3f)
    let c1 ← ppdcs rest.length 1 (do
      let b1 ← rdC rest 1
      pure (((b0.toNat <<< 4) &&& 0x30) ||| ((b1.toNat >>> 4) &&& 0x0f)))
    let c2 ← ppdcs rest.length 2 (do
      let b1 ← rdC rest 1
      let b2 ← rdC rest 2
      pure (((b1.toNat <<< 2) &&& 0x3c) ||| ((b2.toNat >>> 6) &&& 0x03)))
    let c3 ← ppdcs rest.length 3 (do
      let b2 ← rdC rest 2
      pure (b2.toNat &&& 0x3f))
    let c' := c ++ [c0, c1, c2, c3]
    if c'.length ≥ 72 then
      encLoop (rest.drop 3) [] (out ++ (c' ++ [10]))
    else
      encLoop (rest.drop 3) c' out
  else
    -- `if (i) Jsi_DSAppendLen(dStr, c, i)`
    some (out ++ c)
termination_by rest.length
decreasing_by all_goals (simp; omega)

/-- src/jsiCmds.c:4338-4347  `Jsi_Base64(str,len,dStr,0)` on an empty `dStr`. -/
def encode (b : List UInt8) : Option (List UInt8) := encLoop b [] []

/-- `Jsi_Strchr(b64ev, c) - b64ev` (src/jsiCmds.c:4247).  `strchr` also finds the terminating NUL,
at index 64. -/
def strchrIdx (c : UInt8) : Option Nat :=
  if c = 0 then some 64
  else
    let i := b64ev.findIdx (· == c)
    if i < b64ev.length then some i else none

/-- src/jsiCmds.c:4233-4250  `b64getidx`, when `atend` is not yet set.  The input is the remaining
buffer; the result is the index (or `none` for `-1`, which also sets `atend`) and the rest. -/
def getidx : List UInt8 → Option Nat × List UInt8
  | [] => (none, [])
  | c :: t =>
    if c ≥ 128 || c = 61 then (none, t)
    else match strchrIdx c with
      | some i => (some i, t)
      | none => getidx t

/-- src/jsiCmds.c:4252-4288, the four calls of `b64getidx` sharing the global `atend`:
once an index is `-1` the later ones are too and nothing more is consumed. -/
def get4 (rest : List UInt8) : List Nat × List UInt8 × Bool :=
  match getidx rest with
  | (none, r) => ([], r, true)
  | (some a, r) =>
    match getidx r with
    | (none, r) => ([a], r, true)
    | (some b, r) =>
      match getidx r with
      | (none, r) => ([a, b], r, true)
      | (some c, r) =>
        match getidx r with
        | (none, r) => ([a, b, c], r, true)
        | (some d, r) => ([a, b, c, d], r, false)

/-- src/jsiCmds.c:4266-4278: the bytes produced from the indices obtained. -/
def outBytes : List Nat → List UInt8
  | a :: b :: t =>
    UInt8.ofNat (((a <<< 2) &&& 0xfc) ||| ((b >>> 4) &&& 0x03)) ::
      match t with
      | [] => []
      | c :: t' =>
        UInt8.ofNat (((b <<< 4) &&& 0xf0) ||| ((c >>> 2) &&& 0x0f)) ::
          match t' with
          | [] => []
          | d :: _ => [UInt8.ofNat (((c <<< 6) &&& 0xc0) ||| (d &&& 0x3f))]
  | _ => []

theorem getidx_len : ∀ (l : List UInt8) {i : Nat} {r : List UInt8},
    getidx l = (some i, r) → r.length < l.length
  | [], _, _, h => by simp [getidx] at h
  | c :: t, i, r, h => by
    unfold getidx at h
    split at h
    · simp at h
    · split at h
      · injection h with h1 h2; subst h2; simp
      · have := getidx_len t h; simp; omega

theorem get4_len {l : List UInt8} {ix : List Nat} {r : List UInt8}
    (h : get4 l = (ix, r, false)) : r.length < l.length := by
  unfold get4 at h
  split at h
  · simp at h
  · rename_i a r1 h1
    split at h
    · simp at h
    · rename_i b r2 h2
      split at h
      · simp at h
      · rename_i c r3 h3
        split at h
        · simp at h
        · rename_i d r4 h4
          simp at h
          obtain ⟨_, rfl⟩ := h
          have := getidx_len _ h1; have := getidx_len _ h2
          have := getidx_len _ h3; have := getidx_len _ h4
          omega

/-- src/jsiCmds.c:4252-4288  `B64DecodeDStr`: `while (!atend)`, skipping line ends at group starts. -/
def decLoop (rest out : List UInt8) : List UInt8 :=
  if hn : rest.head? = some 10 ∨ rest.head? = some 13 then decLoop rest.tail out
  else
    match h : get4 rest with
    | (ix, _, true) => out ++ outBytes ix
    | (ix, r, false) => decLoop r (out ++ outBytes ix)
termination_by rest.length
decreasing_by
  · cases rest with
    | nil => simp at hn
    | cons => simp
  · exact get4_len h

/-- src/jsiCmds.c:4338-4347  `Jsi_Base64(str,len,dStr,1)` on an empty `dStr`. -/
def decode (s : List UInt8) : List UInt8 := decLoop s []

end Verif.Base64
