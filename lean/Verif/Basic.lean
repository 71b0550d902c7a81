/-!
Shared helpers for modelling C memory access.

A C string handed around by jsish is a byte array of length `n` followed by a NUL byte.
Reading index `n` gives the NUL; reading further is undefined behaviour and is modelled as `none`.
-/

namespace Verif

/-- `buf[k]` for a NUL terminated buffer whose length is `buf.length`: bytes, then the NUL, then
undefined behaviour (`none`).  Models the memory layout of `Jsi_Strdup`/`Jsi_DString` values
(src/jsiDString.c:60-100 always writes `str[len]=0`). -/
def rdC (buf : List UInt8) (k : Nat) : Option UInt8 :=
  if h : k < buf.length then some buf[k] else if k = buf.length then some 0 else none

/-- An ASCII string literal as bytes. -/
def asc (s : String) : List UInt8 := s.toList.map (fun c => UInt8.ofNat c.toNat)

theorem rdC_lt {buf : List UInt8} {k : Nat} (h : k < buf.length) : rdC buf k = some buf[k] := by
  simp [rdC, h]

theorem rdC_len (buf : List UInt8) : rdC buf buf.length = some 0 := by
  simp [rdC]

theorem rdC_gt {buf : List UInt8} {k : Nat} (h : buf.length < k) : rdC buf k = none := by
  have h1 : ¬ k < buf.length := by omega
  have h2 : ¬ k = buf.length := by omega
  simp [rdC, h1, h2]

end Verif
