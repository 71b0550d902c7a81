import Verif.Crypto.Sha3Keccak

/-! Strict evaluation of the Keccak permutation in the kernel, used only to refute C11 on concrete
messages. Nothing here is part of the model or of the specification. -/

namespace Verif.Crypto.Sha3

/-- `k n`, with `n` reduced to a literal first. -/
def force {α : Type} (n : Nat) (k : Nat → α) : α := Nat.rec (k 0) (fun m _ => k (m+1)) n

theorem force_eq {α : Type} (n : Nat) (k : Nat → α) : force n k = k n := by cases n <;> rfl

def forceL {α : Type} : List UInt64 → (List UInt64 → α) → α
  | [], k => k []
  | a :: l, k => force a.toNat fun n => forceL l fun l' => k (UInt64.ofNat n :: l')

theorem forceL_eq {α : Type} (l : List UInt64) (k : List UInt64 → α) : forceL l k = k l := by
  induction l generalizing k with
  | nil => rfl
  | cons a l ih => rw [forceL, force_eq, ih]; simp

def evalRounds {α : Type} : List Nat → List UInt64 → (List UInt64 → α) → α
  | [], st, k => k st
  | r :: l, st, k =>
    forceL (theta st) fun st => forceL (rhopi st) fun st => forceL (iota (chi st) r) fun st =>
      evalRounds l st k

theorem evalRounds_eq {α : Type} (l : List Nat) (st : List UInt64) (k : List UInt64 → α) :
    evalRounds l st k = k (l.foldl (fun st r => iota (chi (rhopi (theta st))) r) st) := by
  induction l generalizing st with
  | nil => rfl
  | cons r l ih => rw [evalRounds, forceL_eq, forceL_eq, forceL_eq, ih, List.foldl_cons]

/-- One absorption of `blk` into `st` followed by the permutation. -/
def evalT {α : Type} (r : Nat) (st : List UInt64) (blk : List UInt8) (k : List UInt64 → α) : α :=
  forceL ((List.range (r / 8)).foldl (fun st i => st.set i (at' st i ^^^ lane blk i)) st) fun st =>
    evalRounds (List.range 24) st k

theorem evalT_eq {α : Type} (r : Nat) (st : List UInt64) (blk : List UInt8) (i d : Nat)
    (k : List UInt64 → α) : evalT r st blk k = k (transform ⟨st, i, d, r, blk⟩).state := by
  unfold evalT transform rounds
  rw [forceL_eq, evalRounds_eq]

/-- Absorb a list of blocks. -/
def evalB {α : Type} (r : Nat) : List (List UInt8) → List UInt64 → (List UInt64 → α) → α
  | [], st, k => k st
  | b :: bs, st, k => evalT r st b fun st => evalB r bs st k

theorem evalB_eq {α : Type} (r : Nat) (bs : List (List UInt8)) (st : List UInt64)
    (k : List UInt64 → α) :
    evalB r bs st k = k (bs.foldl (fun st b => (transform ⟨st, 0, 0, r, b⟩).state) st) := by
  induction bs generalizing st with
  | nil => rfl
  | cons b bs ih => rw [evalB, evalT_eq r st b 0 0, ih, List.foldl_cons]

end Verif.Crypto.Sha3
