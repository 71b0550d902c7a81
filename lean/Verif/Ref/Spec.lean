import Verif.Ref.Model
/-!
What reference counts are for, and how a program has to use the library: for C40.
-/
namespace Verif.Ref

/-- How often a content refers to `a`. -/
def refsIn : Content → Nat → Nat
  | .undef, _ => 0
  | .prim _, _ => 0
  | .ref o, a => if o = a then 1 else 0
  | .var v, a => if v = a then 1 else 0
  | .object props arr, a => (props.map (·.2)).count a + arr.count (some a)

/-- How often a cell, if it has not been freed, refers to `a`. -/
def cellRefs (a : Nat) : Option Cell → Nat
  | none => 0
  | some c => refsIn c.content a

/-- The number of references to `a`: those the program holds, and those in all cells. -/
def refs (s : State) (a : Nat) : Nat := s.held.count a + (s.heap.map (cellRefs a)).sum

/-- `a` has not been freed. -/
def Live (s : State) (a : Nat) : Prop := ∃ c, get s.heap a = some c

/-- Cell `a` refers to `b`. -/
def Edge (h : Heap) (a b : Nat) : Prop := ∃ c, get h a = some c ∧ 0 < refsIn c.content b

/-- The program can get from `a` to `b`, in one or more steps. -/
inductive Path (h : Heap) (a : Nat) : Nat → Prop
  | one (b : Nat) : Edge h a b → Path h a b
  | more (b c : Nat) : Path h a b → Edge h b c → Path h a c

/-- What the program can get at from the references it holds and the cells it has just made. -/
inductive Reachable (s : State) : Nat → Prop
  | own (a : Nat) : a ∈ s.held ∨ a ∈ s.fresh → Reachable s a
  | edge (a b : Nat) : Reachable s a → Edge s.heap a b → Reachable s b

/-- The state when cell `a` has the content `x`. -/
def State.withContent (s : State) (a : Nat) (x : Content) : State :=
  ⟨s.heap.modify a (fun c => c.map fun c => ⟨c.rc, x⟩), s.held, s.fresh⟩

/-- `o` is an object with these properties and elements. -/
def IsObj (s : State) (o : Nat) (props : List (List UInt8 × Nat)) (arr : List (Option Nat)) : Prop :=
  ∃ c, get s.heap o = some c ∧ c.content = .object props arr

/-- The rules for a call.  What is passed must be alive; a reference given back must be held; what is passed to a
call that overwrites something must be reachable without what is overwritten. -/
def Allowed (s : State) : Op → Prop
  | .new => True
  | .new1 => True
  | .newObj => True
  | .incr a => Live s a
  | .decr a => a ∈ s.held
  | .reset v => Reachable (s.withContent v .undef) v
  | .makePrim v _ => Reachable (s.withContent v .undef) v
  | .makeObject v o => Live s v ∧ Live s o ∧
      ((∃ c, get s.heap v = some c ∧ c.content = .ref o) ∨ (Reachable (s.withContent v .undef) v ∧ Reachable (s.withContent v .undef) o))
  /- both are values; the source has been counted or is plain; neither may contain the target -/
  | .copy t f => t ∈ s.held ∧ Reachable (s.withContent t .undef) f ∧ ¬ Path s.heap t t ∧ ¬ Edge s.heap f t ∧
      (∀ props arr, ¬ IsObj s f props arr) ∧ (f ∉ s.fresh ∨ ∀ b, ¬ Edge s.heap f b)
  | .move t f => t ∈ s.held ∧ Reachable (s.withContent t .undef) f ∧ ¬ Path s.heap t t ∧ ¬ Edge s.heap f t ∧
      (f ∈ s.held ∨ f ∈ s.fresh)
  | .replace old f => old ∈ s.held ∧ Reachable ⟨s.heap, s.held.erase old, s.fresh⟩ f
  | .pushVar dv v => Live s v ∧ dv ≠ v ∧ ¬ Edge s.heap dv v ∧ Reachable (s.withContent dv .undef) dv
  | .arrayAdd o v => Live s v ∧ ∃ props arr, IsObj s o props arr
  | .arraySet o v n => ∃ props arr, IsObj s o props arr ∧
      Reachable (s.withContent o (.object props (arr.set n none))) o ∧
      Reachable (s.withContent o (.object props (arr.set n none))) v
  | .insert o key v => ∃ props arr, IsObj s o props arr ∧
      Reachable (s.withContent o (.object (props.filter (·.1 ≠ key)) arr)) o ∧
      Reachable (s.withContent o (.object (props.filter (·.1 ≠ key)) arr)) v

/-- The states a program can bring about that keeps the rules. -/
inductive Reach : State → Prop
  | init : Reach ⟨[], [], []⟩
  | step (s s' : State) (op : Op) : Reach s → Allowed s op → exec s op = some s' → Reach s'

end Verif.Ref
