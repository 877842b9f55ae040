import Verif.Lemmas.History
import Verif.Model.Meta
/-
Operators that never fail on inputs of a given signature.  A signature is a nested value with a dtype and a
shape in the place of every tensor.
-/
namespace TS
open PyVal
variable {α : Type}

/-- On inputs of the signature `X` every step succeeds, without a state and from the states it leads to; the
outputs have the signature `O`, and the states the signature `S`. -/
def Operator.Steady (op : Operator α) (X O S : PyVal (DType × List Nat)) : Prop :=
  ∃ I : Val α → Prop, (∀ s, I s → s.WF ∧ HasSig s S) ∧
    (∀ x, x.WF → HasSig x X → ∃ o n i, op.forwardStep x none = .ok (o, n, i) ∧ (o.WF ∧ HasSig o O) ∧ I n ∧ I i) ∧
    (∀ x s, x.WF → HasSig x X → I s → ∃ o n i, op.forwardStep x (some s) = .ok (o, n, i) ∧ (o.WF ∧ HasSig o O) ∧ I n ∧ I i)

/-- On inputs of the signature `X`, starting without a state is starting from the state `i0`. -/
def Operator.FromStart (op : Operator α) (X : PyVal (DType × List Nat)) (i0 : Val α) : Prop :=
  ∀ x, x.WF → HasSig x X →
    ∃ o n, op.forwardStep x none = .ok (o, n, i0) ∧ op.forwardStep x (some i0) = .ok (o, n, i0)

/-- Stream one series after the other, each from the final state of the call before. -/
def streamChunks (op : Operator α) : Option (Val α) → List (Val α) → Res (List (Val α))
  | _, [] => .ok []
  | st, v :: vs => do
    let (z, sf, _) ← call op v st
    let zs ← streamChunks op (some sf) vs
    .ok (z :: zs)

/-- The series of some samples of the signature `X`, at least one. -/
def SeriesOf (X : PyVal (DType × List Nat)) (v : Val α) (n : Nat) : Prop :=
  v.WF ∧ flatten v ≠ [] ∧ ∃ xs, IsSeries v xs ∧ xs ≠ [] ∧ xs.length = n ∧ ∀ x ∈ xs, HasSig x X

/-- A tuple or list of one element. -/
def IsSingleton {T : Type} (v : PyVal T) : Prop := ∃ x, v = .node .tuple [x] ∨ v = .node .list [x]

/-- `()` or `[]`. -/
def IsEmptySeq {T : Type} (v : PyVal T) : Prop := v = .node .tuple [] ∨ v = .node .list []

/-- What `tf.cond` can pass through unchanged: anything but a tuple or list of fewer than two elements. -/
def Passable {T : Type} (v : PyVal T) : Prop := ¬ IsEmptySeq v ∧ ¬ IsSingleton v

/-- Every leaf is a float tensor. -/
def AllFloat (X : PyVal (DType × List Nat)) : Prop := ∀ l ∈ flatten X, l.1 = .float

end TS
