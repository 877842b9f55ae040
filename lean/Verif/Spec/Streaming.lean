import Verif.Lemmas.MapFn
import Verif.Model.Streamable
/-
What "a series" and "stepping" mean, independently of how `call_streamed` works.
-/
namespace TS
open PyVal
variable {α : Type}

/-- The i-th slice of a nested value: the i-th entry along the leading axis of every leaf. -/
def sliceAt (i : Nat) (v : Val α) : Res (Val α) := v.traverse (Leaf.index i)

/-- `v` is the series whose i-th slice is `xs[i]`: every leaf has leading dimension `xs.length`. -/
structure IsSeries (v : Val α) (xs : List (Val α)) : Prop where
  size : ∀ l ∈ flatten v, l.size0 = .ok xs.length
  slice : ∀ i (h : i < xs.length), sliceAt i v = .ok xs[i]

/-- Calling the operator with `streamable=False` on one slice after the other, threading the state:
the list of (output, next state), or the first error. -/
def stepAll (op : Operator α) : List (Val α) → Val α → Res (List (Val α × Val α))
  | [], _ => .ok []
  | x :: xs, s => do
    let (o, s', _) ← call op x (some s) false
    let tr ← stepAll op xs s'
    .ok ((o, s') :: tr)

/-- Same nested structure and same dtypes. -/
def SameType (v w : Val α) : Prop := v.map Leaf.dtype = w.map Leaf.dtype

/-- Every leaf is a tensor (and not some other Python object). -/
def Tensors (v : Val α) : Prop := ∀ l ∈ flatten v, l ≠ .gen

/-- Python values are well-formed (dict keys are unique), so operators only return such values. -/
def Operator.Sane (op : Operator α) : Prop :=
  ∀ x st o s i, x.WF → (∀ s ∈ st, s.WF) → op.forwardStep x st = .ok (o, s, i) → o.WF ∧ s.WF ∧ i.WF

/-- The structure of an operator's output is determined by the structure of its inputs and state (in
graph mode nothing else is known when the graph is built), and does not depend on whether the initial
state is given or defaulted. -/
def Operator.Uniform (op : Operator α) : Prop :=
  ∀ x x' st st' o s i o' s' i', x.WF → (∀ s ∈ st, s.WF) → op.forwardStep x st = .ok (o, s, i) →
    op.forwardStep x' (some st') = .ok (o', s', i') → x.skel = x'.skel → (st.getD i).skel = st'.skel →
    o'.skel = o.skel

/-- The initial state contract, for inputs in `D`: starting without a state is starting with the
reported initial state, and a state with the structure of an initial state is reported back. -/
structure Operator.Contract (op : Operator α) (D : Val α → Prop) : Prop where
  fresh : ∀ x o n i, x.WF → D x → op.forwardStep x none = .ok (o, n, i) →
    op.forwardStep x (some i) = .ok (o, n, i)
  tensors : ∀ x o n i, x.WF → D x → op.forwardStep x none = .ok (o, n, i) → Tensors i
  echo : ∀ x x' s o n i o' n' i', x.WF → D x → x'.WF → D x' → op.forwardStep x' none = .ok (o', n', i') →
    s.skel = i'.skel → op.forwardStep x (some s) = .ok (o, n, i) → i = s

/-- The inputs are `n` tensors: one tensor, or a tuple or list of `n` tensors. -/
def TensorArgs (n : Nat) (x : Val α) : Prop :=
  (unpackArgs x).length = n ∧ ∀ a ∈ unpackArgs x, ∃ l, a = .leaf l

end TS
