import Verif.Spec.Streaming
/-
What a pipeline and a bank of operators are, in terms of streaming each operator on its own.
-/
namespace TS
open PyVal
variable {α : Type}

/-- `Pipeline ops sts v z sfs s0s`: stream the first operator over `v` from its state, the second over
the outputs of the first, and so on; `z` are the outputs of the last one, `sfs` and `s0s` the final and
initial states, all in execution order. -/
inductive Pipeline : List (Operator α) → List (Option (Val α)) → Val α → Val α → List (Val α) → List (Val α) → Prop
  | nil (v) : Pipeline [] [] v v [] []
  | cons {op : Operator α} {ops st sts v y z sf s0 sfs s0s} (h : call op v st = .ok (y, sf, s0))
      (rest : Pipeline ops sts y z sfs s0s) : Pipeline (op :: ops) (st :: sts) v z (sf :: sfs) (s0 :: s0s)

/-- `Bank ops sts vs zs sfs s0s`: every operator is streamed over its own inputs from its own state. -/
inductive Bank : List (Operator α) → List (Option (Val α)) → List (Val α) → List (Val α) → List (Val α) → List (Val α) → Prop
  | nil : Bank [] [] [] [] [] []
  | cons {op : Operator α} {ops st sts v vs z zs sf s0 sfs s0s} (h : call op v st = .ok (z, sf, s0))
      (rest : Bank ops sts vs zs sfs s0s) : Bank (op :: ops) (st :: sts) (v :: vs) (z :: zs) (sf :: sfs) (s0 :: s0s)

/-- States of `Compose` with a nested `Compose` of `lb` operators after `lc` operators, and the same
states without the nesting. -/
def NestState (lc lb la : Nat) (s s' : Val α) : Prop :=
  ∃ sc sb sa : List (Val α), sc.length = lc ∧ sb.length = lb ∧ sa.length = la ∧ (∀ t ∈ sc ++ sb ++ sa, t.WF) ∧
    s = .tup (sc ++ .tup sb :: sa) ∧ s' = .tup (sc ++ sb ++ sa)

/-- `st` gives the `n` operators of a `Join` the states `sts`: no state at all, or the tuple of states. -/
def StateList (n : Nat) (st : Option (Val α)) (sts : List (Option (Val α))) : Prop :=
  (st = none ∧ sts = List.replicate n none) ∨
    ∃ ss : List (Val α), st = some (.tup ss) ∧ sts = ss.map some ∧ ss.length = n ∧ ∀ s ∈ ss, s.WF

/-- `t[:, k]`. -/
def Tensor.col {β : Type} (k : Nat) (t : Tensor β) : Res (Tensor β) :=
  match t with
  | ⟨n :: m :: s, v⟩ => if h : k < m then .ok ⟨n :: s, fun c => v (c.1, (⟨k, h⟩, c.2))⟩ else .error .indexError
  | _ => .error .valueError

/-- `x[:, k]` of a leaf. -/
def Leaf.col (k : Nat) : Leaf α → Res (Leaf α)
  | .f t => .f <$> t.col k
  | .i t => .i <$> t.col k
  | .b t => .b <$> t.col k
  | .gen => .error .typeError

/-- Column `k` of a series of vectors, matrices, ...: `[:, k]` of every leaf. -/
def columnOf (k : Nat) (v : Val α) : Res (Val α) := v.traverse (Leaf.col k)

end TS
