import Verif.Model.Streamable
/-
C89: what it means that the state of one operator contains the state of another.
-/
namespace TS
variable {α A B C : Type}

/-- component `i` of a state that is a tuple -/
def item (i : Nat) : Val α → Option (Val α)
  | .node .tuple xs => xs[i]?
  | _ => none

/-- two components of a state, in the given order -/
def items (i j : Nat) (s : Val α) : Option (Val α) :=
  match item i s, item j s with
  | some a, some b => some (.tup [a, b])
  | _, _ => none

/-- Stream `op` over any series `xs` (encoded by `ser`).  What `sel` takes from its final state lets `part` go on over any `ys` exactly as if
`part` had streamed `g xs` itself: called with it, `part` outputs over `ys` what it outputs after `g xs` when it streams `g xs` and `ys` at once,
and ends in the same state. -/
def Provides (op : Operator α) (ser : List A → Val α) (sel : Val α → Option (Val α)) (part : Operator α) (ser' : List B → Val α) (outs : List C → Val α)
    (g : List A → List B) : Prop :=
  ∀ xs, xs ≠ [] → ∃ z sf s0 t, call op (ser xs) none = .ok (z, sf, s0) ∧ sel sf = some t ∧ ∀ ys, ys ≠ [] → ∃ os os' tf t0,
    call part (ser' (g xs ++ ys)) none = .ok (outs (os ++ os'), tf, t0) ∧ os.length = (g xs).length ∧ os'.length = ys.length ∧
      call part (ser' ys) (some t) = .ok (outs os', tf, t)

end TS
