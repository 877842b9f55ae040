import Verif.Spec.Streaming
/-
Streaming over a series that arrives in chunks.
-/
namespace TS
variable {α : Type}

/-- `Resumed op st vs zs sf s0`: calling `op` on the chunks `vs` one after the other, the first with the state `st` and every other with the state that the call before
it returned, gives the outputs `zs` and the final state `sf`; the first call reports the initial state `s0`, every other one the state it was given. -/
inductive Resumed (op : Operator α) : Option (Val α) → List (Val α) → List (Val α) → Val α → Val α → Prop
  | last {st : Option (Val α)} {v z sf s0 : Val α} (h : call op v st = .ok (z, sf, s0)) : Resumed op st [v] [z] sf s0
  | cons {st : Option (Val α)} {v z s sf s0 : Val α} {vs zs : List (Val α)} (h : call op v st = .ok (z, s, s0)) (ht : Resumed op (some s) vs zs sf s) :
      Resumed op st (v :: vs) (z :: zs) sf s0

end TS
