import Verif.Spec.History
import Verif.Model.Args
/-
What it means that streaming an operator computes a function of the history.
-/
namespace TS
open PyVal
variable {α A B : Type}

/-- Streaming `op` over the series of `xs` (encoded by `ser`) outputs, at every index, the value of `y` on
the samples up to that index (encoded by `outs`); and streaming on from the final state of an earlier
call takes the samples of the earlier calls as history.  `st h` is the state after the samples `h`. -/
def StreamsAs (op : Operator α) (ser : List A → Val α) (outs : List B → Val α) (y : List A → B) : Prop :=
  ∃ st : List A → Val α,
    (∀ xs, xs ≠ [] → call op (ser xs) none = .ok (outs (scan y [] xs), st xs, st [])) ∧
    (∀ h xs, xs ≠ [] → call op (ser xs) (some (st h)) = .ok (outs (scan y h xs), st (h ++ xs), st h))

/-- `op` and `op'` cannot be told apart by their outputs: they output the same on every series (encoded by `ser`), and go on to do so when both
are called again with their own final states. -/
def SameStreams (op op' : Operator α) (ser : List A → Val α) : Prop :=
  ∃ st st' : List A → Val α,
    (∀ xs, xs ≠ [] → ∃ z, call op (ser xs) none = .ok (z, st xs, st []) ∧ call op' (ser xs) none = .ok (z, st' xs, st' [])) ∧
    (∀ h xs, xs ≠ [] → ∃ z, call op (ser xs) (some (st h)) = .ok (z, st (h ++ xs), st h) ∧ call op' (ser xs) (some (st' h)) = .ok (z, st' (h ++ xs), st' h))

/-- series of int tensors -/
abbrev vIsBuf {s : List Nat} (l : List (Idx s → Int)) : Val α := .leaf (.i (Tensor.pack s l))

/-- series of bool tensors -/
abbrev vBsBuf {s : List Nat} (l : List (Idx s → Bool)) : Val α := .leaf (.b (Tensor.pack s l))

/-- a pair of series of tensors -/
abbrev vBuf2 {s : List Nat} (l : List ((Idx s → α) × (Idx s → α))) : Val α :=
  .tup [vBuf (l.map Prod.fst), vBuf (l.map Prod.snd)]

/-- a pair of series of numbers -/
abbrev vSBuf2 (l : List (α × α)) : Val α := .tup [vSBuf (l.map Prod.fst), vSBuf (l.map Prod.snd)]

end TS
