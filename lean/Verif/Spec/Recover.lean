import Verif.Props.Averages
/-
What the outputs of an operator tell about its samples.
-/
namespace TS

/-- The outputs and the first `k` samples determine the series: two series (of samples that satisfy `V`) with the same first `k` samples and the same outputs
are equal. -/
def Determines {α A : Type} (op : Operator α) (ser : List A → Val α) (V : A → Prop) (k : Nat) : Prop :=
  ∀ xs ys : List A, xs ≠ [] → ys ≠ [] → (∀ x ∈ xs, V x) → (∀ y ∈ ys, V y) → xs.take k = ys.take k →
    output (call op (ser xs) none) = output (call op (ser ys) none) → xs = ys

/-- The order of the last `p` samples does not matter to the output: two series that differ only in the order of at most `p` samples at their ends have the same
last output. -/
def Unordered {α A B : Type} (op : Operator α) (ser : List A → Val α) (outs : List B → Val α) (p : Nat) : Prop :=
  ∀ h t t' : List A, t.Perm t' → t ≠ [] → t.length ≤ p → ∃ (o : B) (os os' : List B) (sf sf' s0 : Val α),
    call op (ser (h ++ t)) none = .ok (outs (os ++ [o]), sf, s0) ∧ call op (ser (h ++ t')) none = .ok (outs (os' ++ [o]), sf', s0)

/-- On every series of samples that satisfy `V` both operators succeed, and from index `n` on the outputs are related by `R`. -/
def Compares {α A B B' : Type} (op op' : Operator α) (ser : List A → Val α) (outs : List B → Val α) (outs' : List B' → Val α) (V : A → Prop) (n : Nat) (R : B → B' → Prop) : Prop :=
  ∀ xs : List A, xs ≠ [] → (∀ x ∈ xs, V x) → ∃ (os : List B) (os' : List B') (sf s0 sf' s0' : Val α),
    call op (ser xs) none = .ok (outs os, sf, s0) ∧ call op' (ser xs) none = .ok (outs' os', sf', s0') ∧ os.length = xs.length ∧ os'.length = xs.length ∧
    ∀ (i : Nat) o o', n ≤ i → os[i]? = some o → os'[i]? = some o' → R o o'

end TS
