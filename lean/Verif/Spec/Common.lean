import Verif.Spec.History
import Verif.Base.Num
/-
What the operators of common/ should output after a history of samples (oldest first).  Nothing here
refers to the model of the code.
-/
namespace TS
variable {A E : Type}

/-- The sample `p` steps ago, or `z` when the history is not that long. -/
def lagged (z : A) (p : Nat) (h : List A) : A := h.reverse[p]?.getD z

/-- A float tensor of the same shape with every element equal to `c`. -/
def fillF {α : Type} (c : α) : Leaf α → Leaf α
  | .f t => .f ⟨t.shape, fun _ => c⟩
  | l => l

/-- An int tensor of the same shape with every element equal to `c`. -/
def fillI {α : Type} (c : Int) : Leaf α → Leaf α
  | .i t => .i ⟨t.shape, fun _ => c⟩
  | l => l

/-- `m` is the smallest element of `l`. -/
def IsLeastOf {K : Type} [LE K] (m : K) (l : List K) : Prop := m ∈ l ∧ ∀ x ∈ l, m ≤ x
/-- `m` is the largest element of `l`. -/
def IsGreatestOf {K : Type} [LE K] (m : K) (l : List K) : Prop := m ∈ l ∧ ∀ x ∈ l, x ≤ m

/-- Python indexing: `vs[k]`, counted from the end when `k` is negative. -/
def AtIndex {A : Type} (vs : List A) (k : Int) (v : A) : Prop :=
  (0 ≤ k ∧ vs[k.toNat]? = some v) ∨ (k < 0 ∧ -(vs.length : Int) ≤ k ∧ vs[(vs.length + k).toNat]? = some v)

section
variable [TFNum E]

/-- The smallest sample so far, found by comparing with the samples in turn; zero before any sample. -/
def runMin : List E → E
  | [] => Arith.zero
  | x :: xs => xs.foldl (fun m v => if TFNum.lt v m then v else m) x

/-- The largest sample so far. -/
def runMax : List E → E
  | [] => Arith.zero
  | x :: xs => xs.foldl (fun m v => if TFNum.lt m v then v else m) x

end

section
variable [Arith E]

/-- Pearson's correlation coefficient of two samples of equal size: the covariance over the product of
the (population) standard deviations. -/
def pearson (xs ys : List E) : E :=
  Arith.mean (List.zipWith (fun a b => (a - Arith.mean xs) * (b - Arith.mean ys)) xs ys) /
    (Arith.sqrt (Arith.mean (xs.map fun x => (x - Arith.mean xs) * (x - Arith.mean xs))) *
      Arith.sqrt (Arith.mean (ys.map fun y => (y - Arith.mean ys) * (y - Arith.mean ys))))

/-- Correlation of the last `p` pairs, zero for the first `p` pairs. -/
def corrOf (p : Nat) (h : List (E × E)) : E :=
  if h.length ≤ p then Arith.zero else pearson (window p (h.map Prod.fst)) (window p (h.map Prod.snd))

/-- The first series paired with the second one `lag` steps earlier. -/
def lagPairs (lag : Nat) (h : List (E × E)) : List (E × E) := ((h.map Prod.fst).drop lag).zip (h.map Prod.snd)

end
end TS
