import Verif.Spec.Streaming
import Verif.Base.Num
/-
What forward filling means.
-/
namespace TS
open PyVal
variable {α : Type} [TFNum α]

/-- Some element of some float leaf compares equal to zero. -/
def hasZero (x : Val α) : Bool :=
  (flatten x).any fun l => match l with
    | .f t => t.elems.any fun e => TFNum.eq e Arith.zero
    | _ => false

/-- The time steps without a zero, in order. -/
def zeroFree (xs : List (Val α)) : List (Val α) := xs.filter fun x => !hasZero x

/-- The outputs at the time steps without a zero, in order. -/
def outputsAtZeroFree (xs os : List (Val α)) : List (Val α) :=
  ((xs.zip os).filter fun e => !hasZero e.1).map (·.2)

/-- At every time step with a zero the output is the previous one (`p` at the beginning). -/
def FilledFrom (p : Val α) (xs os : List (Val α)) : Prop :=
  ∀ i (h : i < xs.length) (h' : i < os.length), hasZero xs[i] = true →
    os[i] = match i with | 0 => p | j + 1 => os[j]

/-- The same structure, dtypes and shapes, and every element is zero (false for booleans). -/
def IsZeros (p o : Val α) : Prop :=
  p.skel = o.skel ∧ List.Forall₂ (fun l m : Leaf α => match l, m with
    | .f t, .f u => t = ⟨u.shape, fun _ => Arith.zero⟩
    | .i t, .i u => t = ⟨u.shape, fun _ => 0⟩
    | .b t, .b u => t = ⟨u.shape, fun _ => false⟩
    | _, _ => False) (flatten p) (flatten o)

/-- Steps on inputs of structure `X` keep states of structure `S`. -/
def Operator.KeepsState (op : Operator α) (X S : PyVal Unit) : Prop :=
  ∀ x s o n i, x.skel = X → s.skel = S → op.forwardStep x (some s) = .ok (o, n, i) → n.skel = S

/-- Some element of the tensor compares equal to zero. -/
def someZero {s : List Nat} (x : Idx s → α) : Bool := (Idx.all s).any fun c => TFNum.eq (x c) Arith.zero

/-- The number compares equal to zero. -/
def isZero (x : α) : Bool := TFNum.eq x Arith.zero

/-- A function of the history that ignores the samples marked by `z`, and is `z0` as long as there are no others. -/
def skipping {A B : Type} (z : A → Bool) (z0 : B) (y : List A → B) (h : List A) : B :=
  if h.all z then z0 else y (h.filter fun a => !z a)

end TS
