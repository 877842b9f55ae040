import Verif.Base.Tensor
/-
Broadcasting, as NumPy documents it: shapes are compared axis by axis, beginning with the last one; two axes are compatible if they are equal or one of
them is 1; missing axes count as 1.
-/
namespace TS

/-- a multi-index as a list of numbers -/
def Idx.toList : (s : List Nat) → Idx s → List Nat
  | [], _ => []
  | _ :: s, c => c.1 :: Idx.toList s c.2

/-- size of axis `j`, counted from the last one; 1 where there is none -/
def axis (s : List Nat) (j : Nat) : Nat := (s.reverse[j]?).getD 1

/-- Tensors of the shapes `s` and `t` can be combined element by element, and the result has the shape `r`. -/
def Broadcasts (s t r : List Nat) : Prop :=
  r.length = max s.length t.length ∧
    ∀ j < r.length, (axis s j = axis t j ∧ axis r j = axis s j) ∨ (axis s j = 1 ∧ axis r j = axis t j) ∨ (axis t j = 1 ∧ axis r j = axis s j)

/-- Where an operand of the shape `s` is read for the element `c` of the result: at the last coordinates of `c`, at 0 on axes of size 1. -/
def readAt (s : List Nat) (c : List Nat) : List Nat := List.zipWith (fun m k => if m = 1 then 0 else k) s (c.drop (c.length - s.length))

end TS
