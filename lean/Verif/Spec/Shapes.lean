import Verif.Spec.Streaming
/-
Shapes of states.
-/
namespace TS
open PyVal
variable {α : Type}

/-- The shape of a tensor. -/
def shapeOf : Leaf α → List Nat
  | .f t => t.shape
  | .i t => t.shape
  | .b t => t.shape
  | .gen => []

/-- Same nested structure and same shapes. -/
def SameShapes (v w : Val α) : Prop := v.map shapeOf = w.map shapeOf

end TS
