import Verif.Base.XR
/-
C88: what infinities and NaN among the samples do to sums, averages and returns.  Nothing here refers to the model of the code.
-/
namespace TS

/-- The sort of a number: finite, an infinity, or NaN. -/
inductive Sort4 where
  | number
  | up
  | down
  | undefined
  deriving DecidableEq, Repr

/-- the sort of an extended number -/
def XR.sort {K : Type} : XR K → Sort4
  | .fin _ => .number
  | .pinf => .up
  | .ninf => .down
  | .nan => .undefined

/-- What the samples add up to: NaN if there is one or if there are both infinities, the infinity if there is one, a number otherwise. -/
def combined (l : List Sort4) : Sort4 :=
  if .undefined ∈ l ∨ .up ∈ l ∧ .down ∈ l then .undefined else if .up ∈ l then .up else if .down ∈ l then .down else .number

/-- the other sign -/
def Sort4.neg : Sort4 → Sort4
  | .up => .down
  | .down => .up
  | s => s

/-- The return from `a` to `x`: zero from zero; an infinity, with the other sign if `a` is negative, from another number to an infinity; −1 from an infinity to a number. -/
def returnInf {K : Type} [Field K] [LinearOrder K] : XR K → XR K → XR K
  | .nan, _ => .nan
  | .fin a, .fin x => .fin (if a = 0 then 0 else (x - a) / a)
  | .fin a, .pinf => if a = 0 then .fin 0 else if 0 < a then .pinf else .ninf
  | .fin a, .ninf => if a = 0 then .fin 0 else if 0 < a then .ninf else .pinf
  | .fin a, .nan => if a = 0 then .fin 0 else .nan
  | _, .fin _ => .fin (-1)
  | _, _ => .nan

/-- what the recursive averages of one sample make of the samples: the first infinity stays an infinity for one output, then everything is NaN -/
def onlyLast (h : List Sort4) : Sort4 := if ∀ a ∈ h.dropLast, a = .number then h.getLastD .number else .undefined

end TS
