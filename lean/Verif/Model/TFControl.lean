import Verif.Model.Streamable
/-
TensorFlow control flow used on nested values: `tf.cond` and `tf.case`.
-/
namespace TS
open PyVal
variable {α : Type}

/-- `_UnpackIfSingleton` of TensorFlow 1.13 `control_flow_ops.cond` (used because `strict=False`): a
one-element tuple or list is replaced by its element (it concerns finance/moving_average.py:48-52 and meta/ffill.py:42-45). -/
def unpackSingleton : Val α → Val α
  | .node .tuple [x] => x
  | .node .list [x] => x
  | v => v

/-- The test `if not res_t` of TensorFlow 1.13 `control_flow_ops.cond` ("true_fn and false_fn must return at
least one result"): `res_t` is the value of the branch if that is a tuple or list and a one-element list
holding it otherwise, so the test is true of `()` and `[]` only; `((), ())` passes (it concerns meta/ffill.py:42-54). -/
def isEmptySeq : Val α → Bool
  | .node .tuple [] => true
  | .node .list [] => true
  | _ => false

/-- `tf.cond(pred, true_fn, false_fn)` on nested values (TensorFlow 1.13): both branches are unpacked
if singleton and must then have the same structure and dtypes, the true branch must not be `()` or `[]`, and
the result is unpacked again if singleton.  The predicate is a scalar (meta/ffill.py:42-54, finance/moving_average.py:48-52, common/correlation.py:78-81). -/
def tfCond (pred : Bool) (t f : Val α) : Res (Val α) := do
  let t' := unpackSingleton t
  let f' := unpackSingleton f
  let tt ← toType t'
  let ft ← toType f'
  if tt ≠ ft then .error .structure
  else if isEmptySeq t then .error .valueError
  else .ok (unpackSingleton (if pred then t' else f'))

/-- `states[i]` for a tuple or list of states (meta/map.py:27, meta/ffill.py:22-23,
common/set_during.py:19).  Simplified: indexing a bare tensor is an error in the model. -/
def getItem (i : Nat) (v : Val α) : Res (Val α) := do
  match (← asSeq v)[i]? with
  | some x => .ok x
  | none => .error .indexError

/-- `a, b = v` on the result of a `tf.cond` (e.g. finance/moving_average.py:48). -/
def asPair (v : Val α) : Res (Val α × Val α) := do
  match ← asSeq v with
  | [a, b] => .ok (a, b)
  | _ => .error .valueError

/-- `tf.case(pairs, default, exclusive=False)`: the first pair whose predicate is true.  (Checks of
structure and dtypes are those of the nested `tf.cond`s; callers below return equal structures.) (common/automaton.py:26-28, finance/evaluators/risk_ratio_evaluator.py:140) -/
def tfCase {A : Type} : List (Bool × A) → A → A
  | [], d => d
  | (p, a) :: cs, d => if p then a else tfCase cs d

/-- `tf.case(pairs, default, exclusive=True)`: more than one true predicate is an
`InvalidArgumentError` at run time (finance/relative_strength_index.py:69-72, finance/supertrend.py:40-46). -/
def tfCaseExclusive {A : Type} (cases : List (Bool × A)) (d : A) : Res A :=
  if (cases.filter fun c => c.1).length > 1 then .error .exclusive else .ok (tfCase cases d)

end TS
