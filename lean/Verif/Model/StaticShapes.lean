import Verif.Model.Streamable
/-
streamable.py: streaming when every shape is known while the graph is built
-/
namespace TS
open PyVal

variable {α : Type}

/-- `tensor.get_shape()` of a tensor whose shape is known (streamable.py:64). -/
def getShape : Leaf α → Res (List Nat)
  | .f t => .ok t.shape
  | .i t => .ok t.shape
  | .b t => .ok t.shape
  | .gen => .error .valueError

/-- streamable.py:63-64 `lambda x, y: tf.convert_to_tensor(y).set_shape(tf.convert_to_tensor(x).get_shape())`: with known shapes
`set_shape` raises `ValueError` unless they are equal. -/
def setShapeFn : List (Val α) → Res Unit
  | [.leaf x, .leaf y] => do
    let sx ← getShape (← x.toTensor)
    let sy ← getShape (← y.toTensor)
    if sx ≠ sy then .error .valueError else .ok ()
  | _ => .error .typeError

/-- streamable.py:48-65 the loop body, when the shapes are known: `streamBody` and then lines 63-64.  TensorFlow compares the shapes once,
while it builds the graph, here they are compared in every iteration.  Simplified: a tensor out of `tf.cond` whose branches have different
shapes has an unknown dimension in TensorFlow and is accepted; here it is accepted if the branch taken has the shape of the state. -/
def streamBodyStatic (op : Operator α) (inputs : Val α) (i : Nat) (state : Val α) (outs : PyVal (TArr α)) :
    Res (Val α × PyVal (TArr α)) := do
  let (next, outs') ← streamBody op inputs i state outs
  let _ ← mapFn setShapeFn state [state, next]                                    -- lines 63-64
  .ok (next, outs')

/-- streamable.py:71-73 as `streamLoop`, with `streamBodyStatic`. -/
def streamLoopStatic (op : Operator α) (inputs : Val α) :
    Nat → Nat → Val α → PyVal (TArr α) → Res (Val α × PyVal (TArr α))
  | 0, _, state, outs => .ok (state, outs)
  | n + 1, i, state, outs => do
    let (state', outs') ← streamBodyStatic op inputs i state outs
    streamLoopStatic op inputs n (i + 1) state' outs'

/-- streamable.py:23-76 `call_streamed(inputs_tensors, provided_state)` as `callStreamed`, when the shapes are known. -/
def callStreamedStatic (op : Operator α) (inputs : Val α) (provided : Option (Val α)) : Res (Step α) := do
  let sizes ← (flatten inputs).mapM Leaf.size0                                   -- line 30
  match sizes with
  | [] => .error .indexError                                                      -- line 31
  | size :: _ =>
    let same := sizes.foldl (fun acc x => acc && x == size) true                  -- lines 32-33
    if same ≠ true then .error .sizeMismatch                                      -- lines 35-36
    else do
      let inputs_0 ← mapFn (fn1 (Leaf.index 0)) inputs [inputs]                   -- line 38
      let (outputs_0, _, init) ← op.forwardStep inputs_0 provided                 -- line 39
      let initial := match provided with | some s => s | none => init             -- lines 42-43
      let arrays ← mapFn (fn1 (TArr.new size)) outputs_0 [outputs_0]              -- lines 68-69
      let (state_f, outs_f) ← streamLoopStatic op inputs size 0 initial arrays    -- lines 71-73
      let outputs ← mapFn (fn1 TArr.stack) outs_f [outs_f]                        -- line 75
      .ok (outputs, state_f, initial)

/-- streamable.py:78-87 `__call__(inputs, state)` with `streamable=True`, when the shapes are known. -/
def callStatic (op : Operator α) (inputs : Val α) (state : Option (Val α) := none) : Res (Step α) := do
  let inputs ← toTensors inputs
  let state ← match state with
    | some s => do pure (some (← toTensors s))
    | none => pure none
  callStreamedStatic op inputs state

end TS
