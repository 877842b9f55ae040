import Verif.Model.Helpers
/-
streamable.py
-/
namespace TS
open PyVal

variable {α : Type}

/-- A step result: (output, next state, initial state), see streamable.py:39,51. -/
abbrev Step (α : Type) := Val α × Val α × Val α

/-- An operator is what `Streamable.forward_step(inputs, state)` computes (streamable.py:95-103 and
116-122); `none` is Python `None`.  Session-time randomness and side effects do not exist in the
library, so a function is enough. -/
structure Operator (α : Type) where
  forwardStep : Val α → Option (Val α) → Res (Step α)

/-- streamable.py:96-103: "By default we unpack inputs and state": a tuple or list is spread over the
positional parameters, anything else is one argument, `None` state is no argument. -/
def unpackArgs : Val α → List (Val α)
  | .node .tuple xs => xs
  | .node .list xs => xs
  | v => [v]

/-- streamable.py:7-114 class `Streamable`: an operator given by its `step(*inputs, *state)`. -/
def streamable (step : List (Val α) → Res (Step α)) : Operator α where
  forwardStep inputs state :=
    step (unpackArgs inputs ++ (match state with | none => [] | some s => unpackArgs s))

/-- streamable.py:116-122 class `MetaStreamable`: `step(inputs, state)`. -/
def metaStreamable (step : Val α → Option (Val α) → Res (Step α)) : Operator α where
  forwardStep := step

/-- streamable.py:105-114 `concat(v1, v2)`, used on shapes only: the shape of a buffer is
`concat([period], tf.shape(value))`.  A shape is a list here; the empty tuple and the empty tensor are both `[]`. -/
def concat (v1 v2 : List Nat) : List Nat := if v1 = [] then v2 else if v2 = [] then v1 else v1 ++ v2

/-- streamable.py:89-93 the default `step` raises. -/
def abstractStreamable : Operator α := streamable fun _ => .error .notImplemented

/-- streamable.py:17-21 `to_type`: the nested structure of dtypes. -/
def toType (v : Val α) : Res (PyVal DType) :=
  mapFn (fn1 fun l => do (← l.toTensor).dtype) v [v]

/-- streamable.py:8-15 `check_types_equality`. -/
def checkTypesEquality (t1 t2 : PyVal DType) : Res Unit :=
  if t1 ≠ t2 then .error .stateTypes else .ok ()

/-- A `tf.TensorArray`: dtype and write-once slots (streamable.py:69). -/
structure TArr (α : Type) where
  dtype : DType
  slots : List (Option (Leaf α))

/-- streamable.py:69 `tf.TensorArray(dtype=x.dtype, size=size)`. -/
def TArr.new (size : Nat) (x : Leaf α) : Res (TArr α) := do
  .ok ⟨← x.dtype, List.replicate size none⟩

/-- `TensorArray.write(i, x)`: dtype must agree, the slot must exist and be empty (streamable.py:62). -/
def TArr.write (i : Nat) (x : Leaf α) (y : TArr α) : Res (TArr α) := do
  let dt ← x.dtype
  if dt ≠ y.dtype then .error .dtype
  else match y.slots[i]? with
    | some none => .ok { y with slots := y.slots.set i (some x) }
    | _ => .error .tensorArray

/-- Reading one slot of a tensor array: it must have been written (streamable.py:75). -/
def TArr.read : Option (Leaf α) → Res (Leaf α)
  | some l => .ok l
  | none => .error .tensorArray

/-- `TensorArray.stack()`: every slot must have been written (streamable.py:75). -/
def TArr.stack (y : TArr α) : Res (Leaf α) := do
  let ls ← y.slots.mapM TArr.read
  Leaf.stack ls

/-- streamable.py:62 `lambda x, y: y.write(i, x)`; the two arguments have different leaf types. -/
def writeFn (i : Nat) : List (PyVal (Leaf α ⊕ TArr α)) → Res (TArr α)
  | [.leaf (.inl x), .leaf (.inr y)] => y.write i x
  | _ => .error .typeError

/-- streamable.py:48-65 the loop body.  `tf.while_loop` also requires the loop variables to keep their
structure (checked here for the outputs; for the state it follows from line 56).  Here shapes are
unknown while the graph is built, so that `set_shape` (lines 63-64) accepts everything; Model/StaticShapes.lean has the case in which they are known. -/
def streamBody (op : Operator α) (inputs : Val α) (i : Nat) (state : Val α) (outs : PyVal (TArr α)) :
    Res (Val α × PyVal (TArr α)) := do
  let inputs_i ← mapFn (fn1 (Leaf.index i)) inputs [inputs]
  let (outputs_i, next, _) ← op.forwardStep inputs_i (some state)
  checkTypesEquality (← toType state) (← toType next)
  let outs' ← mapFn (writeFn i) outputs_i [outputs_i.map .inl, outs.map .inr]
  if outs'.skel ≠ outs.skel then .error .structure
  else .ok (next, outs')

/-- streamable.py:71-73 `tf.while_loop` with `cond: i < size`; the first argument is the number of
iterations left. -/
def streamLoop (op : Operator α) (inputs : Val α) :
    Nat → Nat → Val α → PyVal (TArr α) → Res (Val α × PyVal (TArr α))
  | 0, _, state, outs => .ok (state, outs)
  | n + 1, i, state, outs => do
    let (state', outs') ← streamBody op inputs i state outs
    streamLoop op inputs n (i + 1) state' outs'

/-- streamable.py:23-76 `call_streamed(inputs_tensors, provided_state)`.  Simplified: on series of
length 0 the slice `x[0]` of line 38 is an error even where TensorFlow would prune it. -/
def callStreamed (op : Operator α) (inputs : Val α) (provided : Option (Val α)) : Res (Step α) := do
  let sizes ← (flatten inputs).mapM Leaf.size0                                   -- line 30
  match sizes with
  | [] => .error .indexError                                                      -- line 31
  | size :: _ =>
    let same := sizes.foldl (fun acc x => acc && x == size) true                  -- lines 32-33
    if same ≠ true then .error .sizeMismatch                                      -- lines 35-36
    else do
      let inputs_0 ← mapFn (fn1 (Leaf.index 0)) inputs [inputs]                   -- line 38
      let (outputs_0, _, init) ← op.forwardStep inputs_0 provided                 -- line 39
      let initial := match provided with | some s => s | none => init             -- lines 42-43
      let arrays ← mapFn (fn1 (TArr.new size)) outputs_0 [outputs_0]              -- lines 68-69
      let (state_f, outs_f) ← streamLoop op inputs size 0 initial arrays          -- lines 71-73
      let outputs ← mapFn (fn1 TArr.stack) outs_f [outs_f]                        -- line 75
      .ok (outputs, state_f, initial)

/-- streamable.py:80 and 82: convert every leaf to a tensor. -/
def toTensors (v : Val α) : Res (Val α) := mapFn (fn1 Leaf.toTensor) v [v]

/-- streamable.py:78-87 `__call__(inputs, state=None, streamable=True)`. -/
def call (op : Operator α) (inputs : Val α) (state : Option (Val α) := none)
    (streamable : Bool := true) : Res (Step α) := do
  let inputs ← toTensors inputs
  let state ← match state with
    | some s => do pure (some (← toTensors s))
    | none => pure none
  if streamable then callStreamed op inputs state else op.forwardStep inputs state

end TS
