import Verif.Model.TFControl
/-
meta/compose.py, meta/join.py, meta/factory.py, meta/map.py, meta/ffill.py
-/
namespace TS
open PyVal
variable {α : Type}

/-- `states` as the list zipped with the operators: `[None] * n` when no state is given
(meta/compose.py:9-10, meta/join.py:9-10), else the elements of the given tuple or list. -/
def opStates (n : Nat) : Option (Val α) → Res (List (Option (Val α)))
  | none => .ok (List.replicate n none)
  | some s => do .ok ((← asSeq s).map some)

/-- meta/compose.py:17-22 the loop over `(operator, state)`: returns the last output and the lists of
next and initial states. -/
def composeLoop : List (Operator α × Option (Val α)) → Val α → Res (Val α × List (Val α) × List (Val α))
  | [], x => .ok (x, [], [])
  | (op, st) :: rest, x => do
    let (out, next, init) ← call op x st false
    let (final, nexts, inits) ← composeLoop rest out
    .ok (final, next :: nexts, init :: inits)

/-- meta/compose.py:8-24 `Compose.step`, with `ops` in execution order.  Over no operator the variable
`output` is never assigned. -/
def composeStep (ops : List (Operator α)) (inputs : Val α) (states : Option (Val α)) : Res (Step α) := do
  let sts ← opStates ops.length states
  let opSts := ops.zip sts
  if opSts.isEmpty then .error .unboundLocal
  else do
    let (out, nexts, inits) ← composeLoop opSts inputs
    .ok (out, .tup nexts, .tup inits)

/-- meta/compose.py:3-6 `Compose(*operators)`: operators are stored reversed. -/
def Compose (operators : List (Operator α)) : Operator α :=
  metaStreamable (composeStep operators.reverse)

/-- meta/join.py:15-21 the loop over `zip(operators, inputs, states)`. -/
def joinLoop : List (Operator α × Val α × Option (Val α)) →
    Res (List (Val α) × List (Val α) × List (Val α))
  | [] => .ok ([], [], [])
  | (op, x, st) :: rest => do
    let (out, next, init) ← call op x st false
    let (outs, nexts, inits) ← joinLoop rest
    .ok (out :: outs, next :: nexts, init :: inits)

/-- meta/join.py:8-22 `Join.step`. -/
def joinStep (ops : List (Operator α)) (inputs : Val α) (states : Option (Val α)) : Res (Step α) := do
  let sts ← opStates ops.length states
  let xs ← asSeq inputs
  let (outs, nexts, inits) ← joinLoop (ops.zip (xs.zip sts))
  .ok (.tup outs, .tup nexts, .tup inits)

/-- meta/join.py:3-6 `Join(*operators)`. -/
def Join (operators : List (Operator α)) : Operator α := metaStreamable (joinStep operators)

/-- meta/factory.py:4-6 `Factory(operator_clazz, operators_args)`. -/
def Factory {Args : Type} (clazz : Args → Operator α) (args : List Args) : Operator α :=
  Join (args.map clazz)

/-- meta/map.py:13-15, 23-24: `tf.tile(tf.expand_dims(x, axis=0), [size, 1, ..., 1])`. -/
def tileLeaf (size : Int) (l : Leaf α) : Res (Leaf α) :=
  if size < 0 then .error .valueError
  else match l with
    | .f t => .ok (.f (Tensor.pack t.shape (List.replicate size.toNat t.val)))
    | .i t => .ok (.i (Tensor.pack t.shape (List.replicate size.toNat t.val)))
    | .b t => .ok (.b (Tensor.pack t.shape (List.replicate size.toNat t.val)))
    | .gen => .error .typeError

/-- The loop of `tf.map_fn(apply_op, (inputs, prev_state), dtype=...)` (meta/map.py:32-44): row `i` of
every leaf goes through the operator, results are written to tensor arrays.  The structure and dtypes
of every result must be the declared ones. -/
def mapLoop (op : Operator α) (inputs state : Val α) (outTy stTy : PyVal DType) :
    Nat → Nat → PyVal (TArr α) → PyVal (TArr α) → Res (PyVal (TArr α) × PyVal (TArr α))
  | 0, _, outs, sts => .ok (outs, sts)
  | n + 1, i, outs, sts => do
    let x ← mapFn (fn1 (Leaf.index i)) inputs [inputs]
    let s ← mapFn (fn1 (Leaf.index i)) state [state]
    let (o, s', _) ← call op x (some s) false
    if (← toType o) ≠ outTy then .error .structure
    else if (← toType s') ≠ stTy then .error .structure
    else do
      let outs' ← mapFn (writeFn i) o [o.map .inl, outs.map .inr]
      let sts' ← mapFn (writeFn i) s' [s'.map .inl, sts.map .inr]
      mapLoop op inputs state outTy stTy n (i + 1) outs' sts'

/-- meta/map.py:12-45 `Map.step`.  `tf.map_fn` takes the number of rows from the first flattened leaf
of `(inputs, prev_state)`; all leaves must have that leading dimension.  Simplified: zero rows are an
error (TensorFlow cannot stack an empty array of unknown shape). -/
def mapStep (op : Operator α) (size : Int) (inputs : Val α) (states : Option (Val α)) : Res (Step α) := do
  let inputs_0 ← mapFn (fn1 (Leaf.index 0)) inputs [inputs]                       -- line 17
  let (opValue, _, init) ← call op inputs_0 none false                            -- lines 19-20
  let states ← match states with                                                  -- lines 22-25
    | none => do pure (PyVal.tup [← mapFn (fn1 (tileLeaf size)) init [init]])
    | some s => pure s
  let prev ← getItem 0 states                                                     -- line 27
  let stTy ← toType prev                                                          -- line 29
  let outTy ← mapFn (fn1 Leaf.dtype) opValue [opValue]                            -- line 30
  let sizes ← (flatten inputs ++ flatten prev).mapM Leaf.size0
  match sizes with
  | [] => .error .valueError
  | n :: _ =>
    if sizes.any (· != n) then .error .tensorArray
    else do
      let outs ← mapFn (fn1 (TArr.new n)) opValue [opValue]
      let sts ← mapFn (fn1 (TArr.new n)) prev [prev]
      let (outs', sts') ← mapLoop op inputs prev outTy stTy n 0 outs sts          -- lines 40-44
      let outputs ← mapFn (fn1 TArr.stack) outs' [outs']
      let next ← mapFn (fn1 TArr.stack) sts' [sts']
      .ok (outputs, .tup [next], .tup [prev])                                     -- line 45

/-- meta/map.py:6-10 `Map(operator, size)`. -/
def Map (op : Operator α) (size : Int) : Operator α := metaStreamable (mapStep op size)

section ffill
variable [TFNum α]

/-- meta/ffill.py:38 `tf.zeros(tf.shape(p), p.dtype)`. -/
def zerosLike : Leaf α → Res (Leaf α)
  | .f t => .ok (.f ⟨t.shape, fun _ => Arith.zero⟩)
  | .i t => .ok (.i ⟨t.shape, fun _ => 0⟩)
  | .b t => .ok (.b ⟨t.shape, fun _ => false⟩)
  | .gen => .error .typeError

/-- meta/ffill.py:15-56 `FFill.step`. -/
def ffillStep (op : Operator α) (inputs : Val α) (states : Option (Val α)) : Res (Step α) := do
  let anyZero ← anyValue inputs Arith.zero                                        -- line 16
  let (prevOutput, prevState) ← match states with                                 -- lines 18-23
    | none => pure (none, none)
    | some s => do pure (some (← getItem 0 s), some (← getItem 1 s))
  let (outputs, next, init) ← call op inputs prevState false                      -- lines 25-29
  let prevState := prevState.getD init                                            -- lines 31-32
  let prevOutput ← match prevOutput with                                          -- lines 34-40
    | none => mapFn (fn1 zerosLike) outputs [outputs]
    | some o => pure o
  let selected ← tfCond anyZero prevOutput outputs                                -- lines 42-45
  let selectedState ← match init with                                             -- lines 47-54
    | .node .tuple [] => pure PyVal.unit
    | _ => tfCond anyZero prevState next
  .ok (selected, .tup [selected, selectedState], .tup [prevOutput, init])         -- line 56

/-- meta/ffill.py:7-13 `FFill(operator)`. -/
def FFill (op : Operator α) : Operator α := metaStreamable (ffillStep op)

end ffill
end TS
