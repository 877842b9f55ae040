import Verif.Model.TFControl
/-
Reading positional arguments of a `step` method and building the returned values.
-/
namespace TS
open PyVal
variable {α : Type} {A : Type}

/-- Python checks the number of positional arguments of `step` (self excluded) (streamable.py:103 `self.step(*inputs, *state)`). -/
def arity (lo hi : Nat) (args : List (Val α)) : Res Unit :=
  if lo ≤ args.length ∧ args.length ≤ hi then .ok () else .error .typeError

/-- A required positional parameter (e.g. `value`, finance/moving_average.py:11). -/
def req (args : List (Val α)) (k : Nat) (dec : Val α → Res A) : Res A :=
  match args[k]? with
  | some v => dec v
  | none => .error .typeError

/-- A positional parameter with default `None` (e.g. `iteration=None`, finance/moving_average.py:11). -/
def opt (args : List (Val α)) (k : Nat) (dec : Val α → Res A) : Res (Option A) :=
  match args[k]? with
  | some v => do .ok (some (← dec v))
  | none => .ok none

/-- Any value (e.g. `prev_corr_state`, common/correlation.py:94). -/
def decAny (v : Val α) : Res (Val α) := .ok v

/-- A tensor argument; containers make TensorFlow operations fail (e.g. `tf.shape(value)`, finance/moving_average.py:15). -/
def decLeaf : Val α → Res (Leaf α)
  | .leaf l => .ok l
  | .node _ _ => .error .typeError

/-- A float tensor (e.g. finance/moving_average.py:20). -/
def decF (v : Val α) : Res (Tensor α) := do (← decLeaf v).asF
/-- A float tensor of known shape.  Simplified: TensorFlow would broadcast compatible shapes; the model
accepts equal shapes only (e.g. `last_ema`, finance/moving_average.py:46). -/
def decFs (s : List Nat) (v : Val α) : Res (Idx s → α) := do (← decF v).asShape s
/-- A float buffer: a tensor whose slices along axis 0 have the given shape (e.g. `prev_buffer`, finance/moving_average.py:18). -/
def decBuf (s : List Nat) (v : Val α) : Res (List (Idx s → α)) := do (← decF v).unpack s
/-- A 0-dimensional float tensor.  Operators that use a value as a `tf.cond` predicate only work on
scalars (e.g. common/extremum.py:13-20). -/
def decS (v : Val α) : Res α := do .ok ((← decFs [] v) ())
/-- A float vector (e.g. `last_values`, common/extremum.py:51). -/
def decSBuf (v : Val α) : Res (List α) := do .ok ((← decBuf [] v).map fun x => x ())
/-- A 0-dimensional int tensor (e.g. `iteration`, finance/moving_average.py:19). -/
def decI (v : Val α) : Res Int := do .ok ((← (← (← decLeaf v).asI).asShape []) ())
/-- An int vector (`last_values` of an int series, common/extremum.py:51). -/
def decIBuf (v : Val α) : Res (List Int) := do .ok ((← (← (← decLeaf v).asI).unpack []).map fun x => x ())
/-- A 0-dimensional bool tensor (`is_first_iteration`, common/extremum.py:15). -/
def decB (v : Val α) : Res Bool := do .ok ((← (← (← decLeaf v).asB).asShape []) ())

/-- float tensor value (e.g. finance/moving_average.py:53) -/
abbrev vF {s : List Nat} (v : Idx s → α) : Val α := .leaf (.f ⟨s, v⟩)
/-- float buffer value (e.g. `new_buffer`, finance/moving_average.py:22) -/
abbrev vBuf {s : List Nat} (l : List (Idx s → α)) : Val α := .leaf (.f (Tensor.pack s l))
/-- scalar float value (e.g. common/extremum.py:21) -/
abbrev vS (x : α) : Val α := .leaf (.f (Tensor.scalar x))
/-- a number as the element function of a 0-dimensional tensor (e.g. a price in finance/drawdown.py:9) -/
def pt (x : α) : Idx [] → α := fun _ => x
/-- float vector value (e.g. `new_last_values`, common/extremum.py:57) -/
def vSBuf (l : List α) : Val α := .leaf (.f (Tensor.pack [] (l.map pt)))
/-- scalar int value (e.g. `iteration + 1`, finance/moving_average.py:22) -/
abbrev vI (n : Int) : Val α := .leaf (.i (Tensor.scalar n))
/-- scalar bool value (e.g. `False`, common/extremum.py:21) -/
abbrev vB (b : Bool) : Val α := .leaf (.b (Tensor.scalar b))
/-- int vector value (e.g. `drawdown_days`, finance/drawdown.py:31) -/
abbrev vIBuf (l : List Int) : Val α := .leaf (.i (Tensor.pack [] (l.map fun n _ => n)))
/-- int tensor value (finance/signals/zero_crossover_signal.py:43) -/
abbrev vIs {s : List Nat} (v : Idx s → Int) : Val α := .leaf (.i ⟨s, v⟩)

section
variable {E : Type}

/-- common/__init__.py:27-28 `roll(value, tensor) = concat([[value], tensor[:-1]])`. -/
def roll (value : E) (buf : List E) : List E := value :: buf.dropLast

/-- common/__init__.py:23-25 `shift(new_value, vector)`: `concat([[v], slice(vector, [0], [size - 1])])`.
On an empty vector the size is -1, which `tf.slice` reads as "everything". -/
def shift (value : E) (buf : List E) : List E := value :: buf.take (if buf.length = 0 then 0 else buf.length - 1)

/-- `tf.zeros(concat([[period], tf.shape(value)]))`; a negative dimension is an error (e.g. finance/moving_average.py:15-16, common/lag.py:13-14). -/
def zerosBuf [Arith E] (period : Int) : Res (List E) :=
  if period < 0 then .error .valueError else .ok (List.replicate period.toNat Arith.zero)

/-- `if buffer is None: buffer = tf.zeros(...)` (e.g. finance/moving_average.py:14-16, common/lag.py:12-14). -/
def orZeros [Arith E] (period : Int) (buf : Option (List E)) : Res (List E) :=
  match buf with
  | none => zerosBuf period
  | some l => .ok l

/-- `tensor[i]` for a Python int `i`, possibly negative (common/lag.py:16, common/common.py:29-31, finance/returns.py:18, common/correlation.py:67). -/
def pyIndex (l : List E) (i : Int) : Res E :=
  let j := if i < 0 then l.length + i else i
  if j < 0 then .error .indexError
  else match l[j.toNat]? with
    | some x => .ok x
    | none => .error .indexError

/-- `tensor[:n]` for an int `n`, possibly negative (common/extremum.py:54, finance/sharpe_ratio.py:31, finance/skewness.py:34). -/
def pyTake (l : List E) (n : Int) : List E :=
  if n < 0 then l.take ((l.length : Int) + n).toNat else l.take n.toNat

end
end TS
