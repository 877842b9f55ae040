import Verif.Model.Args
/-
common/: make_streamable, common, lag, set_during, extremum, correlation, automaton
-/
namespace TS
open PyVal
variable {α : Type}

/-! ### make_streamable.py and common.py -/

/-- common/make_streamable.py:4-14 `make_streamable(fn)`. -/
def makeStreamable (fn : List (Val α) → Res (Val α)) : Operator α :=
  streamable fun args => do .ok (← fn args, PyVal.unit, PyVal.unit)

/-- Broadcasting of `x - y`, `x + y`, `x * y` (common/common.py:7,11,15; TensorFlow follows NumPy), one axis: equal sizes, or one of them 1. -/
def bcDim (a b : Nat) : Res Nat := if a = b then .ok a else if a = 1 then .ok b else if b = 1 then .ok a else .error .shape

/-- Broadcasting (common/common.py:7,11,15): a shape with axes of size 1 put in front, up to `n` axes. -/
def padShape (n : Nat) (s : List Nat) : List Nat := List.replicate (n - s.length) 1 ++ s

/-- Shape of the result of a binary elementwise operation (common/common.py:7,11,15). -/
def bcShape (s t : List Nat) : Res (List Nat) :=
  let n := max s.length t.length
  ((padShape n s).zip (padShape n t)).mapM fun d => bcDim d.1 d.2

/-- Broadcasting (common/common.py:7,11,15): where an operand of the shape `s` is read for an element of the result, whose shape is `r`: the additional leading axes are
ignored, on axes of size 1 the index is 0. -/
def bcIdx : (r s : List Nat) → Res (Idx r → Idx s)
  | [], [] => .ok id
  | [], _ :: _ => .error .shape
  | n :: r, s =>
    if s.length ≤ r.length then do let g ← bcIdx r s; .ok fun c => g c.2
    else match s with
      | [] => .error .shape
      | m :: s => do
        let g ← bcIdx r s
        if h : n = m then .ok fun c => (Fin.cast h c.1, g c.2)
        else if h : m = 1 then .ok fun c => (⟨0, by omega⟩, g c.2)
        else .error .shape

/-- A binary elementwise operation with broadcasting (the operators of common/common.py:7,11,15). -/
def broadcast {β γ : Type} (f : β → β → γ) (x y : Tensor β) : Res (Tensor γ) := do
  let r ← bcShape x.shape y.shape
  let g ← bcIdx r x.shape
  let g' ← bcIdx r y.shape
  .ok ⟨r, fun c => f (x.val (g c)) (y.val (g' c))⟩

/-- A binary arithmetic operator on tensors of equal dtype (`x - y` etc. in common/common.py:7,11,15). -/
def arith2 (ff : α → α → α) (fi : Int → Int → Int) : Leaf α → Leaf α → Res (Leaf α)
  | .f x, .f y => .f <$> broadcast ff x y
  | .i x, .i y => .i <$> broadcast fi x y
  | _, _ => .error .dtype

/-- A two-parameter lambda on tensors (common/common.py:7, 11, 15: the lambdas are called with `*inputs`, common/make_streamable.py:10). -/
def lambda2 (f : Leaf α → Leaf α → Res (Leaf α)) : List (Val α) → Res (Val α)
  | [x, y] => do .ok (.leaf (← f (← decLeaf x) (← decLeaf y)))
  | _ => .error .typeError

section
variable [TFNum α]
/-- common/common.py:6-7 `Sub()`. -/
def Sub : Operator α := makeStreamable (lambda2 (arith2 (· - ·) (· - ·)))
/-- common/common.py:10-11 `Add()`. -/
def Add : Operator α := makeStreamable (lambda2 (arith2 (· + ·) (· + ·)))
/-- common/common.py:14-15 `Mul()`. -/
def Mul : Operator α := makeStreamable (lambda2 (arith2 (· * ·) (· * ·)))
end

/-- common/common.py:18-19 `Fork(count)`: `tuple([x] * count)`. -/
def Fork (count : Nat) : Operator α := makeStreamable fun args => match args with
  | [x] => .ok (.tup (List.replicate count x))
  | _ => .error .typeError

/-- common/common.py:22-23 `Identity()`. -/
def Identity : Operator α := makeStreamable fun args => match args with
  | [x] => .ok x
  | _ => .error .typeError

/-- The three kinds of argument of `Select` (common/common.py:25-31). -/
inductive Indices where
  | tuple (is : List Int)
  | list (is : List Int)
  | int (i : Int)

/-- common/common.py:25-31 `Select(indices)`.  For a tuple the lambda returns a generator expression
(line 27), which is a Python object that is neither a tensor nor a container. -/
def Select : Indices → Operator α
  | .tuple _ => makeStreamable fun _ => .ok (.leaf .gen)
  | .list is => makeStreamable fun args => do .ok (.node .list (← is.mapM (pyIndex args)))
  | .int i => makeStreamable fun args => pyIndex args i

section
variable [TFNum α]
/-- common/common.py:35-38 and 43-46: `tf.where(cmp(x, zeros), ones, zeros)`.  Not modelled:
`shape=x.shape` needs a statically known shape. -/
def indicator (cf : α → Bool) (ci : Int → Bool) : List (Val α) → Res (Val α)
  | [.leaf (.f t)] => .ok (.leaf (.f (t.map fun x => if cf x then Arith.ofRat 1 else Arith.zero)))
  | [.leaf (.i t)] => .ok (.leaf (.i (t.map fun x => if ci x then 1 else 0)))
  | _ => .error .typeError

/-- common/common.py:34-39 `Positive()`. -/
def Positive : Operator α := makeStreamable (indicator (fun x => TFNum.lt Arith.zero x) (fun n => 0 < n))
/-- common/common.py:42-47 `Negative()`. -/
def Negative : Operator α := makeStreamable (indicator (fun x => TFNum.lt x Arith.zero) (fun n => n < 0))

/-! ### lag.py -/

/-- `tf.zeros(concat([[period], tf.shape(value)]), value.dtype)` (common/lag.py:13-14). -/
def zerosBufLike (period : Int) (value : Leaf α) : Res (Leaf α) :=
  if period < 0 then .error .valueError
  else match value with
    | .f t => .ok (.f (Tensor.pack t.shape (List.replicate period.toNat fun _ => Arith.zero)))
    | .i t => .ok (.i (Tensor.pack t.shape (List.replicate period.toNat fun _ => 0)))
    | .b t => .ok (.b (Tensor.pack t.shape (List.replicate period.toNat fun _ => false)))
    | .gen => .error .typeError

end

/-- `roll(value, buffer)` on tensors of any dtype (common/__init__.py:27-28). -/
def rollLeaf : Leaf α → Leaf α → Res (Leaf α)
  | .f v, .f b => do .ok (.f (Tensor.pack v.shape (roll v.val (← b.unpack v.shape))))
  | .i v, .i b => do .ok (.i (Tensor.pack v.shape (roll v.val (← b.unpack v.shape))))
  | .b v, .b b => do .ok (.b (Tensor.pack v.shape (roll v.val (← b.unpack v.shape))))
  | _, _ => .error .dtype

/-- `buffer[-1]` (common/lag.py:16). -/
def lastLeaf (b : Leaf α) : Res (Leaf α) := do
  match ← b.size0 with
  | 0 => .error .indexError
  | n + 1 => b.index n

section
variable [TFNum α]
/-- common/lag.py:11-18 `Lag.step`. -/
def lagStep (period : Int) (value : Leaf α) (buffer_state : Option (Leaf α)) :
    Res (Leaf α × Leaf α × Leaf α) := do
  let buffer_state ← match buffer_state with
    | none => zerosBufLike period value
    | some b => pure b
  let new_value ← lastLeaf buffer_state
  let new_buffer ← rollLeaf value buffer_state
  .ok (new_value, new_buffer, buffer_state)

/-- common/lag.py:6-18 `Lag(period)`. -/
def Lag (period : Int) : Operator α := streamable fun args => do
  arity 1 2 args
  let (o, n, i) ← lagStep period (← req args 0 decLeaf) (← opt args 1 decLeaf)
  .ok (.leaf o, .leaf n, .leaf i)
end

/-! ### set_during.py -/

/-- common/set_during.py:20-24: `tf.cond(iteration < period, fill(shape(x), value), x)`.  `tf.fill`
needs a scalar value; the two branches must have the same dtype. -/
def setLeaf (value : Leaf α) (during : Bool) (x : Leaf α) : Res (Leaf α) :=
  match value, x with
  | .f v, .f t => do let v ← v.asShape []; .ok (.f (if during then ⟨t.shape, fun _ => v ()⟩ else t))
  | .i v, .i t => do let v ← v.asShape []; .ok (.i (if during then ⟨t.shape, fun _ => v ()⟩ else t))
  | .b v, .b t => do let v ← v.asShape []; .ok (.b (if during then ⟨t.shape, fun _ => v ()⟩ else t))
  | _, _ => .error .dtype

/-- common/set_during.py:15-25 `SetDuring.step`. -/
def setDuringStep (value : Leaf α) (period : Int) (inputs : Val α) (states : Option (Val α)) :
    Res (Step α) := do
  let states := states.getD (.tup [vI 0])
  let iteration ← decI (← getItem 0 states)
  let out ← mapFn (fn1 (setLeaf value (decide (iteration < period)))) inputs [inputs]
  .ok (out, .tup [vI (iteration + 1)], .tup [vI iteration])

/-- common/set_during.py:6-13 `SetDuring(value, period)`. -/
def SetDuring (value : Leaf α) (period : Int) : Operator α := metaStreamable (setDuringStep value period)

/-! ### extremum.py -/
section
variable [TFNum α]

/-- common/extremum.py:7-21 `GlobalMinimum.step`, 24-36 `GlobalMaximum.step` on elements of a dtype (scalars, because of the
`tf.cond` predicate); `better value global` is `value < global` or `value > global`. -/
def globalStep {E : Type} (zero : E) (better : E → E → Bool) (value : E) (global : Option E) (first : Option Bool) : E × (E × Bool) × (E × Bool) :=
  let global := global.getD zero                                                  -- lines 10-11, 25-26
  let first := first.getD true
  let new := if first || better value global then value else global               -- lines 13-20, 28-35
  (new, (new, false), (global, first))

/-- Reading the arguments of the two `step` methods, building the results (common/extremum.py:7-8, 21, 24, 36). -/
def globalArgs {E : Type} (dec : Val α → Res E) (enc : E → Val α) (step : E → Option E → Option Bool → E × (E × Bool) × (E × Bool))
    (args : List (Val α)) : Res (Step α) := do
  let (o, n, i) := step (← req args 0 dec) (← opt args 1 dec) (← opt args 2 decB)
  .ok (enc o, .tup [enc n.1, vB n.2], .tup [enc i.1, vB i.2])

/-- The two classes work on float and int scalars; `tf.less` does not accept bools (common/extremum.py:6-36). -/
def globalExtremum (betterF : α → α → Bool) (betterI : Int → Int → Bool) : Operator α := streamable fun args => do
  arity 1 3 args
  match ← req args 0 decLeaf with
  | .i _ => globalArgs decI vI (globalStep 0 betterI) args
  | _ => globalArgs decS vS (globalStep Arith.zero betterF) args

/-- common/extremum.py:6-21 class `GlobalMinimum`. -/
def GlobalMinimum : Operator α := globalExtremum (fun v m => TFNum.lt v m) (fun v m => decide (v < m))
/-- common/extremum.py:23-36 class `GlobalMaximum`. -/
def GlobalMaximum : Operator α := globalExtremum (fun v m => TFNum.lt m v) (fun v m => decide (m < v))

/-- `tf.zeros([period], dtype)`, a vector of zeros of a dtype; a negative dimension is an error (common/extremum.py:49-50 and common/extremum.py:65-66). -/
def zerosOf {E : Type} (zero : E) (period : Int) : Res (List E) :=
  if period < 0 then .error .valueError else .ok (List.replicate period.toNat zero)

/-- common/extremum.py:47-57 `LocalMinimum.step` and 63-74 `LocalMaximum.step` on elements of a dtype (scalars, because `shift`
slices with a vector of length 1); `red` is `tf.reduce_min` or `tf.reduce_max`. -/
def localExtremumStep {E : Type} (zero : E) (red : List E → E) (period : Int) (value : E) (last_values : Option (List E))
    (iteration : Option Int) : Res (E × (List E × Int) × (List E × Int)) := do
  let iteration := iteration.getD 0
  let last_values ← match last_values with
    | none => zerosOf zero period                                                 -- lines 49-50, 65-66
    | some l => pure l
  let new_last_values := shift value last_values
  let v := if iteration < period - 1 then red (pyTake new_last_values (iteration + 1)) else red new_last_values
  .ok (v, (new_last_values, iteration + 1), (last_values, iteration))

/-- Reading the arguments of the two `step` methods, building the results (common/extremum.py:47, 57, 63, 74). -/
def localArgs {E : Type} (dec : Val α → Res E) (decs : Val α → Res (List E)) (enc : E → Val α) (encs : List E → Val α)
    (step : E → Option (List E) → Option Int → Res (E × (List E × Int) × (List E × Int))) (args : List (Val α)) : Res (Step α) := do
  let (o, n, i) ← step (← req args 0 dec) (← opt args 1 decs) (← opt args 2 decI)
  .ok (enc o, .tup [encs n.1, vI n.2], .tup [encs i.1, vI i.2])

/-- The two classes work on float and int scalars (common/extremum.py:43-74). -/
def localExtremum (redF : List α → α) (redI : List Int → Int) (period : Int) : Operator α := streamable fun args => do
  arity 1 3 args
  match ← req args 0 decLeaf with
  | .i _ => localArgs decI decIBuf vI vIBuf (localExtremumStep 0 redI period) args
  | _ => localArgs decS decSBuf vS vSBuf (localExtremumStep Arith.zero redF period) args

/-- `tf.reduce_min` of an int32 vector; the largest int32 when it is empty (common/extremum.py:54-55). -/
def redMinInt : List Int → Int
  | [] => 2147483647
  | [x] => x
  | x :: xs => min x (redMinInt xs)

/-- `tf.reduce_max` of an int32 vector; the smallest int32 when it is empty (common/extremum.py:71-72). -/
def redMaxInt : List Int → Int
  | [] => -2147483648
  | [x] => x
  | x :: xs => max x (redMaxInt xs)

/-- common/extremum.py:43-57 class `LocalMinimum`. -/
def LocalMinimum (period : Int) : Operator α := localExtremum Arith.redMin redMinInt period
/-- common/extremum.py:59-74 class `LocalMaximum`. -/
def LocalMaximum (period : Int) : Operator α := localExtremum Arith.redMax redMaxInt period

/-! ### correlation.py -/

/-- `tf.reduce_mean(x, axis=0)` (common/correlation.py:28-29). -/
def reduceMean0 (x : Tensor α) : Res (Tensor α) :=
  match x with
  | ⟨[], _⟩ => .error .valueError
  | ⟨n :: s, v⟩ => .ok ⟨s, Arith.mean (List.ofFn fun (i : Fin n) (c : Idx s) => v (i, c))⟩

/-- common/correlation.py:23-30 `compute_correlation(values1, values2)`.  Each window minus its mean has the shape of the window; the other
operations broadcast. -/
def computeCorrelation {s t : List Nat} (values1 : List (Idx s → α)) (values2 : List (Idx t → α)) : Res (Tensor α) := do
  let (mean1, var1) := Arith.moments values1                                      -- line 24
  let (mean2, var2) := Arith.moments values2                                      -- line 25
  let stddev1 := Arith.sqrt var1
  let stddev2 := Arith.sqrt var2
  let products ← broadcast (· * ·) (Tensor.pack s (values1.map (· - mean1)))      -- lines 28-29
    (Tensor.pack t (values2.map (· - mean2)))
  let covariance ← reduceMean0 products
  broadcast (· / ·) covariance (← broadcast (· * ·) ⟨s, stddev1⟩ ⟨t, stddev2⟩)    -- line 30

/-- common/correlation.py:35-38 the `tf.cond` of `Correlation.step`.  Only the branch taken is executed; with known shapes TensorFlow
notices incompatible ones while it builds the other branch. -/
def correlationOrZero {s t : List Nat} (period iteration : Int) (new1 : List (Idx s → α)) (new2 : List (Idx t → α)) : Res (Tensor α) :=
  if iteration < period then .ok ⟨s, Arith.zero⟩ else computeCorrelation new1 new2

/-- common/correlation.py:11-48 `Correlation.step`. -/
def correlationStep {s t : List Nat} (period : Int) (value1 : Idx s → α) (value2 : Idx t → α) (iteration : Option Int)
    (last1 : Option (List (Idx s → α))) (last2 : Option (List (Idx t → α))) :
    Res (Tensor α × (Int × List (Idx s → α) × List (Idx t → α)) × (Int × List (Idx s → α) × List (Idx t → α))) := do
  let iteration := iteration.getD 0
  let last1 ← match last1 with | none => zerosBuf period | some l => pure l
  let last2 ← match last2 with | none => zerosBuf period | some l => pure l
  let new1 := roll value1 last1
  let new2 := roll value2 last2
  let correlation ← correlationOrZero period iteration new1 new2
  .ok (correlation, (iteration + 1, new1, new2), (iteration, last1, last2))

/-- common/correlation.py:6-48 class `Correlation`. -/
def Correlation (period : Int) : Operator α := streamable fun args => do
  arity 2 5 args
  let t ← req args 0 decF
  let u ← req args 1 decF
  let (o, n, i) ← correlationStep period t.val u.val (← opt args 2 decI)
    (← opt args 3 (decBuf t.shape)) (← opt args 4 (decBuf u.shape))
  .ok (.leaf (.f o), .tup [vI n.1, vBuf n.2.1, vBuf n.2.2], .tup [vI i.1, vBuf i.2.1, vBuf i.2.2])

/-- common/correlation.py:50-87 class `CrossCorrelation`. -/
def CrossCorrelation (period lag : Int) : Operator α := streamable fun args => do
  arity 2 5 args
  let t ← req args 0 decF
  let value2 ← req args 1 (decFs t.shape)
  let iteration := (← opt args 2 decI).getD 0                                     -- lines 61-62
  let prevCorr ← opt args 3 decAny
  let lagBuffer ← orZeros lag (← opt args 4 (decBuf t.shape))                     -- lines 63-65
  let lagged ← pyIndex lagBuffer (lag - 1)                                        -- line 67
  let (corr, nextCorr, corrInit) ←                                                -- lines 69-73
    call (Correlation period) (.tup [vF t.val, vF lagged]) prevCorr false
  let prevCorr := prevCorr.getD corrInit                                          -- lines 75-76
  let (corr, newCorr) ← asPair (← tfCond (decide (iteration < lag))               -- lines 78-81
    (.tup [vF (s := t.shape) fun _ => Arith.zero, prevCorr]) (.tup [corr, nextCorr]))
  let newLag := roll value2 lagBuffer                                             -- line 82
  .ok (corr, .tup [vI (iteration + 1), newCorr, vBuf newLag], .tup [vI iteration, corrInit, vBuf lagBuffer])

/-- common/correlation.py:89-100 class `AutoCorrelation`. -/
def AutoCorrelation (period lag : Int) : Operator α := streamable fun args => do
  arity 1 2 args
  let value ← req args 0 decAny
  let (corr, next, init) ← call (CrossCorrelation period lag) (.tup [value, value]) (← opt args 1 decAny) false
  .ok (corr, .tup [next], .tup [init])

end

/-! ### automaton.py -/

/-- One row of the transition table (common/automaton.py:15-22): source, target, guard, action.  The
guard and the action receive the unpacked inputs; the guard returns a scalar bool. -/
structure Transition (α : Type) where
  source : Int
  target : Int
  guard : List (Val α) → Res Bool
  action : List (Val α) → Res (Val α)

/-- common/automaton.py:10-30 `Automaton.step`.  `tf.case` (not exclusive) takes the first true case; it
rejects an empty list of cases.
Simplified: states are ints; all actions return values of one type (else `tf.case` rejects them: the
model compares every action with the default action). -/
def automatonStep (transitions : List (Transition α)) (init : Int)
    (default : List (Val α) → Res (Val α)) (inputs : Val α) (prev : Option (Val α)) : Res (Step α) := do
  let prev ← match prev with | none => pure init | some v => decI v
  let args ← asSeq inputs
  let cases ← transitions.mapM fun t => do
    let g ← t.guard args
    let out ← t.action args
    pure (decide (prev = t.source) && g, (out, t.target))
  let defValue ← default args
  let ty ← toType defValue
  let tys ← cases.mapM fun c => toType c.2.1
  if cases.isEmpty then .error .valueError
  else if tys.any (· ≠ ty) then .error .structure
  else
    let (action, next) := tfCase cases (defValue, prev)
    .ok (action, vI next, vI prev)

/-- common/automaton.py:4-8 `Automaton(transitions, init_state, default_action)`. -/
def Automaton (transitions : List (Transition α)) (init : Int) (default : List (Val α) → Res (Val α)) :
    Operator α := metaStreamable (automatonStep transitions init default)

end TS
