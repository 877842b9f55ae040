import Verif.Props.Contract
/-
C74: how `step(*inputs, *state)` gets its arguments.
-/
namespace TS
open PyVal
variable {α : Type}

/-- Two ways of writing the same arguments: a list for a tuple, and a tuple of one tensor (or dict) for the tensor. -/
inductive SameArgs : Val α → Val α → Prop
  | listed (xs : List (Val α)) : SameArgs (.node .list xs) (.node .tuple xs)
  | single {x : Val α} (hx : unpackArgs x = [x]) : SameArgs (.node .tuple [x]) x

theorem SameArgs.flatten {a b : Val α} (h : SameArgs a b) : flatten a = flatten b := by
  cases h with
  | listed xs => simp [TS.flatten]
  | single hx => simp [TS.flatten, flattens]

theorem SameArgs.unpack {a b : Val α} (h : SameArgs a b) : unpackArgs a = unpackArgs b := by
  cases h with
  | listed xs => rfl
  | single hx => exact hx.symm

/-- The operator does not tell the two ways apart. -/
def Spreads (op : Operator α) : Prop := ∀ a b : Val α, SameArgs a b → ∀ st, op.forwardStep a st = op.forwardStep b st

theorem streamable_spreads (step : List (Val α) → Res (Step α)) : Spreads (streamable step) := fun a b h st => by
  simp only [streamable, h.unpack]

theorem unpackArgs_self {x : Val α} : unpackArgs x = [x] ↔ (∃ l, x = .leaf l) ∨ ∃ keys xs, x = .node (.dict keys) xs := by
  match x with
  | .leaf l => simp [unpackArgs]
  | .node .tuple xs =>
    simp only [unpackArgs, reduceCtorEq, exists_false, node.injEq, false_and, or_false, iff_false]
    intro h
    have := congrArg sizeOf h
    simp at this
    omega
  | .node .list xs =>
    simp only [unpackArgs, reduceCtorEq, exists_false, node.injEq, false_and, or_false, iff_false]
    intro h
    have := congrArg sizeOf h
    simp at this
    omega
  | .node (.dict k) xs => simp [unpackArgs]

/-- `map_fn` keeps this relation. -/
theorem SameArgs.mapFn' {B : Type} {a b : Val α} (h : SameArgs a b) (g : Leaf α → Res B) :
    (∃ e, TS.mapFn (fn1 g) a [a] = .error e ∧ TS.mapFn (fn1 g) b [b] = .error e) ∨
    ∃ u v, TS.mapFn (fn1 g) a [a] = .ok u ∧ TS.mapFn (fn1 g) b [b] = .ok v ∧ ((∃ xs, u = .node .list xs ∧ v = .node .tuple xs) ∨
      u = .node .tuple [v] ∧ ((∃ l, v = .leaf l) ∨ ∃ keys xs, v = .node (.dict keys) xs)) := by
  cases h with
  | listed xs =>
    simp only [TS.mapFn, List.mapM_cons, List.mapM_nil, asSeq]
    cases h : mapFnSeq (fn1 g) xs [xs] with
    | error e => exact .inl ⟨e, by simp [h, bind, Except.bind, pure, Except.pure]⟩
    | ok ys => exact .inr ⟨.node .list ys, .node .tuple ys, by simp [h, bind, Except.bind, pure, Except.pure], by simp [h, bind, Except.bind, pure, Except.pure], .inl ⟨ys, rfl, rfl⟩⟩
  | single hx =>
    simp only [TS.mapFn, List.mapM_cons, List.mapM_nil, asSeq]
    cases h : TS.mapFn (fn1 g) b [b] with
    | error e => exact .inl ⟨e, by simp [mapFnSeq, zipRow, h, bind, Except.bind, pure, Except.pure]⟩
    | ok y =>
      refine .inr ⟨.node .tuple [y], y, by simp [mapFnSeq, zipRow, h, bind, Except.bind, pure, Except.pure], rfl, .inr ⟨rfl, ?_⟩⟩
      obtain ⟨l, rfl⟩ | ⟨keys, xs, rfl⟩ := unpackArgs_self.1 hx
      · simp only [TS.mapFn, bind, Except.bind] at h
        split at h <;> cases h
        exact .inl ⟨_, rfl⟩
      · simp only [TS.mapFn, bind, Except.bind] at h
        split at h <;> cases h
        exact .inr ⟨_, _, rfl⟩

theorem SameArgs.mapFn {a b : Val α} (h : SameArgs a b) (g : Leaf α → Res (Leaf α)) :
    (∃ e, TS.mapFn (fn1 g) a [a] = .error e ∧ TS.mapFn (fn1 g) b [b] = .error e) ∨
    ∃ u v, TS.mapFn (fn1 g) a [a] = .ok u ∧ TS.mapFn (fn1 g) b [b] = .ok v ∧ SameArgs u v := by
  obtain h | ⟨u, v, h1, h2, ⟨xs, rfl, rfl⟩ | ⟨rfl, h3⟩⟩ := h.mapFn' g
  · exact .inl h
  · exact .inr ⟨_, _, h1, h2, .listed xs⟩
  · exact .inr ⟨_, _, h1, h2, .single (unpackArgs_self.2 h3)⟩

theorem SameArgs.slice {a b : Val α} (h : SameArgs a b) (g : Leaf α → Res (Leaf α)) {B : Type} {k k' : Val α → Res B} (hk : ∀ u v, SameArgs u v → k u = k' v) :
    (TS.mapFn (fn1 g) a [a] >>= k) = (TS.mapFn (fn1 g) b [b] >>= k') := by
  obtain ⟨e, h1, h2⟩ | ⟨u, v, h1, h2, h3⟩ := h.mapFn g
  · rw [h1, h2]; rfl
  · rw [h1, h2]; exact hk u v h3

section
variable {op : Operator α} (hop : Spreads op) {a b : Val α} (h : SameArgs a b)
include hop h

theorem Spreads.body (i : Nat) (s : Val α) (outs : PyVal (TArr α)) : streamBody op a i s outs = streamBody op b i s outs :=
  h.slice _ fun u v huv => by rw [hop u v huv]

theorem Spreads.loop (n i : Nat) (s : Val α) (outs : PyVal (TArr α)) : streamLoop op a n i s outs = streamLoop op b n i s outs := by
  induction n generalizing i s outs with
  | zero => rfl
  | succ n ih => simp only [streamLoop, hop.body h, ih]

theorem Spreads.streamed (st : Option (Val α)) : callStreamed op a st = callStreamed op b st := by
  unfold callStreamed
  rw [h.flatten]
  congr 1
  funext sizes
  match sizes with
  | [] => rfl
  | size :: _ =>
    dsimp only
    split
    · rfl
    · exact h.slice _ fun u v huv => by simp only [hop u v huv, hop.loop h]

/-- Calls do not tell the two ways apart. -/
theorem Spreads.call (st : Option (Val α)) (streamed : Bool) : TS.call op a st streamed = TS.call op b st streamed :=
  h.slice _ fun u v huv => by simp only [hop.streamed huv, hop u v huv]

end

/-- A pipeline does what its first stage does, -/
theorem Compose_spreads {ops : List (Operator α)} {op : Operator α} (hop : Spreads op) : Spreads (Compose (ops ++ [op])) := fun a b h st => by
  simp only [Compose, metaStreamable, List.reverse_append, List.reverse_cons, List.reverse_nil, List.nil_append, List.singleton_append, composeStep]
  congr 1
  funext sts
  cases sts with
  | nil => rfl
  | cons st sts => simp only [List.zip_cons_cons, List.isEmpty_cons, composeLoop, hop.call h]

/-- and `FFill` what its operator does. -/
theorem FFill_spreads [TFNum α] {op : Operator α} (hop : Spreads op) : Spreads (FFill op) := fun a b h st => by
  have e : ∀ x : α, anyValue a x = anyValue b x := fun x => by
    unfold anyValue
    obtain ⟨e, h1, h2⟩ | ⟨u, v, h1, h2, ⟨xs, rfl, rfl⟩ | ⟨rfl, h3⟩⟩ := h.mapFn' (tensorHasValue x)
    · rw [h1, h2]
    · rw [h1, h2]; simp [bind, Except.bind, TS.flatten]
    · rw [h1, h2]; simp [bind, Except.bind, TS.flatten, flattens]
  simp only [FFill, metaStreamable, ffillStep, e, hop.call h]

/-- The operators of the library that spread their inputs over the parameters of their step. -/
inductive TakesArgs [TFNum α] : Operator α → Prop
  | step (f : List (Val α) → Res (Step α)) : TakesArgs (streamable f)
  | add : TakesArgs Add
  | sub : TakesArgs Sub
  | mul : TakesArgs Mul
  | fork (n : Nat) : TakesArgs (Fork n)
  | identity : TakesArgs Identity
  | select (is : Indices) : TakesArgs (Select is)
  | positive : TakesArgs Positive
  | negative : TakesArgs Negative
  | lag (p : Int) : TakesArgs (Lag p)
  | globalMin : TakesArgs GlobalMinimum
  | globalMax : TakesArgs GlobalMaximum
  | localMin (p : Int) : TakesArgs (LocalMinimum p)
  | localMax (p : Int) : TakesArgs (LocalMaximum p)
  | correlation (p : Int) : TakesArgs (Correlation p)
  | cross (p lag : Int) : TakesArgs (CrossCorrelation p lag)
  | auto (p lag : Int) : TakesArgs (AutoCorrelation p lag)
  | sma (p : Int) : TakesArgs (SMA p)
  | ema (p : Int) : TakesArgs (EMA p)
  | rma (p : Int) : TakesArgs (RMA p)
  | msd (p : Int) : TakesArgs (MSD p)
  | bollinger (n : Int) (k : ℚ) : TakesArgs (BollingerBands n k)
  | macd (slow fast m : Int) : TakesArgs (MACD slow fast m)
  | smaCrossover (slow fast : Int) : TakesArgs (SMACrossover slow fast)
  | smaSignal (slow fast : Int) : TakesArgs (SMACrossoverSignal slow fast)
  | macdSignal (slow fast m : Int) : TakesArgs (MACDSignal slow fast m)
  | zeroCrossover : TakesArgs ZeroCrossoverSignal
  | riskRatio (p : RRParams) : TakesArgs (RiskRatioEvaluator p)
  | ret (p : Int) : TakesArgs (Return p)
  | logReturn (p : Int) : TakesArgs (LogReturn p)
  | volatility (p r : Int) : TakesArgs (Volatility p r)
  | momentum (p : Int) : TakesArgs (Momentum p)
  | sharpe (p : Int) : TakesArgs (SharpeRatio p)
  | skewness (p : Int) : TakesArgs (Skewness p)
  | rsi (p : Int) : TakesArgs (RSI p)
  | atr (p : Int) : TakesArgs (ATR p)
  | supertrend (p : Int) (f : ℚ) : TakesArgs (Supertrend p f)
  | heikinAshi : TakesArgs HeikinAshi
  | drawdown : TakesArgs Drawdown
  | compose (ops : List (Operator α)) {op : Operator α} : TakesArgs op → TakesArgs (Compose (ops ++ [op]))
  | ffill {op : Operator α} : TakesArgs op → TakesArgs (FFill op)

theorem TakesArgs.spreads [TFNum α] {op : Operator α} (h : TakesArgs op) : Spreads op := by
  have hf : Spreads (Fork 2 : Operator α) := fun a b h st => by simp only [Fork, makeStreamable, streamable, h.unpack]
  induction h with
  | select is => intro a b h st; cases is <;> simp only [Select, makeStreamable, streamable, h.unpack]
  | smaCrossover slow fast => exact Compose_spreads (ops := [_, _]) hf
  | smaSignal slow fast => exact Compose_spreads (ops := [_, _]) (Compose_spreads (ops := [_, _]) hf)
  | macdSignal slow fast m => exact Compose_spreads (ops := [_, _, _]) (streamable_spreads _)
  | volatility p r =>
    exact Compose_spreads (ops := [_, _]) fun a b h st => by simp only [LogReturn, returnOp, streamable, h.unpack]
  | momentum p => exact Compose_spreads (ops := [_, _, _]) hf
  | compose ops _ ih => exact Compose_spreads ih
  | ffill _ ih => exact FFill_spreads ih
  | _ =>
    intro a b h st
    simp only [streamable, h.unpack, makeStreamable, bufferOp, returnOp, globalExtremum, localExtremum, Add, Sub, Mul, Fork, Identity, Positive, Negative, Lag, GlobalMinimum, GlobalMaximum,
      LocalMinimum, LocalMaximum, Correlation, CrossCorrelation, AutoCorrelation, SMA, EMA, RMA, MSD, BollingerBands, MACD, ZeroCrossoverSignal, RiskRatioEvaluator, Return, LogReturn,
      SharpeRatio, Skewness, RSI, ATR, Supertrend, HeikinAshi, Drawdown]

section
variable [TFNum α]

/-- **C74 Lists and tuples of inputs.**  The operators of the library and every other operator that is not a `MetaStreamable`, their pipelines and their `FFill`,
give the same result (values and errors alike) on a list of inputs as on the tuple of these inputs; streamed or stepped, and whatever the state, -/
theorem C74_list_or_tuple {op : Operator α} (hop : TakesArgs op) (xs : List (Val α)) (st : Option (Val α)) (streamed : Bool) :
    call op (.node .list xs) st streamed = call op (.node .tuple xs) st streamed :=
  hop.spreads.call (.listed xs) st streamed
example : call (Add : Operator (XR ℚ)) (.node .list [series [1, 2], series [3, 4]]) none = .ok (series [4, 6], .unit, .unit) :=
  (C74_list_or_tuple .add _ _ _).trans (by decide +kernel)

/-- and the same result on a tensor, or on a dict, as on the tuple of this alone. -/
theorem C74_one_input {op : Operator α} (hop : TakesArgs op) {x : Val α} (hx : (∃ l, x = .leaf l) ∨ ∃ keys xs, x = .node (.dict keys) xs) (st : Option (Val α))
    (streamed : Bool) : call op (.node .tuple [x]) st streamed = call op x st streamed :=
  hop.spreads.call (.single (unpackArgs_self.2 hx)) st streamed
example : call (SMA 2 : Operator (XR ℚ)) (.tup [series [3, 5, 1]]) none = call (SMA 2) (series [3, 5, 1]) none := C74_one_input (.sma 2) (.inl ⟨_, rfl⟩) _ _

end

/-- Containers are told apart by `Join`: it takes a series for each operator and no tensor. -/
example : call (Join [Lag 1] : Operator (XR ℚ)) (.tup [series [3, 5]]) none ≠ call (Join [Lag 1]) (series [3, 5]) none := by decide +kernel

/-- **C74 The step sees inputs and state in one row**: part of the state may be passed among the inputs, -/
theorem C74_one_row (step : List (Val α) → Res (Step α)) {xs ys zs : List (Val α)} (h : ∀ x ∈ xs ++ ys ++ zs, x.WF ∧ Tensors x) :
    call (streamable step) (.tup (xs ++ ys)) (some (.tup zs)) false = call (streamable step) (.tup xs) (some (.tup (ys ++ zs))) false := by
  have t : ∀ l : List (Val α), (∀ x ∈ l, x.WF ∧ Tensors x) → (PyVal.tup l).WF ∧ Tensors (.tup l) := fun l hl =>
    ⟨WF_tup.2 fun x hx => (hl x hx).1, tensors_tup.2 fun x hx => (hl x hx).2⟩
  have t1 := t (xs ++ ys) fun x hx => h x (by simp at hx ⊢; tauto)
  have t2 := t zs fun x hx => h x (by simp at hx ⊢; tauto)
  have t3 := t xs fun x hx => h x (by simp at hx ⊢; tauto)
  have t4 := t (ys ++ zs) fun x hx => h x (by simp at hx ⊢; tauto)
  rw [call_eq _ t1.1 t1.2 (by rintro _ ⟨⟩; exact t2), call_eq _ t3.1 t3.2 (by rintro _ ⟨⟩; exact t4)]
  simp [streamable, unpackArgs, PyVal.tup]
example := C74_one_row (α := XR ℚ) (fun args => .ok (.tup args, .unit, .unit)) (xs := [vS (.fin 1)]) (ys := [vI 2]) (zs := [vS (.fin 3)]) (by simp [Tensors, flatten, vS, vI])

/-- and the empty state is no state. -/
theorem C74_no_state (step : List (Val α) → Res (Step α)) (x : Val α) : call (streamable step) x (some .unit) false = call (streamable step) x none false := by
  unfold call
  congr 1
example := C74_no_state (α := XR ℚ) (fun args => .ok (.tup args, .unit, .unit)) (series [1, 2])

/-- **C74 The abstract operator** fails: a `Streamable` without a step gives no result on any inputs and state, -/
theorem C74_abstract (x : Val α) (st : Option (Val α)) (streamed : Bool) (r : Step α) : call abstractStreamable x st streamed ≠ .ok r := by
  have key : ∀ y s, (if streamed = true then callStreamed abstractStreamable y s else abstractStreamable.forwardStep y s) ≠ .ok r := fun y s h => by
    cases streamed with
    | false => cases h
    | true =>
      obtain ⟨sizes, -, h⟩ := bind_eq_ok.1 h
      match sizes, h with
      | [], h => cases h
      | size :: _, h =>
        dsimp only at h
        split at h
        · cases h
        · obtain ⟨_, -, h⟩ := bind_eq_ok.1 h
          cases h
  intro h
  obtain ⟨y, -, h⟩ := bind_eq_ok.1 h
  cases st with
  | none => exact key _ _ h
  | some s =>
    obtain ⟨_, -, h⟩ := bind_eq_ok.1 h
    exact key _ _ h
example : call (abstractStreamable : Operator (XR ℚ)) (series [1, 2]) none = .error .notImplemented := by decide +kernel

/-- and on a series of at least one sample, or stepped on tensors, the error is the one of the missing step. -/
theorem C74_abstract_error {x : Val α} {xs : List (Val α)} (hx : x.WF) (hl : flatten x ≠ []) (hs : IsSeries x xs) (h0 : xs ≠ []) {st : Option (Val α)} (hst : ∀ s ∈ st, s.WF ∧ Tensors s) (streamed : Bool) :
    call abstractStreamable x st streamed = .error .notImplemented := by
  rw [call_eq _ hx hs.tensors hst]
  cases streamed with
  | true => rw [if_pos rfl, callStreamed_eq hx hl hs h0]; rfl
  | false => rfl
example := C74_abstract_error (α := XR ℚ) (x := series [1, 2]) (nums_ok [XR.fin 1, XR.fin 2]).1 (nums_ok _).2.1 (nums_ok _).2.2 (by simp) (st := some (series [5])) (by rintro _ ⟨⟩; exact ⟨(nums_ok _).1, (nums_ok _).2.2.tensors⟩) true

end TS
