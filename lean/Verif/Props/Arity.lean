import Verif.Spec.Arity
import Verif.Props.Arguments
/-
C83: how many arguments a step takes.
-/
namespace TS
open PyVal
variable {α : Type} [TFNum α]
set_option linter.unusedSimpArgs false

omit [TFNum α] in
theorem width_eq (v : Val α) : (unpackArgs v).length = width v := by
  match v with
  | .leaf _ => rfl
  | .node .tuple _ => rfl
  | .node .list _ => rfl
  | .node (.dict _) _ => rfl

omit [TFNum α] in
theorem arity_out {lo hi : Nat} {args : List (Val α)} (h : ¬ (lo ≤ args.length ∧ args.length ≤ hi)) : arity lo hi args = .error .typeError := if_neg h

/-- A step that takes `n` to `n + m` arguments and returns states of `m` parts. -/
structure StepTakes (step : List (Val α) → Res (Step α)) (n m : Nat) : Prop where
  out : ∀ args, ¬ (n ≤ args.length ∧ args.length ≤ n + m) → step args = .error .typeError
  parts : ∀ args o s i, step args = .ok (o, s, i) → width s = m ∧ width i = m

theorem makeStreamable_takes {n : Nat} {f : List (Val α) → Res (Val α)} (h : ∀ args, args.length ≠ n → f args = .error .typeError) :
    StepTakes (fun args => do .ok (← f args, PyVal.unit, PyVal.unit)) n 0 := by
  refine ⟨fun args hk => by rw [h args (by omega)]; rfl, fun args o s i h => ?_⟩
  simp only [bind_eq_ok] at h
  obtain ⟨_, -, h⟩ := h
  cases h
  exact ⟨rfl, rfl⟩

theorem arity_bind {lo hi : Nat} {args : List (Val α)} (h : ¬ (lo ≤ args.length ∧ args.length ≤ hi)) (f : Unit → Res (Step α)) :
    (arity lo hi args >>= f) = .error .typeError := by rw [arity_out h]; rfl

theorem global_takes (bF : α → α → Bool) (bI : Int → Int → Bool) : ∃ step, globalExtremum bF bI = streamable step ∧ StepTakes step 1 2 := by
  have key : ∀ {E : Type} (dec : Val α → Res E) (enc : E → Val α) st args o s i, globalArgs dec enc st args = .ok (o, s, i) → width s = 2 ∧ width i = 2 := by
    intro E dec enc st args o s i h
    simp only [globalArgs, bind_eq_ok] at h
    obtain ⟨_, -, _, -, _, -, h⟩ := h
    cases h
    exact ⟨rfl, rfl⟩
  unfold globalExtremum
  refine ⟨_, rfl, fun args hk => arity_bind hk _, fun args o s i h => ?_⟩
  simp only [bind_eq_ok] at h
  obtain ⟨_, -, l, -, h⟩ := h
  cases l <;> exact key _ _ _ _ _ _ _ h

theorem local_takes (rF : List α → α) (rI : List Int → Int) (p : Int) : ∃ step, localExtremum rF rI p = streamable step ∧ StepTakes step 1 2 := by
  have key : ∀ {E : Type} (dec : Val α → Res E) decs (enc : E → Val α) encs st args o s i, localArgs dec decs enc encs st args = .ok (o, s, i) → width s = 2 ∧ width i = 2 := by
    intro E dec decs enc encs st args o s i h
    simp only [localArgs, bind_eq_ok] at h
    obtain ⟨_, -, _, -, _, -, _, -, h⟩ := h
    cases h
    exact ⟨rfl, rfl⟩
  unfold localExtremum
  refine ⟨_, rfl, fun args hk => arity_bind hk _, fun args o s i h => ?_⟩
  simp only [bind_eq_ok] at h
  obtain ⟨_, -, l, -, h⟩ := h
  cases l <;> exact key _ _ _ _ _ _ _ _ _ h

theorem Takes.step {op : Operator α} {n m : Nat} (h : Takes op n m) : ∃ step, op = streamable step ∧ StepTakes step n m := by
  have two : ∀ (f : Leaf α → Leaf α → Res (Leaf α)) (l : List (Val α)), l.length ≠ 2 → lambda2 f l = .error .typeError := by
    intro f l hl
    match l, hl with
    | [], _ => rfl
    | [_], _ => rfl
    | [_, _], hl => simp at hl
    | _ :: _ :: _ :: _, _ => rfl
  have ind : ∀ (f : α → Bool) (g : Int → Bool) (l : List (Val α)), l.length ≠ 1 → indicator f g l = .error .typeError := by
    intro f g l hl
    match l, hl with
    | [], _ => rfl
    | [_], hl => simp at hl
    | _ :: _ :: _, _ => simp [indicator]
  cases h with
  | sub => exact ⟨_, rfl, makeStreamable_takes (two _)⟩
  | add => exact ⟨_, rfl, makeStreamable_takes (two _)⟩
  | mul => exact ⟨_, rfl, makeStreamable_takes (two _)⟩
  | fork c =>
    refine ⟨_, rfl, makeStreamable_takes (f := fun args => match args with | [x] => .ok (.tup (List.replicate c x)) | _ => .error .typeError) fun args hl => ?_⟩
    match args, hl with
    | [], _ => rfl
    | [_], hl => simp at hl
    | _ :: _ :: _, _ => rfl
  | identity =>
    refine ⟨_, rfl, makeStreamable_takes (f := fun args => match args with | [x] => .ok x | _ => .error .typeError) fun args hl => ?_⟩
    match args, hl with
    | [], _ => rfl
    | [_], hl => simp at hl
    | _ :: _ :: _, _ => rfl
  | positive => exact ⟨_, rfl, makeStreamable_takes (ind _ _)⟩
  | negative => exact ⟨_, rfl, makeStreamable_takes (ind _ _)⟩
  | globalMinimum => exact global_takes _ _
  | globalMaximum => exact global_takes _ _
  | localMinimum p => exact local_takes _ _ p
  | localMaximum p => exact local_takes _ _ p
  | _ =>
    try simp only [SMA, MSD, bufferOp, Return, LogReturn, returnOp]
    refine ⟨_, rfl, fun args hk => arity_bind hk _, fun args o s i h => ?_⟩
    simp only [bind_eq_ok] at h
    repeat' obtain ⟨_, -, h⟩ := h
    all_goals exact ⟨rfl, rfl⟩

omit [TFNum α] in
theorem width_skel {v w : Val α} (h : v.skel = w.skel) : width v = width w := by
  match v, w, h with
  | .leaf _, .leaf _, _ => rfl
  | .leaf _, .node _ _, h => simp [skel] at h
  | .node _ _, .leaf _, h => simp [skel] at h
  | .node k xs, .node k' ys, h =>
    have h' := h
    simp only [skel, map_node, node.injEq] at h'
    obtain ⟨rfl, h'⟩ := h'
    have := congrArg List.length h'
    cases k <;> simpa [width] using this

/-- the number of arguments a call passes to `step` -/
def passed (x : Val α) (st : Option (Val α)) : Nat := width x + st.elim 0 width

theorem Takes.forward {op : Operator α} {n m : Nat} (h : Takes op n m) (x : Val α) (st : Option (Val α))
    (hk : ¬ (n ≤ passed x st ∧ passed x st ≤ n + m)) : op.forwardStep x st = .error .typeError := by
  obtain ⟨step, rfl, h1, -⟩ := h.step
  refine h1 _ ?_
  cases st <;> simpa [width_eq, passed] using hk

theorem Takes.parts {op : Operator α} {n m : Nat} (h : Takes op n m) {x : Val α} {st : Option (Val α)} {o s i : Val α} (hr : op.forwardStep x st = .ok (o, s, i)) :
    width s = m ∧ width i = m := by
  obtain ⟨step, rfl, -, h2⟩ := h.step
  exact h2 _ _ _ _ hr

theorem Takes.regular {op : Operator α} {n m : Nat} (h : Takes op n m) : op.Sane ∧ op.Uniform := by
  cases h with
  | fork c => exact ⟨(Lib.fork c).ok.sane, (Lib.fork c).ok.uniform⟩
  | identity => exact ⟨(Lib.identity fun _ => True).ok.sane, (Lib.identity fun _ => True).ok.uniform⟩
  | sub => exact ⟨(Lib.basic .sub).ok.sane, (Lib.basic .sub).ok.uniform⟩
  | add => exact ⟨(Lib.basic .add).ok.sane, (Lib.basic .add).ok.uniform⟩
  | mul => exact ⟨(Lib.basic .mul).ok.sane, (Lib.basic .mul).ok.uniform⟩
  | positive => exact ⟨(Lib.basic .positive).ok.sane, (Lib.basic .positive).ok.uniform⟩
  | negative => exact ⟨(Lib.basic .negative).ok.sane, (Lib.basic .negative).ok.uniform⟩
  | lag p => exact ⟨(Lib.basic (.lag p)).ok.sane, (Lib.basic (.lag p)).ok.uniform⟩
  | globalMinimum => exact ⟨(Lib.basic .globalMinimum).ok.sane, (Lib.basic .globalMinimum).ok.uniform⟩
  | globalMaximum => exact ⟨(Lib.basic .globalMaximum).ok.sane, (Lib.basic .globalMaximum).ok.uniform⟩
  | localMinimum p => exact ⟨(Lib.basic (.localMinimum p)).ok.sane, (Lib.basic (.localMinimum p)).ok.uniform⟩
  | localMaximum p => exact ⟨(Lib.basic (.localMaximum p)).ok.sane, (Lib.basic (.localMaximum p)).ok.uniform⟩
  | correlation p => exact ⟨(Lib.basic (.correlation p)).ok.sane, (Lib.basic (.correlation p)).ok.uniform⟩
  | crossCorrelation p l => exact ⟨(Lib.basic (.crossCorrelation p l)).ok.sane, (Lib.basic (.crossCorrelation p l)).ok.uniform⟩
  | autoCorrelation p l => exact ⟨(Lib.basic (.autoCorrelation p l)).ok.sane, (Lib.basic (.autoCorrelation p l)).ok.uniform⟩
  | sma p => exact ⟨(Lib.basic (.sma p)).ok.sane, (Lib.basic (.sma p)).ok.uniform⟩
  | msd p => exact ⟨(Lib.basic (.msd p)).ok.sane, (Lib.basic (.msd p)).ok.uniform⟩
  | ema p => exact ⟨(Lib.basic (.ema p)).ok.sane, (Lib.basic (.ema p)).ok.uniform⟩
  | rma p => exact ⟨(Lib.basic (.rma p)).ok.sane, (Lib.basic (.rma p)).ok.uniform⟩
  | bollingerBands n k => exact ⟨(Lib.basic (.bollingerBands n k)).ok.sane, (Lib.basic (.bollingerBands n k)).ok.uniform⟩
  | macd s f m => exact ⟨(Lib.basic (.macd s f m)).ok.sane, (Lib.basic (.macd s f m)).ok.uniform⟩
  | return_ p => exact ⟨(Lib.basic (.return_ p)).ok.sane, (Lib.basic (.return_ p)).ok.uniform⟩
  | logReturn p => exact ⟨(Lib.basic (.logReturn p)).ok.sane, (Lib.basic (.logReturn p)).ok.uniform⟩
  | sharpeRatio p => exact ⟨(Lib.basic (.sharpeRatio p)).ok.sane, (Lib.basic (.sharpeRatio p)).ok.uniform⟩
  | skewness p => exact ⟨(Lib.basic (.skewness p)).ok.sane, (Lib.basic (.skewness p)).ok.uniform⟩
  | rsi p => exact ⟨(Lib.basic (.rsi p)).ok.sane, (Lib.basic (.rsi p)).ok.uniform⟩
  | atr p => exact ⟨(Lib.basic (.atr p)).ok.sane, (Lib.basic (.atr p)).ok.uniform⟩
  | supertrend p f => exact ⟨(Lib.basic (.supertrend p f)).ok.sane, (Lib.basic (.supertrend p f)).ok.uniform⟩
  | heikinAshi => exact ⟨(Lib.basic .heikinAshi).ok.sane, (Lib.basic .heikinAshi).ok.uniform⟩
  | drawdown => exact ⟨(Lib.basic .drawdown).ok.sane, (Lib.basic .drawdown).ok.uniform⟩
  | zeroCrossover => exact ⟨(Lib.basic .zeroCrossover).ok.sane, (Lib.basic .zeroCrossover).ok.uniform⟩
  | riskRatio p => exact ⟨(Lib.basic (.riskRatio p)).ok.sane, (Lib.basic (.riskRatio p)).ok.uniform⟩

/-- **C83 The number of arguments**: an operator that takes `n` tensors and whose states have `m` parts raises a `TypeError` when it is stepped with
less than `n` or more than `n + m` inputs and parts of a state, -/
theorem C83_step {op : Operator α} {n m : Nat} (h : Takes op n m) {x : Val α} (hx : x.WF) (ht : Tensors x) {st : Option (Val α)} (hst : ∀ s ∈ st, s.WF ∧ Tensors s)
    (hk : passed x st < n ∨ n + m < passed x st) : call op x st false = .error .typeError := by
  rw [call_eq false hx ht hst]
  exact h.forward x st (by omega)

/-- or streamed over a series. -/
theorem C83_stream {op : Operator α} {n m : Nat} (h : Takes op n m) {x : Val α} (hx : x.WF) {xs : List (Val α)} (hl : flatten x ≠ []) (hs : IsSeries x xs) (h0 : xs ≠ [])
    {st : Option (Val α)} (hst : ∀ s ∈ st, s.WF ∧ Tensors s) (hk : passed x st < n ∨ n + m < passed x st) : call op x st = .error .typeError := by
  rw [call_eq true hx hs.tensors hst, if_pos rfl, callStreamed_eq hx hl hs h0]
  have hw : width (xs.head h0) = width x := width_skel (hs.skel (List.head_mem h0))
  rw [h.forward _ _ (by simp only [passed] at hk ⊢; omega)]
  rfl

/-- **C83, the parts of a state**: whatever inputs and state a call succeeds with, the state it returns has `m` parts, and so has the initial state it reports if none was given. -/
theorem C83_parts {op : Operator α} {n m : Nat} (h : Takes op n m) {x : Val α} (hx : x.WF) {st : Option (Val α)} (hst : ∀ s ∈ st, s.WF) {streamed : Bool}
    {o sf s0 : Val α} (hr : call op x st streamed = .ok (o, sf, s0)) : width sf = m ∧ (st = none → width s0 = m) := by
  have reg := h.regular
  obtain ⟨ht, hts⟩ := call_ok_tensors hx hst hr
  cases streamed with
  | false =>
    rw [call_eq false hx ht fun s hs => ⟨hst s hs, hts s hs⟩] at hr
    exact ⟨(h.parts hr).1, fun _ => (h.parts hr).2⟩
  | true =>
    obtain ⟨-, x0, xs, hin, o', n', i, h1, rfl, h2, -, tr, h3, -, -, h4⟩ := (C01_streaming_eq_stepping reg.1 reg.2 hx hst _ _ _).1 hr
    have hxw := hin.mem_WF hx
    have hxt := hin.mem_tensors
    rw [call_eq false (hxw x0 (by simp)) (hxt x0 (by simp)) fun s hs => ⟨hst s hs, hts s hs⟩] at h1
    have hi := (h.parts h1).2
    have hs0 : (st.getD i).WF := by
      cases st with
      | none => exact (reg.1 _ _ _ _ _ (hxw x0 (by simp)) hst h1).2.2
      | some s => exact hst s rfl
    refine ⟨?_, by rintro rfl; exact hi⟩
    have key : ∀ (l : List (Val α)) (s : Val α) tr, (∀ y ∈ l, y.WF) → s.WF → stepAll op l s = .ok tr → ∀ e ∈ tr, width e.2 = m := by
      intro l
      induction l with
      | nil => intro s tr _ _ h; cases h; simp
      | cons y l ih =>
        intro s tr hl hs h' e he
        obtain ⟨o2, n2, i2, tr', c1, c2, rfl⟩ := stepAll_cons_ok.1 h'
        obtain ⟨d1, d2⟩ := call_ok_tensors (hl y (by simp)) (st := some s) (by rintro _ ⟨⟩; exact hs) c1
        rw [call_eq false (hl y (by simp)) d1 (by rintro _ ⟨⟩; exact ⟨hs, d2 s rfl⟩)] at c1
        rcases List.mem_cons.1 he with rfl | he
        · exact (h.parts c1).1
        · exact ih n2 tr' (fun z hz => hl z (by simp [hz])) (reg.1 _ _ _ _ _ (hl y (by simp)) (by rintro _ ⟨⟩; exact hs) c1).2.1 c2 e he
    obtain ⟨e, he, rfl⟩ := List.mem_map.1 (List.mem_of_getLast? h4)
    exact key _ _ _ hxw hs0 h3 e he

example : call (Add : Operator (XR ℚ)) (.tup [vSBuf [XR.fin (1 : ℚ)], vSBuf [XR.fin (2 : ℚ)], vSBuf [XR.fin (3 : ℚ)]]) none = .error .typeError := by
  refine C83_stream .add (xs := [.tup [vS (XR.fin (1 : ℚ)), vS (XR.fin (2 : ℚ)), vS (XR.fin (3 : ℚ))]]) (by simp [WF_tup, vSBuf]) (by simp [flatten, flattens, vSBuf, PyVal.tup]) ?_ (by simp) (by simp)
    (.inr (by simp [passed, width, PyVal.tup]))
  exact isSeries_tup_map (A := Unit) (l := [()]) (es := [fun _ => vS (XR.fin (1 : ℚ)), fun _ => vS (XR.fin (2 : ℚ)), fun _ => vS (XR.fin (3 : ℚ))])
    (.cons (isSeries_vSBuf [XR.fin (1 : ℚ)]) (.cons (isSeries_vSBuf [XR.fin (2 : ℚ)]) (.cons (isSeries_vSBuf [XR.fin (3 : ℚ)]) .nil)))
example := C83_step (α := XR ℚ) (.ema 3) (x := vS (XR.fin (1 : ℚ))) (by simp) (by simp [Tensors]) (st := some (.tup [vI 0, vS (XR.fin (0 : ℚ)), vI 0, vI 0])) (by simp [WF_tup, Tensors, flatten, flattens, PyVal.tup])
  (.inr (by simp [passed, width, PyVal.tup]))
/-- A state may be given in part: the other parts take their initial values. -/
example : (call (SMA 2) (series [4, 2]) (some (.tup [vI 1]))).map (fun r => (r.1, width r.2.1)) = .error .stateTypes := by decide +kernel
example : (call (SMA 2) (vS (XR.fin (4 : ℚ))) (some (.tup [vI 1])) false).map (fun r => (r.1, width r.2.1)) = .ok (vS (XR.fin (2 : ℚ)), 2) := by decide +kernel
example := C83_parts (α := XR ℚ) (.sma 2) (x := vS (.fin (4 : ℚ))) (st := some (.tup [vI 1])) (by simp) (by simp [WF_tup]) (streamed := false)
  (o := vS (.fin 2)) (sf := .tup [vI 2, vSBuf [.fin 4, .fin 0]]) (s0 := .tup [vI 1, vSBuf [.fin 0, .fin 0]]) (by decide +kernel)
end TS
