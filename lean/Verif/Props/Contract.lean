import Verif.Lemmas.Shipped
import Verif.Lemmas.Streams
import Verif.Props.Streaming
import Verif.Base.XR
/-
C06: the initial state contract, and C01-C05 for the operators of the library.
-/
namespace TS
open PyVal
variable {α : Type} [TFNum α]

/-- one float series -/
abbrev series (l : List ℚ) : Val (XR ℚ) := vSBuf (l.map XR.fin)

/-- **C06 Initial state contract, one step without a state.**  For everything that can be built with the
library and every input of a structure it is made for: the call without a state and the call with the
initial state it reports return the same triple. -/
theorem C06_step_fresh {op : Operator α} {D E : PyVal Unit → Prop} (h : Lib op D E) {x o n i : Val α} (hw : x.WF)
    (hD : D x.skel) (hc : call op x none false = .ok (o, n, i)) : call op x (some i) false = .ok (o, n, i) :=
  h.ok.contract.call_fresh h.ok.sane hw hD hc
example := C06_step_fresh (α := XR ℚ) (Lib.basic (.sma 2)) (x := vS (.fin 3)) (o := vS (.fin 0)) (n := .tup [vI 1, series [3, 0]]) (i := .tup [vI 0, series [0, 0]])
  (by simp [vS]) rfl (by decide +kernel)

/-- **C06, one step with a state.**  A call with a state of the structure of the operator's initial state
reports that very state as its initial state. -/
theorem C06_step_echo {op : Operator α} {D E : PyVal Unit → Prop} (h : Lib op D E)
    {x x' s o n i o' n' i' : Val α} (hw : x.WF) (hD : D x.skel) (hw' : x'.WF) (hD' : D x'.skel)
    (hinit : call op x' none false = .ok (o', n', i')) (hs : s.skel = i'.skel)
    (hc : call op x (some s) false = .ok (o, n, i)) : i = s := by
  have hi := h.ok.sane.call hw' (by simp) hinit
  have hsw : ∀ t ∈ some s, t.WF := by rintro _ ⟨⟩; exact (WF_of_skel_eq hs).2 hi.2.2
  exact h.ok.contract.echo x x' s o n i o' n' i' hw hD hw' hD' ((call_step_ok hw' (by simp)).1 hinit).2.2 hs
    ((call_step_ok hw hsw).1 hc).2.2
example := C06_step_echo (α := XR ℚ) (Lib.basic (.sma 2)) (x := vS (.fin 5)) (x' := vS (.fin 3)) (s := .tup [vI 1, series [3, 0]]) (o := vS (.fin 4)) (n := .tup [vI 2, series [5, 3]])
  (i := .tup [vI 1, series [3, 0]]) (o' := vS (.fin 0)) (n' := .tup [vI 1, series [3, 0]]) (i' := .tup [vI 0, series [0, 0]])
  (by simp [vS]) rfl (by simp [vS]) rfl (by decide +kernel) rfl (by decide +kernel)

/-- **C06, whole series without a state.** -/
theorem C06_stream_fresh {op : Operator α} {D E : PyVal Unit → Prop} (h : Lib op D E) {inputs outs sf s0 : Val α}
    (hw : inputs.WF) (hD : D inputs.skel) (hc : call op inputs none = .ok (outs, sf, s0)) :
    call op inputs (some s0) = .ok (outs, sf, s0) := by
  obtain ⟨hl, x, xs, hin, o, n, i, h1, rfl, h2, h3, tr, h4, h5, h6, h7⟩ :=
    (C01_streaming_eq_stepping h.ok.sane h.ok.uniform hw (by simp) _ _ _).1 hc
  have hx := hin.mem_WF hw x (by simp)
  have hi := h.ok.sane.call hx (by simp) h1
  have hDx : D x.skel := by
    have : x.skel = inputs.skel := sliceAt_skel (hin.slice 0 (by simp))
    rw [this]; exact hD
  exact (C01_streaming_eq_stepping h.ok.sane h.ok.uniform hw (by rintro _ ⟨⟩; exact hi.2.2) _ _ _).2
    ⟨hl, x, xs, hin, o, n, _, C06_step_fresh h hx hDx h1, rfl, h2, h3, tr, h4, h5, h6, h7⟩
example := C06_stream_fresh (α := XR ℚ) (Lib.basic (.sma 2)) (inputs := series [3, 5]) (outs := series [0, 4]) (sf := .tup [vI 2, series [5, 3]]) (s0 := .tup [vI 0, series [0, 0]])
  (nums_ok _).1 rfl (by decide +kernel)

omit [TFNum α] in
/-- **C06, whole series with a state** (any operator): the given state is reported. -/
theorem C06_stream_echo {op : Operator α} (hs : op.Sane) (hu : op.Uniform) {inputs s outs sf s0 : Val α}
    (hw : inputs.WF) (hsw : s.WF) (hc : call op inputs (some s) = .ok (outs, sf, s0)) : s0 = s := by
  obtain ⟨hl, x, xs, hin, o, n, i, h1, rfl, -⟩ :=
    (C01_streaming_eq_stepping hs hu hw (by rintro _ ⟨⟩; exact hsw) _ _ _).1 hc
  rfl
example := C06_stream_echo (α := XR ℚ) (Lib.basic (.sma 2)).ok.sane (Lib.basic (.sma 2)).ok.uniform (inputs := series [3, 5]) (s := .tup [vI 1, series [1, 0]])
  (outs := series [2, 4]) (sf := .tup [vI 3, series [5, 3]]) (s0 := .tup [vI 1, series [1, 0]]) (nums_ok _).1 (by simp [WF_tup]) (by decide +kernel)

/-- **C06, the state machinery of nested operators.**  The state an operator of the library returns can
be passed to the next call and is reported back: along a run every reported initial state is the state
passed in. -/
theorem C06_run_echo {op : Operator α} {D E : PyVal Unit → Prop} (h : Lib op D E) {x y o n i o' n' i' : Val α}
    (hw : x.WF) (hD : D x.skel) (hwy : y.WF) (hDy : D y.skel) (hc : call op x none false = .ok (o, n, i))
    (hn : SameType n i) (hc' : call op y (some n) false = .ok (o', n', i')) : i' = n := by
  refine C06_step_echo h hwy hDy hw hD hc ?_ hc'
  have := congrArg PyVal.skel hn
  simpa using this
example := C06_run_echo (α := XR ℚ) (Lib.basic (.sma 2)) (x := vS (.fin 3)) (y := vS (.fin 5)) (o := vS (.fin 0)) (n := .tup [vI 1, series [3, 0]]) (i := .tup [vI 0, series [0, 0]])
  (o' := vS (.fin 4)) (n' := .tup [vI 2, series [5, 3]]) (i' := .tup [vI 1, series [3, 0]]) (by simp [vS]) rfl (by simp [vS]) rfl (by decide +kernel) rfl (by decide +kernel)

/-- **C06 for Compose, Join, Map and FFill over arbitrary operators** (not only those of the library): the
contract is preserved.  `ChainContract D ops`: the first operator honours the contract on `D`, the second
on what the first one returns, and so on. -/
theorem C06_meta_preserve {op : Operator α} {ops : List (Operator α)} {D : Val α → Prop} {Ds : List (Val α → Prop)}
    (size : Int) :
    (ChainContract D ops.reverse → (Compose ops).Contract D) ∧
    (List.Forall₂ (fun (op : Operator α) D => op.Sane ∧ op.Contract D) ops Ds → (Join ops).Contract (JoinDom Ds)) ∧
    (op.Sane → (Map op size).Contract D) ∧
    (op.Sane → op.Contract D → (FFill op).Contract D) :=
  ⟨Compose_contract, Join_contract, fun h => Map_contract h size D, fun h hc => FFill_contract h hc⟩
example := C06_meta_preserve (α := XR ℚ) (op := SMA 2) (ops := [Lag 1, SMA 2]) (D := fun x => x.skel = .leaf ()) (Ds := [fun x => x.skel = .leaf (), fun x => x.skel = .leaf ()]) 2

/-- C06, every shipped operator is in the catalogue: the simple ones by `Basic`, the composite ones by
these derivations. -/
theorem C06_shipped_composites (m r p slow fast macd : Int) :
    Lib (Volatility (α := α) m r) (IsArgs 1) (· = .leaf ()) ∧
    Lib (Momentum (α := α) p) (IsArgs 1) (· = .leaf ()) ∧
    Lib (SMACrossover (α := α) slow fast) (IsArgs 1) (· = .leaf ()) ∧
    Lib (SMACrossoverSignal (α := α) slow fast) (IsArgs 1) (· = .leaf ()) ∧
    Lib (MACDSignal (α := α) slow fast macd) (IsArgs 1) (· = .leaf ()) :=
  ⟨Volatility_lib m r, Momentum_lib p, SMACrossover_lib slow fast, SMACrossoverSignal_lib slow fast,
   MACDSignal_lib slow fast macd⟩
example := C06_shipped_composites (α := XR ℚ) 2 2 2 2 2 2

/-- **C01 for the library.**  `C01_streaming_eq_stepping` applies to everything that can be built. -/
theorem C01_library {op : Operator α} {D E : PyVal Unit → Prop} (h : Lib op D E) {inputs : Val α}
    (hw : inputs.WF) {st : Option (Val α)} (hst : ∀ s ∈ st, s.WF) (outs sf s0 : Val α) :
    call op inputs st = .ok (outs, sf, s0) ↔
    flatten inputs ≠ [] ∧ ∃ (x : Val α) (xs : List (Val α)), IsSeries inputs (x :: xs) ∧
      ∃ o n i, call op x st false = .ok (o, n, i) ∧ s0 = st.getD i ∧ Tensors s0 ∧ Tensors o ∧
      ∃ tr, stepAll op (x :: xs) s0 = .ok tr ∧
        (∀ e ∈ tr, SameType e.1 o ∧ SameType e.2 s0) ∧
        IsSeries outs (tr.map (·.1)) ∧ (tr.map (·.2)).getLast? = some sf :=
  C01_streaming_eq_stepping h.ok.sane h.ok.uniform hw hst outs sf s0
example := C01_library (α := XR ℚ) (Lib.basic (.sma 2)) (inputs := series [3, 5]) (nums_ok _).1 (st := none) (by simp)

/-- **C02 for the library.** -/
theorem C02_library {op : Operator α} {D E : PyVal Unit → Prop} (h : Lib op D E) {v v1 v2 : Val α}
    {a b : List (Val α)} (ha : a ≠ []) (hb : b ≠ []) (hv : IsSeries v (a ++ b)) (hv1 : IsSeries v1 a)
    (hv2 : IsSeries v2 b) (hw : v.WF) (hl : flatten v ≠ []) {st : Option (Val α)} (hst : ∀ s ∈ st, s.WF)
    (outs sf s0 : Val α) :
    call op v st = .ok (outs, sf, s0) ↔
    ∃ o1 s1 o2, call op v1 st = .ok (o1, s1, s0) ∧ call op v2 (some s1) = .ok (o2, sf, s1) ∧
      ∃ os1 os2, IsSeries o1 os1 ∧ IsSeries o2 os2 ∧ IsSeries outs (os1 ++ os2) ∧
        os1.length = a.length ∧ os2.length = b.length :=
  C02_chunked_resumption h.ok.sane h.ok.uniform ha hb hv hv1 hv2 hw hl hst outs sf s0
example := C02_library (α := XR ℚ) (Lib.basic (.sma 2)) (v := series [3, 5, 1]) (v1 := series [3, 5]) (v2 := series [1]) (a := [vS (.fin 3), vS (.fin 5)]) (b := [vS (.fin 1)]) (by simp) (by simp)
  (nums_ok _).2.2 (nums_ok _).2.2 (nums_ok _).2.2 (nums_ok _).1 (nums_ok _).2.1 (st := none) (by simp)

/-- **C03 for the library.** -/
theorem C03_library {op : Operator α} {D E : PyVal Unit → Prop} (h : Lib op D E) {v v' : Val α}
    (hw : v.WF) (hw' : v'.WF) {st : Option (Val α)} (hst : ∀ s ∈ st, s.WF) {outs sf s0 outs' sf' s0' : Val α}
    (hc : call op v st = .ok (outs, sf, s0)) (hc' : call op v' st = .ok (outs', sf', s0')) (k : Nat) (hk : 0 < k)
    (hagree : ∀ i < k, ∃ x, sliceAt i v = .ok x ∧ sliceAt i v' = .ok x) :
    s0 = s0' ∧ ∀ i < k, ∃ o, sliceAt i outs = .ok o ∧ sliceAt i outs' = .ok o :=
  C03_causality h.ok.sane h.ok.uniform hw hw' hst hc hc' k hk hagree

/-! ### Concrete cases -/

/-- C01/C06: a moving average of period 2 over 1, 3, 5; the call without a state, and the one with the
initial state it reports. -/
example : call (SMA 2) (series [1, 3, 5]) none =
    .ok (series [0, 2, 4], .tup [vI 3, series [5, 3]], .tup [vI 0, series [0, 0]]) := by decide +kernel
example : call (SMA 2) (series [1, 3, 5]) (some (.tup [vI 0, series [0, 0]])) =
    .ok (series [0, 2, 4], .tup [vI 3, series [5, 3]], .tup [vI 0, series [0, 0]]) := by decide +kernel
/-- C02: the same in two chunks -/
example : call (SMA 2) (series [1, 3]) none =
    .ok (series [0, 2], .tup [vI 2, series [3, 1]], .tup [vI 0, series [0, 0]]) ∧
    call (SMA 2) (series [5]) (some (.tup [vI 2, series [3, 1]])) =
    .ok (series [4], .tup [vI 3, series [5, 3]], .tup [vI 2, series [3, 1]]) := ⟨by decide +kernel, by decide +kernel⟩
/-- C03: changing the last input does not change the first two outputs -/
example : call (SMA 2) (series [1, 3, 100]) none =
    .ok (series [0, 2, 103 / 2], .tup [vI 3, series [100, 3]], .tup [vI 0, series [0, 0]]) := by decide +kernel
/-- C04: two series of different lengths -/
example : call (Sub (α := XR ℚ)) (.tup [series [1, 2], series [1, 2, 3]]) none = .error .sizeMismatch := by
  decide +kernel
/-- An operator whose state changes from int to float. -/
def unstable : Operator (XR ℚ) := streamable fun args => match args with
  | [x] => .ok (x, vS (.fin 0), vI 0)
  | [x, _] => .ok (x, vS (.fin 0), vI 0)
  | _ => .error .typeError
/-- C05: it is rejected with the state type error -/
example : call unstable (series [1, 2]) none = .error .stateTypes := by decide +kernel
/-- C06: a five operator pipeline, with the nested states -/
example : call (Momentum 1) (series [1, 4, 9]) none =
    .ok (series [0, 3, 5],
      .tup [.unit, .tup [.unit, series [9]], .unit, .tup [vI 3]],
      .tup [.unit, .tup [.unit, series [0]], .unit, .tup [vI 0]]) := by decide +kernel
example : call (Momentum 1) (series [1, 4, 9]) (some (.tup [.unit, .tup [.unit, series [0]], .unit, .tup [vI 0]])) =
    .ok (series [0, 3, 5],
      .tup [.unit, .tup [.unit, series [9]], .unit, .tup [vI 3]],
      .tup [.unit, .tup [.unit, series [0]], .unit, .tup [vI 0]]) := by decide +kernel

/-- Why C06 speaks of inputs of the structure the operator is made for: a surplus input is taken for the
first component of the state.  `SMA(2)` on `(x, 5)` starts with iteration 5 and does not accept its own
initial state. -/
theorem C06_surplus_input_is_state :
    call (SMA 2) (.tup [vS (XR.fin (1 : ℚ)), vI 5]) none false =
      .ok (vS (.fin (1 / 2)), .tup [vI 6, series [1, 0]], .tup [vI 5, series [0, 0]]) ∧
    call (SMA 2) (.tup [vS (XR.fin (1 : ℚ)), vI 5]) (some (.tup [vI 5, series [0, 0]])) false =
      .error .typeError := ⟨by decide +kernel, by decide +kernel⟩
example := C06_surplus_input_is_state

end TS
