import Verif.Lemmas.Typed
import Verif.Props.FFill
import Verif.Props.Map
/-
C16, C56: which operators stream without an error.
-/
namespace TS
open PyVal
variable {α : Type} [TFNum α]
set_option linter.unusedSimpArgs false

/-! ### C56 -/

omit [TFNum α] in
theorem steady_chunks {op : Operator α} {X O S} {I : Val α → Prop} (hI : ∀ s, I s → s.WF ∧ HasSig s S)
    (hf : ∀ x, x.WF → HasSig x X → ∃ o n i, op.forwardStep x none = .ok (o, n, i) ∧ (o.WF ∧ HasSig o O) ∧ I n ∧ I i)
    (hn : ∀ x s, x.WF → HasSig x X → I s → ∃ o n i, op.forwardStep x (some s) = .ok (o, n, i) ∧ (o.WF ∧ HasSig o O) ∧ I n ∧ I i) :
    ∀ {vs : List (Val α)} {ns : List Nat}, List.Forall₂ (SeriesOf X) vs ns → ∀ st : Option (Val α), (∀ s ∈ st, I s) →
      ∃ zs, streamChunks op st vs = .ok zs ∧ List.Forall₂ (fun z n => ∃ os, IsSeries z os ∧ os.length = n ∧ ∀ o ∈ os, HasSig o O) zs ns := by
  intro vs ns h
  induction h with
  | nil => intro st _; exact ⟨[], rfl, .nil⟩
  | cons hv _ ih =>
    intro st hst
    obtain ⟨hw, hl, xs, hin, hx, hlen, hX⟩ := hv
    obtain ⟨z, sf, s0, os, h1, h2, h3, h4, h5, h6⟩ := steady_call hI hf hn hw hl hin hx hX st hst
    obtain ⟨zs, h7, h8⟩ := ih (some sf) (by rintro _ ⟨⟩; exact h5)
    refine ⟨z :: zs, by simp [streamChunks, h1, h7, bind, Except.bind], .cons ⟨os, h2, by omega, fun o ho => (h4 o ho).2⟩ h8⟩

/-- **C56 Well-typed operators do not fail.**  Streamed over a non-empty series of samples of the signature `X`, an operator
with `Typed op X O S` gives a series of as many outputs of the signature `O`, and states of the signature `S`. -/
theorem C56_typed_streams {op : Operator α} {X O S} (h : Typed op X O S) {v : Val α} {n : Nat} (hv : SeriesOf X v n) :
    ∃ z sf s0 os, call op v none = .ok (z, sf, s0) ∧ IsSeries z os ∧ os.length = n ∧ (∀ o ∈ os, HasSig o O) ∧ HasSig sf S ∧ HasSig s0 S := by
  obtain ⟨I, hI, hf, hn⟩ := h.steady
  obtain ⟨hw, hl, xs, hin, hx, rfl, hX⟩ := hv
  obtain ⟨z, sf, s0, os, h1, h2, h3, h4, h5, h6⟩ := steady_call hI hf hn hw hl hin hx hX none (by simp)
  exact ⟨z, sf, s0, os, h1, h2, h3, fun o ho => (h4 o ho).2, (hI _ h5).2, (hI _ h6).2⟩
example := C56_typed_streams (α := XR ℚ) (.sma [] (p := 2) (by norm_num)) (v := series [4, 3, 2]) (n := 3)
  ⟨(nums_ok _).1, (nums_ok _).2.1, _, (nums_ok _).2.2, by simp, rfl, by simp only [List.mem_map]; rintro _ ⟨a, -, rfl⟩; rfl⟩

/-- **C56, chunk by chunk**: series after series, each from the final state of the call before. -/
theorem C56_typed_chunks {op : Operator α} {X O S} (h : Typed op X O S) {vs : List (Val α)} {ns : List Nat} (hv : List.Forall₂ (SeriesOf X) vs ns) :
    ∃ zs, streamChunks op none vs = .ok zs ∧ List.Forall₂ (fun z n => ∃ os, IsSeries z os ∧ os.length = n ∧ ∀ o ∈ os, HasSig o O) zs ns := by
  obtain ⟨I, hI, hf, hn⟩ := h.steady
  exact steady_chunks hI hf hn hv none (by simp)
example := C56_typed_chunks (α := XR ℚ) (.sma [] (p := 2) (by norm_num)) (vs := [series [4, 3, 2], series [1]]) (ns := [3, 1])
  (.cons ⟨(nums_ok _).1, (nums_ok _).2.1, _, (nums_ok _).2.2, by simp, rfl, by simp only [List.mem_map]; rintro _ ⟨a, -, rfl⟩; rfl⟩
    (.cons ⟨(nums_ok _).1, (nums_ok _).2.1, _, (nums_ok _).2.2, by simp, rfl, by simp only [List.mem_map]; rintro _ ⟨a, -, rfl⟩; rfl⟩ .nil))

/-- **C56, single steps** (`streamable=False`): from the states the operator itself returned. -/
theorem C56_typed_steps {op : Operator α} {X O S} (h : Typed op X O S) : ∃ I : Val α → Prop, (∀ s, I s → HasSig s S) ∧
    (∀ x, x.WF → HasSig x X → ∃ o n i, call op x none false = .ok (o, n, i) ∧ HasSig o O ∧ I n ∧ I i) ∧
    (∀ x s, x.WF → HasSig x X → I s → ∃ o n i, call op x (some s) false = .ok (o, n, i) ∧ HasSig o O ∧ I n ∧ I i) := by
  obtain ⟨I, hI, hf, hn⟩ := h.steady
  refine ⟨I, fun s hs => (hI s hs).2, fun x hw hx => ?_, fun x s hw hx hs => ?_⟩
  · obtain ⟨o, n, i, a, b, c, d⟩ := hf x hw hx
    refine ⟨o, n, i, ?_, b.2, c, d⟩
    rw [call_eq false hw hx.tensors (by simp)]
    simpa using a
  · obtain ⟨o, n, i, a, b, c, d⟩ := hn x s hw hx hs
    refine ⟨o, n, i, ?_, b.2, c, d⟩
    rw [call_eq false hw hx.tensors (by rintro _ ⟨⟩; exact ⟨(hI s hs).1, (hI s hs).2.tensors⟩)]
    simpa using a
example := C56_typed_steps (α := XR ℚ) (.sma [2] (p := 3) (by norm_num))

/-- **C56, initial states**: the initial state of a well-typed operator depends on the signature of the inputs only, and starting
without a state is starting from it. -/
theorem C56_typed_initial_state {op : Operator α} {X O S} (h : Typed op X O S) : ∃ i0 : Val α, ∀ {v : Val α} {n : Nat}, SeriesOf X v n →
    ∃ z sf, call op v none = .ok (z, sf, i0) ∧ call op v (some i0) = .ok (z, sf, i0) := by
  obtain ⟨hst, i0, h0⟩ := h.rooted
  obtain ⟨hop, hu⟩ := h.regular
  refine ⟨i0, fun {v n} hv => ?_⟩
  obtain ⟨z, sf, s0, os, hc, -⟩ := C56_typed_streams h hv
  obtain ⟨hw, hl, xs, hin, hx, rfl, hX⟩ := hv
  obtain ⟨-, x, xs', hin', o, n, i, h1, rfl, h2, h3, h4⟩ := (C01_streaming_eq_stepping hop hu hw (by simp) _ _ _).1 hc
  obtain rfl := hin.det hl hin'
  obtain ⟨o', n', h5, h6, -, -, -, hi, -⟩ := rooted_call hst h0 (hin.mem_WF hw x (by simp)) (hX x (by simp))
  rw [h1] at h5; cases h5
  exact ⟨z, sf, hc, (C01_streaming_eq_stepping hop hu hw (by rintro _ ⟨⟩; exact hi) _ _ _).2 ⟨hl, x, xs', hin, o, n, i0, h6, rfl, h2, h3, h4⟩⟩
example := C56_typed_initial_state (α := XR ℚ) (.sma [2] (p := 3) (by norm_num))

/-- **C14 Map works column by column, for well-typed operators**: Map(op, m) streams over every series of samples of the signature
`X` with a leading dimension `m`, and column `k` of the outputs is what streaming `op` over column `k` gives. -/
theorem C14_map_typed {op : Operator α} {X O S} (h : Typed op X O S) (hne : flatten X ≠ []) {m : Nat} (hm : 0 < m)
    {v : Val α} {n : Nat} (hv : SeriesOf (tMany m X) v n) :
    ∃ z SF S0, call (Map op (m : Int)) v none = .ok (z, .tup [SF], .tup [S0]) ∧
      ∀ k < m, ∃ c zc s i, columnOf k v = .ok c ∧ call op c none = .ok (zc, s, i) ∧
        columnOf k z = .ok zc ∧ sliceAt k SF = .ok s ∧ sliceAt k S0 = .ok i := by
  obtain ⟨hst, i0, h0⟩ := h.rooted
  obtain ⟨hop, hu⟩ := h.regular
  obtain ⟨z, sf, s0, os, hc, -⟩ := C56_typed_streams (TypedIn.map h hne hm) hv
  obtain ⟨hw, hl, xs, hin, hx, rfl, hX⟩ := hv
  obtain ⟨x, xs, rfl⟩ := List.exists_cons_of_ne_nil hx
  have hrow : sliceAt 0 v = .ok x := hin.slice 0 (by simp)
  have hwx := hin.mem_WF hw x (by simp)
  have hxX := hX x (by simp)
  obtain ⟨ys, hyl, hys, hyX⟩ := exists_rows_of_sig hxX
  have hlx : flatten x ≠ [] := by
    intro e
    have := congrArg List.length (HasSig_iff.1 hxX).2
    simp [e, tMany, flatten_map] at this
    exact hne (List.length_eq_zero_iff.1 this.symm)
  have hs : op.StartsFrom i0 (fun y => y.WF ∧ HasSig y X) := by
    rintro y ⟨hy, hyX⟩
    obtain ⟨o, n, a, b, -⟩ := rooted_call hst h0 hy hyX
    exact ⟨a.trans b.symm, fun r hr => by rw [a] at hr; cases hr; rfl⟩
  obtain ⟨SF, S0, m', rfl, rfl, hm', hsz, hcol⟩ := C14_map_columns hop hu hs hw (by
    intro x' hx' k y hy
    rw [hrow] at hx'; cases hx'
    have hk : k < ys.length := by
      obtain ⟨l, hl'⟩ := List.exists_mem_of_ne_nil _ hlx
      obtain ⟨j, hj, rfl⟩ := List.mem_iff_getElem.1 hl'
      have := (List.forall₂_iff_get.1 (mapM_eq_ok_iff.1 (sliceAt_ok.1 hy).2)).2 j hj
      exact Leaf.index_lt (hys.size _ hl') (this (by rw [length_flatten_of_skel_eq (sliceAt_skel hy)]; exact hj))
    have := hys.slice k hk
    rw [hy] at this; cases this
    have := List.getElem_mem hk
    exact ⟨hys.mem_WF hwx _ this, hyX _ this⟩) hc
  have : m' = m := by
    obtain ⟨l, hl'⟩ := List.exists_mem_of_ne_nil _ hlx
    have h1 := hsz x hrow l hl'
    have h2 := hys.size l hl'
    rw [h1, hyl] at h2
    exact Except.ok.inj h2
  subst this
  refine ⟨z, SF, S0, hc, fun k hk => ?_⟩
  obtain ⟨h1, c, zc, s, h2, h3, h4, h5⟩ := hcol k hk
  exact ⟨c, zc, s, i0, h2, h3, h4, h5, h1⟩

/-! #### The composite operators of the library are well typed -/

/-- the types along a chain of operators -/
def along {A : Type} [Inhabited A] (l : List A) (k : Nat) : A := l[k]?.getD default

instance : Inhabited (PyVal (DType × List Nat)) := ⟨PyVal.unit⟩

theorem TypedIn.compose' {C : Int → Prop} {ops : List (Operator α)} (T : List (PyVal (DType × List Nat))) (S : List (PyVal (DType × List Nat))) (hne : ops ≠ [])
    (h : ∀ k (hk : k < ops.reverse.length), TypedIn C ops.reverse[k] (along T k) (along T (k + 1)) (along S k)) (hS : S.length = ops.length) :
    TypedIn C (Compose ops) (along T 0) (along T ops.length) (.tup S) := by
  have := TypedIn.compose hne h
  have e : (List.range ops.length).map (along S) = S := by
    refine List.ext_getElem (by simp [hS]) fun i h1 h2 => ?_
    simp [along, List.getElem?_eq_getElem h2]
  rwa [e] at this

theorem TypedIn.join' {C : Int → Prop} {ops : List (Operator α)} (X O : List (PyVal (DType × List Nat))) (S : List (PyVal (DType × List Nat)))
    (hX : X.length = ops.length) (hO : O.length = ops.length) (hS : S.length = ops.length)
    (h : ∀ k (hk : k < ops.length), TypedIn C ops[k] (along X k) (along O k) (along S k)) : TypedIn C (Join ops) (.tup X) (.tup O) (.tup S) := by
  have := TypedIn.join h
  have e : ∀ {A : Type} [Inhabited A] (l : List A), l.length = ops.length → (List.range ops.length).map (along l) = l := by
    intro A _ l hl
    refine List.ext_getElem (by simp [hl]) fun i h1 h2 => ?_
    simp [along, List.getElem?_eq_getElem h2]
  rwa [e X hX, e O hO, e S hS] at this

/-- state of `SetDuring` -/
abbrev tSet : PyVal (DType × List Nat) := .tup [tI []]

theorem C56_momentum_typed {C : Int → Prop} {p : Nat} (hp : 0 < p) (s : List Nat) :
    TypedIn C (Momentum (p : Int) : Operator α) (tF s) (tF s) (.tup [.unit, .tup [.unit, tF (p :: s)], .unit, tSet]) := by
  refine TypedIn.compose' [tF s, .tup [tF s, tF s], .tup [tF s, tF s], tF s, tF s] [.unit, .tup [.unit, tF (p :: s)], .unit, tSet] (by simp) ?_ rfl
  intro k hk
  match k, hk with
  | 0, _ => exact .fork 2 _
  | 1, _ =>
    refine .join' [tF s, tF s] [tF s, tF s] [.unit, tF (p :: s)] rfl rfl rfl fun k hk => ?_
    match k, hk with
    | 0, _ => exact .identity _
    | 1, _ => exact .lag _ _ hp
  | 2, _ => exact .sub s
  | 3, _ => exact .setDuringFloat _ _ (by simp [flatten, along])

theorem C56_smaCrossover_typed {C : Int → Prop} {slow fast : Nat} (hs : 0 < slow) (hf : 0 < fast) (s : List Nat) :
    TypedIn C (SMACrossover (slow : Int) fast : Operator α) (tF s) (tF s) (.tup [.unit, .tup [.tup [tBuf fast s, tSet], tBuf slow s], .unit]) := by
  refine TypedIn.compose' [tF s, .tup [tF s, tF s], .tup [tF s, tF s], tF s] [.unit, .tup [.tup [tBuf fast s, tSet], tBuf slow s], .unit] (by simp) ?_ rfl
  intro k hk
  match k, hk with
  | 0, _ => exact .fork 2 _
  | 1, _ =>
    refine .join' [tF s, tF s] [tF s, tF s] [.tup [tBuf fast s, tSet], tBuf slow s] rfl rfl rfl fun k hk => ?_
    match k, hk with
    | 0, _ =>
      refine TypedIn.compose' [tF s, tF s, tF s] [tBuf fast s, tSet] (by simp) (fun k hk => ?_) rfl
      match k, hk with
      | 0, _ => exact .sma s hf
      | 1, _ => exact .setDuringFloat _ _ (by simp [flatten, along])
    | 1, _ => exact .sma s hs
  | 2, _ => exact .sub s
example := C56_smaCrossover_typed (α := XR ℚ) (C := fun n => n.natAbs ≤ 1) (slow := 3) (fast := 2) (by norm_num) (by norm_num) [2]

theorem C56_volatility_typed {C : Int → Prop} (hz : TFNum.eq (Arith.zero : α) (Arith.ofRat 0) = true) {m r : Nat} (hm : 0 < m) (hr : 0 < r) :
    TypedIn C (Volatility (m : Int) r : Operator α) (tF []) (tF []) (.tup [tBuf r [], tBuf m [], tSet]) := by
  refine TypedIn.compose' [tF [], tF [], tF [], tF []] [tBuf r [], tBuf m [], tSet] (by simp) ?_ rfl
  intro k hk
  match k, hk with
  | 0, _ => exact .logReturn hz hr
  | 1, _ => exact .msd [] hm
  | 2, _ => exact .setDuringFloat _ _ (by simp [flatten, along])
example := C56_volatility_typed (α := XR ℚ) (C := fun n => n.natAbs ≤ 1) (by simp) (m := 2) (r := 3) (by norm_num) (by norm_num)

theorem C56_smaSignal_typed {C : Int → Prop} (h0 : C 0) {slow fast : Nat} (hs : 0 < slow) (hf : 0 < fast) (s : List Nat) :
    TypedIn C (SMACrossoverSignal (slow : Int) fast : Operator α) (tF s) (tI s)
      (.tup [.tup [.unit, .tup [.tup [tBuf fast s, tSet], tBuf slow s], .unit], .tup [tB [], tF s], tSet]) := by
  refine TypedIn.compose' [tF s, tF s, tI s, tI s] [_, _, _] (by simp) ?_ rfl
  intro k hk
  match k, hk with
  | 0, _ => exact C56_smaCrossover_typed hs hf s
  | 1, _ => exact .zeroCrossover s
  | 2, _ => exact .setDuringInt _ _ h0 (by simp [flatten, along])
example := C56_smaSignal_typed (α := XR ℚ) (C := fun n => n.natAbs ≤ 1) (by simp) (slow := 3) (fast := 2) (by norm_num) (by norm_num) [2]

theorem C56_macdSignal_typed {C : Int → Prop} (h0 : C 0) {slow fast m : Nat} (hs : 0 < slow) (hf : 0 < fast) (hm : 0 < m) (s : List Nat) :
    TypedIn C (MACDSignal (slow : Int) fast m : Operator α) (tF s) (tI s)
      (.tup [.tup [tI [], tAvg slow s, tAvg fast s, tAvg m s], .unit, .tup [tB [], tF s], tSet]) := by
  refine TypedIn.compose' [tF s, .tup [tF s, tF s, tF s, tF s, tF s], tF s, tI s, tI s] [_, _, _, _] (by simp) ?_ rfl
  intro k hk
  match k, hk with
  | 0, _ => exact .macd s hs hf hm
  | 1, _ => exact .select (ls := [tF s, tF s, tF s, tF s, tF s]) 4 (by simp)
  | 2, _ => exact .zeroCrossover s
  | 3, _ => exact .setDuringInt _ _ h0 (by simp [flatten, along])

/-- A series as in the theorems: three numbers. -/
example : SeriesOf (tF []) (series [1, 2, 4]) 3 :=
  ⟨(nums_ok _).1, (nums_ok _).2.1, _, (nums_ok _).2.2, by simp, rfl, by simp only [List.mem_map]; rintro _ ⟨a, -, rfl⟩; rfl⟩
/-- Momentum(2) over 1, 2, 4: the first two outputs are set to 0, then 4 - 1. -/
example : (call (Momentum 2) (series [1, 2, 4]) none).map (·.1) = .ok (series [0, 0, 3]) := by decide +kernel
/-- Typed pipelines with forward filling. -/
example (p : Nat) (hp : 0 < p) : Typed (FFill (Momentum (p : Int)) : Operator (XR ℚ)) (tF []) (tF [])
    (.tup [tF [], .tup [.unit, .tup [.unit, tF [p]], .unit, tSet]]) :=
  .ffill (C56_momentum_typed hp []) (by simp [AllFloat, flatten]) ⟨by simp [IsEmptySeq], by simp [IsSingleton]⟩
    (.inr ⟨by simp [IsEmptySeq, PyVal.tup], by simp [IsSingleton, PyVal.tup]⟩)
example : streamChunks (FFill (Momentum 2)) none [series [1, 0, 2], series [4]] = .ok [series [0, 0, 0], series [3]] := by decide +kernel

/-! ### C16 -/

/-- **C16, where it holds**: FFill over any operator that never fails on float inputs of a signature, when its output is not a tuple or list of
fewer than two elements, and its state is `()` or not a tuple or list of fewer than two elements.  For all others it fails (`C16_ffill_iff`). -/
theorem C16_ffill_streams {op : Operator α} {X O S} (h : op.Steady X O S) (hX : AllFloat X) (hO : Passable O)
    (hS : S = PyVal.unit ∨ Passable S) {v : Val α} {n : Nat} (hv : SeriesOf X v n) :
    ∃ z sf s0 os, call (FFill op) v none = .ok (z, sf, s0) ∧ IsSeries z os ∧ os.length = n ∧ ∀ o ∈ os, HasSig o O := by
  obtain ⟨I, hI, hf, hn⟩ := FFill_steady h hX hO hS
  obtain ⟨hw, hl, xs, hin, hx, rfl, hX⟩ := hv
  obtain ⟨z, sf, s0, os, h1, h2, h3, h4, -, -⟩ := steady_call hI hf hn hw hl hin hx hX none (by simp)
  exact ⟨z, sf, s0, os, h1, h2, h3, fun o ho => (h4 o ho).2⟩
example := C16_ffill_streams (α := XR ℚ) (TypedIn.sma (C := fun _ => True) [] (p := 2) (by norm_num)).steady (by simp [AllFloat, flatten]) ⟨by simp [IsEmptySeq], by simp [IsSingleton]⟩
  (.inr ⟨by simp [IsEmptySeq, PyVal.tup], by simp [IsSingleton, PyVal.tup]⟩) (v := series [4, 0, 2]) (n := 3)
  ⟨(nums_ok _).1, (nums_ok _).2.1, _, (nums_ok _).2.2, by simp, rfl, by simp only [List.mem_map]; rintro _ ⟨a, -, rfl⟩; rfl⟩

/-- **C16, exactly**: an operator that never fails on samples of the float signature `X` can be wrapped by FFill iff its output is not a tuple
or list of fewer than two elements, and its state is `()` or not a tuple or list of fewer than two elements. -/
theorem C16_ffill_iff {op : Operator α} (hsane : op.Sane) (hu : op.Uniform) {X O S} (h : op.Steady X O S) (hX : AllFloat X)
    {v : Val α} {n : Nat} (hv : SeriesOf X v n) :
    (∃ r, call (FFill op) v none = .ok r) ↔ Passable O ∧ (S = PyVal.unit ∨ Passable S) := by
  constructor
  · rintro ⟨r, hr⟩
    obtain ⟨hw, hl, xs, hin, hx, -, hX⟩ := hv
    exact FFill_needs hsane hu h hw hl hin hx hX hr
  · rintro ⟨hO, hS⟩
    obtain ⟨z, sf, s0, os, h1, -⟩ := C16_ffill_streams h hX hO hS hv
    exact ⟨_, h1⟩

/-- A chain of two stateless operators (doubling): its state is `((), ())`, which `tf.cond` accepts. -/
example : (call (FFill (Compose [Add, Fork 2])) (series [1, -2, 0]) none).map (·.1) = .ok (series [2, -4, -4]) := by decide +kernel

/-- The state of a chain of one operator is a one-element tuple, so FFill over it fails on every series, whatever the operator. -/
theorem C16_ffill_rejects_single_chain {op : Operator α} (hsane : op.Sane) (hu : op.Uniform) {X O S} (h : op.Steady X O S)
    (hX : AllFloat X) {v : Val α} {n : Nat} (hv : SeriesOf X v n) (r : Step α) : call (FFill (Compose [op])) v none ≠ .ok r := by
  intro hr
  have hc : (Compose [op]).Steady X O (.tup [S]) :=
    Compose_steady (T := fun k => if k = 0 then X else O) (S := fun _ => S) (by simp) (by
      intro k hk
      obtain rfl : k = 0 := by simpa using hk
      simpa using h)
  obtain ⟨-, h' | h'⟩ := (C16_ffill_iff (Compose_sane (by simpa using hsane)) (Compose_uniform (by simpa using ⟨hsane, hu⟩)) hc hX hv).1 ⟨r, hr⟩
  · cases h'
  · exact h'.2 ⟨_, .inl rfl⟩

/-- FFill(SMA) streams, FFill(Compose(SMA)) does not. -/
example : (call (FFill (SMA 1)) (series [1, 2]) none).map (·.1) = .ok (series [1, 2]) ∧
    (call (FFill (Compose [SMA 1])) (series [1, 2]) none).isOk = false :=
  ⟨by decide +kernel, by decide +kernel⟩

/-- Two columns through MACD's signal line: the type covers tuples of outputs and nested states. -/
example {v : Val (XR ℚ)} {n : Nat} (hv : SeriesOf (tF [2]) v n) :
    ∃ z SF S0, call (Map (MACD (2 : Nat) (1 : Nat) (1 : Nat)) (2 : Nat)) v none = .ok (z, .tup [SF], .tup [S0]) ∧
      ∀ k < 2, ∃ c zc s i, columnOf k v = .ok c ∧ call (MACD (2 : Nat) (1 : Nat) (1 : Nat)) c none = .ok (zc, s, i) ∧
        columnOf k z = .ok zc ∧ sliceAt k SF = .ok s ∧ sliceAt k S0 = .ok i :=
  C14_map_typed (.macd [] (by decide) (by decide) (by decide)) (by simp [flatten]) (by decide) hv
example : SeriesOf (tF [2]) (matrix 2 [[1, 2], [0, 3], [4, 0]]) 3 :=
  ⟨by simp [matrix], by simp [matrix, flatten], [series [1, 2], series [0, 3], series [4, 0]],
    ⟨by simp only [flatten, List.mem_singleton]; rintro _ rfl; rfl, fun i hi => by
      match i, hi with
      | 0, _ => exact (by decide +kernel : sliceAt 0 (matrix 2 [[1, 2], [0, 3], [4, 0]]) = .ok (series [1, 2]))
      | 1, _ => exact (by decide +kernel : sliceAt 1 (matrix 2 [[1, 2], [0, 3], [4, 0]]) = .ok (series [0, 3]))
      | 2, _ => exact (by decide +kernel : sliceAt 2 (matrix 2 [[1, 2], [0, 3], [4, 0]]) = .ok (series [4, 0]))⟩, by simp, rfl, by
    simp only [List.mem_cons, List.not_mem_nil, or_false]
    rintro _ (rfl | rfl | rfl) <;> rfl⟩

/-- The state of Map is a one-element tuple, so FFill over it fails on every series, whatever the operator.  (Mapping FFill(op) works.) -/
theorem C16_ffill_map_fails {op : Operator α} {X O S} (h : Typed op X O S) (hX : AllFloat X) (hne : flatten X ≠ []) {m : Nat} (hm : 0 < m)
    {v : Val α} {n : Nat} (hv : SeriesOf (tMany m X) v n) (r : Step α) : call (FFill (Map op (m : Int))) v none ≠ .ok r := by
  intro hr
  have ht := TypedIn.map h hne hm
  obtain ⟨-, h' | h'⟩ := (C16_ffill_iff ht.regular.1 ht.regular.2 ht.steady (by
    intro l hl
    simp only [tMany, flatten_map, List.mem_map] at hl
    obtain ⟨k, hk, rfl⟩ := hl
    exact hX k hk) hv).1 ⟨r, hr⟩
  · cases h'
  · exact h'.2 ⟨_, .inl rfl⟩

/-- Map(FFill(SMA(1)), 2) holds the columns' values over zeros, each column by itself; FFill(Map(SMA(1), 2)) fails. -/
example : (call (Map (FFill (SMA 1)) 2) (matrix 2 [[1, 2], [0, 3], [4, 0]]) none).map (·.1) = .ok (matrix 2 [[1, 2], [1, 3], [4, 3]]) ∧
    (call (FFill (Map (SMA 1) 2)) (matrix 2 [[1, 2], [0, 3], [4, 0]]) none).isOk = false :=
  ⟨by decide +kernel, by decide +kernel⟩
example : Typed (Map (FFill (SMA (1 : Nat))) (2 : Nat) : Operator (XR ℚ)) (tF [2]) (tF [2]) (.tup [.tup [tF [2], .tup [tI [2], tF [2, 1]]]]) :=
  TypedIn.map (TypedIn.ffill (.sma [] (by decide)) (by simp [AllFloat, flatten]) ⟨by simp [IsEmptySeq], by simp [IsSingleton]⟩
    (.inr ⟨by simp [IsEmptySeq, PyVal.tup], by simp [IsSingleton, PyVal.tup]⟩)) (by simp [flatten]) (m := 2) (by decide)

/-- The state of AutoCorrelation is a one-element tuple, so FFill(AutoCorrelation) fails on every series. -/
theorem C16_ffill_autoCorrelation_fails {p lag : Nat} (hp : 0 < p) (hl : 0 < lag) (s : List Nat) {v : Val α} {n : Nat} (hv : SeriesOf (tF s) v n) (r : Step α) :
    call (FFill (AutoCorrelation (p : Int) lag)) v none ≠ .ok r := by
  intro h
  have hk := (Lib.basic (Basic.autoCorrelation (α := α) p lag)).ok
  obtain ⟨-, h' | h'⟩ := (C16_ffill_iff hk.sane hk.uniform (TypedIn.autoCorrelation (C := fun _ => True) s hp hl).steady (by simp [AllFloat, flatten]) hv).1 ⟨r, h⟩
  · cases h'
  · exact h'.2 ⟨_, .inl rfl⟩
example := C16_ffill_autoCorrelation_fails (α := XR ℚ) (p := 2) (lag := 1) (by norm_num) (by norm_num) [] (v := series [4, 3, 2]) (n := 3)
  ⟨(nums_ok _).1, (nums_ok _).2.1, _, (nums_ok _).2.2, by simp, rfl, by simp only [List.mem_map]; rintro _ ⟨a, -, rfl⟩; rfl⟩

end TS
