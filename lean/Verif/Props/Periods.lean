import Verif.Props.StaticShapes
import Verif.Props.AveragesExact
/-
C82: which periods the operators accept.
-/
namespace TS
open PyVal
variable {α : Type}
set_option linter.unusedSimpArgs false

/-- An operator whose first step fails cannot be streamed. -/
theorem rejects_step {op : Operator α} {X} {v : Val α} {n : Nat} (hv : SeriesOf X v n)
    (h : ∀ x, HasSig x X → ∃ e, op.forwardStep x none = .error e) : ∃ e, call op v none = .error e := by
  obtain ⟨hw, hl, xs, hin, hx, rfl, hX⟩ := hv
  obtain ⟨e, he⟩ := h _ (hX _ (List.head_mem hx))
  refine ⟨e, ?_⟩
  rw [call_eq true hw hin.tensors (by simp), if_pos rfl, callStreamed_eq hw hl hin hx, he]
  rfl

theorem not_ok {A : Type} {x : Res A} (h : ∃ e, x = .error e) : ¬ ∃ r, x = .ok r := by
  rintro ⟨r, hr⟩; obtain ⟨e, he⟩ := h; rw [hr] at he; cases he

theorem static_rejects_step {op : Operator α} {X} {v : Val α} {n : Nat} (hv : SeriesOf X v n)
    (h : ∀ x, HasSig x X → ∃ e, op.forwardStep x none = .error e) : ¬ ∃ r, callStatic op v none = .ok r := by
  rintro ⟨r, hr⟩
  exact not_ok (rejects_step hv h) ⟨r, C81_static_sound hr⟩

/-- An operator whose first step changes the shapes of its state cannot be streamed when the shapes are known. -/
theorem static_rejects_shape {op : Operator α} (hop : op.Sane ∧ op.Uniform) {X} {v : Val α} {n : Nat} (hv : SeriesOf X v n)
    (h : ∀ x, HasSig x X → ∃ n i, (∃ o n, op.forwardStep x none = .ok (o, n, i)) ∧ (∃ o i', op.forwardStep x (some i) = .ok (o, n, i')) ∧ ¬ SameShapes n i) :
    ¬ ∃ r, callStatic op v none = .ok r := by
  rintro ⟨⟨z, sf, s0⟩, hr⟩
  obtain ⟨hw, hl, xs, hin, hx, rfl, hX⟩ := hv
  obtain ⟨h1, h2⟩ := (C81_static_exact hop.1 hop.2 hw hin (by simp) _ _ _).1 hr
  obtain ⟨-, x, xs', hin', o, n, i, h3, hs0, hts, -, tr, h4, -⟩ := (C01_streaming_eq_stepping hop.1 hop.2 hw (by simp) _ _ _).1 h1
  obtain rfl := hin.det hl hin'
  have hxw := hin.mem_WF hw x (by simp)
  have hxt := hin.mem_tensors x (by simp)
  rw [call_eq false hxw hxt (by simp)] at h3
  simp only [Option.getD_none] at hs0
  obtain ⟨n', i', ⟨o1, n1, h5⟩, ⟨o', i'', h6⟩, h7⟩ := h x (hX x (by simp))
  simp only [Bool.false_eq_true, if_false, h5, Except.ok.injEq, Prod.mk.injEq] at h3
  obtain ⟨rfl, rfl, rfl⟩ := h3
  subst hs0
  have hiw := (hop.1 _ _ _ _ _ hxw (by simp) h5).2.2
  obtain ⟨o2, n2, i2, tr', c1, c2, rfl⟩ := stepAll_cons_ok.1 h4
  rw [call_eq false hxw hxt (by simpa using ⟨hiw, hts⟩)] at c1
  simp only [Bool.false_eq_true, if_false, h6, Except.ok.injEq, Prod.mk.injEq] at c1
  obtain ⟨rfl, rfl, rfl⟩ := c1
  exact h7 (h2 _ h4 (o', n') (by simp))

section
variable [TFNum α]

theorem basic_regular {op : Operator α} {n sk} (h : Basic op n sk) : op.Sane ∧ op.Uniform := ⟨(Lib.basic h).ok.sane, (Lib.basic h).ok.uniform⟩

theorem zerosBuf_neg {E : Type} [Arith E] {p : Int} (hp : p < 0) : zerosBuf (E := E) p = .error .valueError := by simp [zerosBuf, hp]
theorem zerosBuf_zero {E : Type} [Arith E] : zerosBuf (E := E) 0 = .ok [] := by simp [zerosBuf]

/-- An operator with a period: negative periods fail, 0 changes the shape, the others are well typed. -/
theorem static_iff_pos {op : Int → Operator α} {X : PyVal (DType × List Nat)} {v : Val α} {n : Nat} (hv : SeriesOf X v n) (hop : (op 0).Sane ∧ (op 0).Uniform)
    (hneg : ∀ p < 0, ∀ x, HasSig x X → ∃ e, (op p).forwardStep x none = .error e)
    (hzero : ∀ x, HasSig x X → ∃ n i, (∃ o n, (op 0).forwardStep x none = .ok (o, n, i)) ∧ (∃ o i', (op 0).forwardStep x (some i) = .ok (o, n, i')) ∧ ¬ SameShapes n i)
    (hpos : ∀ p : Nat, 0 < p → ∃ O S, Typed (op p) X O S) (p : Int) : (∃ r, callStatic (op p) v none = .ok r) ↔ 0 < p := by
  rcases lt_trichotomy p 0 with hp | rfl | hp
  · exact iff_of_false (static_rejects_step hv (hneg p hp)) (by omega)
  · exact iff_of_false (static_rejects_shape hop hv hzero) (by omega)
  · lift p to Nat using hp.le
    obtain ⟨O, S, ht⟩ := hpos p (by omega)
    obtain ⟨h1, h2⟩ := C81_typed ht hv
    exact iff_of_true (h1 ▸ h2) hp

/-- An operator with a period whose first step fails unless the period is positive. -/
theorem call_iff_pos {op : Int → Operator α} {X : PyVal (DType × List Nat)} {v : Val α} {n : Nat} (hv : SeriesOf X v n)
    (hneg : ∀ p ≤ 0, ∀ x, HasSig x X → ∃ e, (op p).forwardStep x none = .error e)
    (hpos : ∀ p : Nat, 0 < p → ∃ O S, Typed (op p) X O S) (p : Int) :
    ((∃ r, call (op p) v none = .ok r) ↔ 0 < p) ∧ ((∃ r, callStatic (op p) v none = .ok r) ↔ 0 < p) := by
  rcases le_or_gt p 0 with hp | hp
  · exact ⟨iff_of_false (not_ok (rejects_step hv (hneg p hp))) (by omega), iff_of_false (static_rejects_step hv (hneg p hp)) (by omega)⟩
  · lift p to Nat using hp.le
    obtain ⟨O, S, ht⟩ := hpos p (by omega)
    obtain ⟨h1, h2⟩ := C81_typed ht hv
    exact ⟨iff_of_true h2 hp, iff_of_true (h1 ▸ h2) hp⟩

/-- **C82, SMA**: exactly the positive periods (with shapes known). -/
theorem C82_sma (p : Int) (s : List Nat) {v : Val α} {n : Nat} (hv : SeriesOf (tF s) v n) : (∃ r, callStatic (SMA p) v none = .ok r) ↔ 0 < p := by
  refine static_iff_pos hv (basic_regular (.sma 0)) (fun p hp x hx => ?_) (fun x hx => ?_) (fun p hp => ⟨_, _, .sma s hp⟩) p
  · obtain ⟨a, rfl⟩ := hasSig_tF hx
    simp [SMA, bufferOp, streamable, unpackArgs, arity, smaStep, zerosBuf_neg hp]
  · obtain ⟨a, rfl⟩ := hasSig_tF hx
    refine ⟨.tup [vI 1, vBuf [a]], .tup [vI 0, vBuf (s := s) []], by simp [SMA, bufferOp, streamable, unpackArgs, arity, smaStep, zerosBuf_zero, roll],
      by simp [SMA, bufferOp, streamable, unpackArgs, arity, smaStep, zerosBuf_zero, roll], ?_⟩
    simp [SameShapes, PyVal.tup, vBuf, shapeOf, Tensor.pack]

/-- **C82, MovingStandardDeviation**: exactly the positive periods. -/
theorem C82_msd (p : Int) (s : List Nat) {v : Val α} {n : Nat} (hv : SeriesOf (tF s) v n) : (∃ r, callStatic (MSD p) v none = .ok r) ↔ 0 < p := by
  refine static_iff_pos hv (basic_regular (.msd 0)) (fun p hp x hx => ?_) (fun x hx => ?_) (fun p hp => ⟨_, _, .msd s hp⟩) p
  · obtain ⟨a, rfl⟩ := hasSig_tF hx
    simp [MSD, bufferOp, streamable, unpackArgs, arity, msdStep, zerosBuf_neg hp]
  · obtain ⟨a, rfl⟩ := hasSig_tF hx
    refine ⟨.tup [vI 1, vBuf [a]], .tup [vI 0, vBuf (s := s) []], by simp [MSD, bufferOp, streamable, unpackArgs, arity, msdStep, zerosBuf_zero, roll],
      by simp [MSD, bufferOp, streamable, unpackArgs, arity, msdStep, zerosBuf_zero, roll], ?_⟩
    simp [SameShapes, PyVal.tup, vBuf, shapeOf, Tensor.pack]

/-- **C82, Lag**: exactly the positive periods, for every dtype and shape, whether or not the shapes are known. -/
theorem C82_lag (p : Int) (d : DType) (s : List Nat) {v : Val α} {n : Nat} (hv : SeriesOf (.leaf (d, s)) v n) :
    ((∃ r, call (Lag p) v none = .ok r) ↔ 0 < p) ∧ ((∃ r, callStatic (Lag p) v none = .ok r) ↔ 0 < p) := by
  refine call_iff_pos hv (fun p hp x hx => ?_) (fun p hp => ⟨_, _, .lag d s hp⟩) p
  obtain ⟨y, rfl, hy⟩ := hasSig_leaf_inv hx
  rcases hp.lt_or_eq with hp | rfl
  · exact ⟨.valueError, by simp [Lag, streamable, unpackArgs, arity, lagStep, zerosBufLike, hp, decLeaf]⟩
  · refine ⟨.indexError, ?_⟩
    cases y <;> simp [Leaf.sig] at hy <;> simp [Lag, streamable, unpackArgs, arity, lagStep, zerosBufLike, decLeaf, lastLeaf, Leaf.size0, Tensor.pack, Tensor.size0]

/-- **C82, local extrema**: exactly the positive periods. -/
theorem C82_localMin (p : Int) {v : Val α} {n : Nat} (hv : SeriesOf (tF []) v n) : (∃ r, callStatic (LocalMinimum p) v none = .ok r) ↔ 0 < p := by
  refine static_iff_pos hv (basic_regular (.localMinimum 0)) (fun p hp x hx => ?_) (fun x hx => ?_) (fun p hp => ⟨_, _, .localMinimum hp⟩) p
  · obtain ⟨a, rfl⟩ := hasSig_scalar hx
    simp [LocalMinimum, localExtremum, localArgs, streamable, unpackArgs, arity, localExtremumStep, zerosOf, hp]
  · obtain ⟨a, rfl⟩ := hasSig_scalar hx
    refine ⟨.tup [vSBuf [a], vI 1], .tup [vSBuf [], vI 0], by simp [LocalMinimum, localExtremum, localArgs, streamable, unpackArgs, arity, localExtremumStep, zerosOf, shift],
      by simp [LocalMinimum, localExtremum, localArgs, streamable, unpackArgs, arity, localExtremumStep, zerosOf, shift], ?_⟩
    simp [SameShapes, PyVal.tup, vSBuf, vBuf, shapeOf, Tensor.pack]
theorem C82_localMax (p : Int) {v : Val α} {n : Nat} (hv : SeriesOf (tF []) v n) : (∃ r, callStatic (LocalMaximum p) v none = .ok r) ↔ 0 < p := by
  refine static_iff_pos hv (basic_regular (.localMaximum 0)) (fun p hp x hx => ?_) (fun x hx => ?_) (fun p hp => ⟨_, _, .localMaximum hp⟩) p
  · obtain ⟨a, rfl⟩ := hasSig_scalar hx
    simp [LocalMaximum, localExtremum, localArgs, streamable, unpackArgs, arity, localExtremumStep, zerosOf, hp]
  · obtain ⟨a, rfl⟩ := hasSig_scalar hx
    refine ⟨.tup [vSBuf [a], vI 1], .tup [vSBuf [], vI 0], by simp [LocalMaximum, localExtremum, localArgs, streamable, unpackArgs, arity, localExtremumStep, zerosOf, shift],
      by simp [LocalMaximum, localExtremum, localArgs, streamable, unpackArgs, arity, localExtremumStep, zerosOf, shift], ?_⟩
    simp [SameShapes, PyVal.tup, vSBuf, vBuf, shapeOf, Tensor.pack]

/-- **C82, Correlation**: exactly the positive periods. -/
theorem C82_correlation (p : Int) (s : List Nat) {v : Val α} {n : Nat} (hv : SeriesOf (.tup [tF s, tF s]) v n) :
    (∃ r, callStatic (Correlation p) v none = .ok r) ↔ 0 < p := by
  refine static_iff_pos hv (basic_regular (.correlation 0)) (fun p hp x hx => ?_) (fun x hx => ?_) (fun p hp => ⟨_, _, .correlation s hp⟩) p
  · obtain ⟨a, rfl⟩ := hasSig_pair_float hx
    simp [Correlation, streamable, unpackArgs, arity, correlationStep, zerosBuf_neg hp, PyVal.tup]
  · obtain ⟨a, rfl⟩ := hasSig_pair_float hx
    refine ⟨.tup [vI 1, vBuf [a.1], vBuf [a.2]], .tup [vI 0, vBuf (s := s) [], vBuf (s := s) []],
      by simp [Correlation, streamable, unpackArgs, arity, correlationStep, zerosBuf_zero, PyVal.tup, roll, correlationOrZero, computeCorrelation_same],
      by simp [Correlation, streamable, unpackArgs, arity, correlationStep, zerosBuf_zero, PyVal.tup, roll, correlationOrZero, computeCorrelation_same], ?_⟩
    simp [SameShapes, PyVal.tup, vBuf, shapeOf, Tensor.pack]

/-- **C82, returns**: exactly the positive periods, whether or not the shapes are known. -/
theorem C82_return (hz : TFNum.eq (Arith.zero : α) (Arith.ofRat 0) = true) (p : Int) {v : Val α} {n : Nat} (hv : SeriesOf (tF []) v n) :
    ((∃ r, call (Return p) v none = .ok r) ↔ 0 < p) ∧ ((∃ r, callStatic (Return p) v none = .ok r) ↔ 0 < p) := by
  refine call_iff_pos hv (fun p hp x hx => ?_) (fun p hp => ⟨_, _, .return_ hz hp⟩) p
  obtain ⟨a, rfl⟩ := hasSig_scalar hx
  rcases hp.lt_or_eq with hp | rfl
  · exact ⟨.valueError, by simp [Return, returnOp, streamable, unpackArgs, arity, returnStep, zerosBuf_neg hp]⟩
  · exact ⟨.indexError, by simp [Return, returnOp, streamable, unpackArgs, arity, returnStep, zerosBuf_zero, pyIndex]⟩
theorem C82_logReturn (hz : TFNum.eq (Arith.zero : α) (Arith.ofRat 0) = true) (p : Int) {v : Val α} {n : Nat} (hv : SeriesOf (tF []) v n) :
    ((∃ r, call (LogReturn p) v none = .ok r) ↔ 0 < p) ∧ ((∃ r, callStatic (LogReturn p) v none = .ok r) ↔ 0 < p) := by
  refine call_iff_pos hv (fun p hp x hx => ?_) (fun p hp => ⟨_, _, .logReturn hz hp⟩) p
  obtain ⟨a, rfl⟩ := hasSig_scalar hx
  rcases hp.lt_or_eq with hp | rfl
  · exact ⟨.valueError, by simp [LogReturn, returnOp, streamable, unpackArgs, arity, returnStep, zerosBuf_neg hp]⟩
  · exact ⟨.indexError, by simp [LogReturn, returnOp, streamable, unpackArgs, arity, returnStep, zerosBuf_zero, pyIndex]⟩

/-- **C82, SharpeRatio and Skewness**: exactly the positive periods. -/
theorem C82_sharpe (p : Int) {v : Val α} {n : Nat} (hv : SeriesOf (.tup [tF [], tF []]) v n) :
    (∃ r, callStatic (SharpeRatio p) v none = .ok r) ↔ 0 < p := by
  refine static_iff_pos hv (basic_regular (.sharpeRatio 0)) (fun p hp x hx => ?_) (fun x hx => ?_) (fun p hp => ⟨_, _, .sharpeRatio hp⟩) p
  · obtain ⟨y, z, rfl, hy, hz⟩ := hasSig_pair hx
    obtain ⟨a, rfl⟩ := hasSig_scalar hy
    obtain ⟨b, rfl⟩ := hasSig_scalar hz
    simp [SharpeRatio, streamable, unpackArgs, arity, windowStatStep, zerosBuf_neg hp, PyVal.tup]
  · obtain ⟨y, z, rfl, hy, hz⟩ := hasSig_pair hx
    obtain ⟨a, rfl⟩ := hasSig_scalar hy
    obtain ⟨b, rfl⟩ := hasSig_scalar hz
    refine ⟨.tup [vSBuf [a - b], vI 1], .tup [vSBuf [], vI 0], by simp [SharpeRatio, streamable, unpackArgs, arity, windowStatStep, zerosBuf_zero, PyVal.tup, roll],
      by simp [SharpeRatio, streamable, unpackArgs, arity, windowStatStep, zerosBuf_zero, PyVal.tup, roll], ?_⟩
    simp [SameShapes, PyVal.tup, vSBuf, vBuf, shapeOf, Tensor.pack]
theorem C82_skewness (p : Int) {v : Val α} {n : Nat} (hv : SeriesOf (tF []) v n) : (∃ r, callStatic (Skewness p) v none = .ok r) ↔ 0 < p := by
  refine static_iff_pos hv (basic_regular (.skewness 0)) (fun p hp x hx => ?_) (fun x hx => ?_) (fun p hp => ⟨_, _, .skewness hp⟩) p
  · obtain ⟨a, rfl⟩ := hasSig_scalar hx
    simp [Skewness, streamable, unpackArgs, arity, windowStatStep, zerosBuf_neg hp]
  · obtain ⟨a, rfl⟩ := hasSig_scalar hx
    refine ⟨.tup [vSBuf [a], vI 1], .tup [vSBuf [], vI 0], by simp [Skewness, streamable, unpackArgs, arity, windowStatStep, zerosBuf_zero, roll],
      by simp [Skewness, streamable, unpackArgs, arity, windowStatStep, zerosBuf_zero, roll], ?_⟩
    simp [SameShapes, PyVal.tup, vSBuf, vBuf, shapeOf, Tensor.pack]

theorem lag_fails {p : Int} (hp : p ≤ 0) (a : α) : ∃ e, call (Lag p) (vS a) none false = .error e := by
  rw [call_eq false (by simp) (by simp [Tensors]) (by simp)]
  rcases hp.lt_or_eq with hp | rfl
  · exact ⟨.valueError, by simp [vS, Lag, streamable, unpackArgs, arity, lagStep, zerosBufLike, hp, decLeaf]⟩
  · exact ⟨.indexError, by simp [vS, vF, Lag, streamable, unpackArgs, arity, lagStep, zerosBufLike, decLeaf, lastLeaf, Leaf.size0, Tensor.pack, Tensor.size0]⟩

/-- **C82, RSI**: exactly the positive periods, whether or not the shapes are known. -/
theorem C82_rsi (p : Int) {v : Val α} {n : Nat} (hv : SeriesOf (tF []) v n) :
    ((∃ r, call (RSI p) v none = .ok r) ↔ 0 < p) ∧ ((∃ r, callStatic (RSI p) v none = .ok r) ↔ 0 < p) := by
  refine call_iff_pos hv (fun p hp x hx => ?_) (fun p hp => ⟨_, _, .rsi hp⟩) p
  obtain ⟨a, rfl⟩ := hasSig_scalar hx
  obtain ⟨e, he⟩ := lag_fails hp a
  exact ⟨e, by simp [RSI, streamable, unpackArgs, arity, he]⟩

theorem sma_fails {p : Int} (hp : p < 0) {s : List Nat} (a : Idx s → α) : call (SMA p) (vF a) none false = .error .valueError := by
  rw [call_eq false (by simp) (by simp [Tensors]) (by simp)]
  simp [SMA, bufferOp, streamable, unpackArgs, arity, smaStep, zerosBuf_neg hp]

theorem sma0_first {s : List Nat} (a : Idx s → α) : call (SMA 0) (vF a) none false =
    .ok (vF (Arith.sum [a] / Arith.ofInt 0), .tup [vI 1, vBuf [a]], .tup [vI 0, vBuf (s := s) []]) := by
  rw [call_eq false (by simp) (by simp [Tensors]) (by simp)]
  simp [SMA, bufferOp, streamable, unpackArgs, arity, smaStep, zerosBuf_zero, roll]
theorem sma0_next {s : List Nat} (a : Idx s → α) : call (SMA 0) (vF a) (some (.tup [vI 0, vBuf (s := s) []])) false =
    .ok (vF (Arith.sum [a] / Arith.ofInt 0), .tup [vI 1, vBuf [a]], .tup [vI 0, vBuf (s := s) []]) := by
  rw [call_eq false (by simp) (by simp [Tensors]) (by simp [Tensors, WF_tup, flatten, flattens])]
  simp [SMA, bufferOp, streamable, unpackArgs, arity, smaStep, roll]
theorem msd0_first {s : List Nat} (a : Idx s → α) : call (MSD 0) (vF a) none false =
    .ok (vF (Arith.sqrt (Arith.moments [a]).2), .tup [vI 1, vBuf [a]], .tup [vI 0, vBuf (s := s) []]) := by
  rw [call_eq false (by simp) (by simp [Tensors]) (by simp)]
  simp [MSD, bufferOp, streamable, unpackArgs, arity, msdStep, zerosBuf_zero, roll]
theorem msd0_next {s : List Nat} (a : Idx s → α) : call (MSD 0) (vF a) (some (.tup [vI 0, vBuf (s := s) []])) false =
    .ok (vF (Arith.sqrt (Arith.moments [a]).2), .tup [vI 1, vBuf [a]], .tup [vI 0, vBuf (s := s) []]) := by
  rw [call_eq false (by simp) (by simp [Tensors]) (by simp [Tensors, WF_tup, flatten, flattens])]
  simp [MSD, bufferOp, streamable, unpackArgs, arity, msdStep, roll]

/-- **C82, Bollinger bands**: exactly the positive periods. -/
theorem C82_bollinger (p : Int) (k : ℚ) (s : List Nat) {v : Val α} {n : Nat} (hv : SeriesOf (tF s) v n) :
    (∃ r, callStatic (BollingerBands p k) v none = .ok r) ↔ 0 < p := by
  refine static_iff_pos (op := fun p => BollingerBands p k) hv (basic_regular (.bollingerBands 0 k)) (fun p hp x hx => ?_) (fun x hx => ?_) (fun p hp => ⟨_, _, .bollingerBands s hp k⟩) p
  · obtain ⟨a, rfl⟩ := hasSig_tF hx
    exact ⟨.valueError, by simp [BollingerBands, streamable, unpackArgs, arity, sma_fails hp]⟩
  · obtain ⟨a, rfl⟩ := hasSig_tF hx
    refine ⟨.tup [.tup [vI 1, vBuf [a]], .tup [vI 1, vBuf [a]]], .tup [.tup [vI 0, vBuf (s := s) []], .tup [vI 0, vBuf (s := s) []]], ?_, ?_, ?_⟩
    · simp [BollingerBands, streamable, unpackArgs, arity, sma0_first, msd0_first]
    · simp [BollingerBands, streamable, unpackArgs, arity, sma0_next, msd0_next]
    · simp [SameShapes, PyVal.tup, vBuf, shapeOf, Tensor.pack]

/-- The state of `EMA(0)` and `RMA(0)` after a history: the buffer stays empty. -/
def zeroState {s : List Nat} (f : (Idx s → α) → (Idx s → α) → Idx s → α) (h : List (Idx s → α)) : Val α :=
  .tup [vI h.length, vF (h.foldl f fun _ => Arith.zero), .tup [vI 0, vBuf (s := s) []]]

theorem zero_cond {s : List Nat} {y z a : Idx s → α} : tfCond false (.node .tuple [vF y, .node .tuple [vI 1, vBuf [a]]]) (.node .tuple [vF z, .node .tuple [vI 0, vBuf (s := s) []]]) =
    .ok (.node .tuple [vF z, .node .tuple [vI 0, vBuf (s := s) []]]) :=
  tfCond_tup2 (b := false) (tx := .leaf .float) (ty := .tup [.leaf .int, .leaf .float]) (by simp) (by simp [WF_tup]) (by simp) (by simp [WF_tup])
    (HasType_iff.2 rfl) (HasType_iff.2 rfl) (HasType_iff.2 rfl) (HasType_iff.2 rfl) (by simp [flatten])

theorem ema_zero_tracks (s : List Nat) : Tracks (EMA 0 : Operator α) Any (fun x : Idx s → α => vF x)
    (fun h => vF (h.foldl (fun e x => x * Arith.ofRat 2 + e * Arith.ofRat (-1)) fun _ => Arith.zero)) (zeroState fun e x => x * Arith.ofRat 2 + e * Arith.ofRat (-1)) := by
  have k1 : (2 : ℚ) / (((0 : Int) : ℚ) + 1) = 2 := by norm_num
  have k2 : (1 : ℚ) - 2 = -1 := by norm_num
  constructor
  · intro x _
    simp [EMA, streamable, unpackArgs, arity, sma0_first, zeroState, zero_cond, k2, PyVal.tup]
  · intro h x _
    have : decide ((h.length : Int) < 0) = false := by simp
    simp [EMA, streamable, unpackArgs, arity, sma0_next, zeroState, this, zero_cond, k2, PyVal.tup]
  · intro x; exact ⟨by simp, by simp [Tensors]⟩
  · exact ⟨.leaf (.float, s), fun h _ => ⟨by simp, rfl⟩⟩
  · exact ⟨.tup [.leaf .int, .leaf .float, .tup [.leaf .int, .leaf .float]], fun h => ⟨by simp [zeroState, WF_tup], HasType_iff.2 rfl⟩⟩

theorem rma_zero_tracks (s : List Nat) : Tracks (RMA 0 : Operator α) Any (fun x : Idx s → α => vF x)
    (fun h => vF (h.foldl (fun e x => (e * Arith.ofInt (-1) + x) / Arith.ofInt 0) fun _ => Arith.zero)) (zeroState fun e x => (e * Arith.ofInt (-1) + x) / Arith.ofInt 0) := by
  constructor
  · intro x _
    simp [RMA, streamable, unpackArgs, arity, sma0_first, zeroState, zero_cond, PyVal.tup]
  · intro h x _
    have : decide ((h.length : Int) < 0) = false := by simp
    simp [RMA, streamable, unpackArgs, arity, sma0_next, zeroState, this, zero_cond, PyVal.tup]
  · intro x; exact ⟨by simp, by simp [Tensors]⟩
  · exact ⟨.leaf (.float, s), fun h _ => ⟨by simp, rfl⟩⟩
  · exact ⟨.tup [.leaf .int, .leaf .float, .tup [.leaf .int, .leaf .float]], fun h => ⟨by simp [zeroState, WF_tup], HasType_iff.2 rfl⟩⟩

theorem avg_iff_nonneg {op : Int → Operator α} {s : List Nat} {v : Val α} {n : Nat} (hv : SeriesOf (tF s) v n) (hop : (op 0).Sane ∧ (op 0).Uniform)
    (hneg : ∀ p < 0, ∀ x, HasSig x (tF s) → ∃ e, (op p).forwardStep x none = .error e) {S} (h0 : (op 0).Steady (tF s) (tF s) S)
    (hpos : ∀ p : Nat, 0 < p → ∃ O S, Typed (op p) (tF s) O S) (p : Int) :
    ((∃ r, call (op p) v none = .ok r) ↔ 0 ≤ p) ∧ ((∃ r, callStatic (op p) v none = .ok r) ↔ 0 ≤ p) := by
  rcases lt_trichotomy p 0 with hp | rfl | hp
  · exact ⟨iff_of_false (not_ok (rejects_step hv (hneg p hp))) (by omega), iff_of_false (static_rejects_step hv (hneg p hp)) (by omega)⟩
  · obtain ⟨h1, h2⟩ := callStatic_steady hop.1 hop.2 h0 hv
    exact ⟨iff_of_true h2 le_rfl, iff_of_true (h1 ▸ h2) le_rfl⟩
  · lift p to Nat using hp.le
    obtain ⟨O, S, ht⟩ := hpos p (by omega)
    obtain ⟨h1, h2⟩ := C81_typed ht hv
    exact ⟨iff_of_true h2 hp.le, iff_of_true (h1 ▸ h2) hp.le⟩

/-- **C82, EMA and RMA**: the period may be 0 as well, whether or not the shapes are known. -/
theorem C82_ema (p : Int) (s : List Nat) {v : Val α} {n : Nat} (hv : SeriesOf (tF s) v n) :
    ((∃ r, call (EMA p) v none = .ok r) ↔ 0 ≤ p) ∧ ((∃ r, callStatic (EMA p) v none = .ok r) ↔ 0 ≤ p) := by
  refine avg_iff_nonneg hv (basic_regular (.ema 0)) (fun p hp x hx => ?_) (S := .tup [tI [], tF s, .tup [tI [], tF (0 :: s)]]) ((ema_zero_tracks s).steady (O := tF s) (fun _ h => hasSig_tF h) (fun _ _ => rfl) (fun _ => rfl))
    (fun p hp => ⟨_, _, .ema s hp⟩) p
  obtain ⟨a, rfl⟩ := hasSig_tF hx
  exact ⟨.valueError, by simp [EMA, streamable, unpackArgs, arity, sma_fails hp]⟩
theorem C82_rma (p : Int) (s : List Nat) {v : Val α} {n : Nat} (hv : SeriesOf (tF s) v n) :
    ((∃ r, call (RMA p) v none = .ok r) ↔ 0 ≤ p) ∧ ((∃ r, callStatic (RMA p) v none = .ok r) ↔ 0 ≤ p) := by
  refine avg_iff_nonneg hv (basic_regular (.rma 0)) (fun p hp x hx => ?_) (S := .tup [tI [], tF s, .tup [tI [], tF (0 :: s)]]) ((rma_zero_tracks s).steady (O := tF s) (fun _ h => hasSig_tF h) (fun _ _ => rfl) (fun _ => rfl))
    (fun p hp => ⟨_, _, .rma s hp⟩) p
  obtain ⟨a, rfl⟩ := hasSig_tF hx
  exact ⟨.valueError, by simp [RMA, streamable, unpackArgs, arity, sma_fails hp]⟩

/-- **C82, EMA(0)** is not an average: every output is twice the sample minus the output before. -/
theorem C82_ema_zero (s : List Nat) : StreamsAs (EMA 0 : Operator α) (vBuf (s := s)) vBuf
    fun h => h.foldl (fun e x => x * Arith.ofRat 2 + e * Arith.ofRat (-1)) fun _ => Arith.zero :=
  (ema_zero_tracks s).streams (fun l => ⟨by simp, by simp [flatten], isSeries_vBuf l⟩) (fun l => isSeries_vBuf l) fun _ => rfl

omit [TFNum α] in
theorem fork2_first {s : List Nat} (a : Idx s → α) : call (Fork 2) (vF a) none false = .ok (.tup [vF a, vF a], .unit, .unit) := by
  rw [call_eq false (by simp) (by simp [Tensors]) (by simp)]; rfl

/-- **C82, Momentum**: exactly the positive periods, whether or not the shapes are known. -/
theorem C82_momentum (p : Int) (s : List Nat) {v : Val α} {n : Nat} (hv : SeriesOf (tF s) v n) :
    ((∃ r, call (Momentum p) v none = .ok r) ↔ 0 < p) ∧ ((∃ r, callStatic (Momentum p) v none = .ok r) ↔ 0 < p) := by
  refine call_iff_pos hv (fun p hp x hx => ?_) (fun p hp => ⟨_, _, C56_momentum_typed hp s⟩) p
  obtain ⟨a, rfl⟩ := hasSig_tF hx
  obtain ⟨e, he⟩ : ∃ e, call (Lag p) (vF a) none false = .error e := by
    rw [call_eq false (by simp) (by simp [Tensors]) (by simp)]
    rcases hp.lt_or_eq with hp | rfl
    · exact ⟨.valueError, by simp [vF, Lag, streamable, unpackArgs, arity, lagStep, zerosBufLike, hp, decLeaf]⟩
    · exact ⟨.indexError, by simp [vF, Lag, streamable, unpackArgs, arity, lagStep, zerosBufLike, decLeaf, lastLeaf, Leaf.size0, Tensor.pack, Tensor.size0]⟩
  have hi : call Identity (vF a) none false = .ok (vF a, .unit, .unit) := by
    rw [call_eq false (by simp) (by simp [Tensors]) (by simp)]; rfl
  have hj : call (Join [Identity, Lag p]) (.tup [vF a, vF a]) none false = .error e := by
    rw [call_eq false (by simp [WF_tup]) (by simp [Tensors, flatten, flattens, PyVal.tup]) (by simp)]
    simp [Join, metaStreamable, joinStep, opStates, joinLoop, hi, he, PyVal.tup, asSeq]
  refine ⟨e, ?_⟩
  simp [Momentum, Compose, metaStreamable, composeStep, opStates, composeLoop, fork2_first, hj]

/-- **C82, CrossCorrelation**: with a positive period, exactly the positive lags, whether or not the shapes are known. -/
theorem C82_cross {p : Nat} (hp : 0 < p) (lag : Int) (s : List Nat) {v : Val α} {n : Nat} (hv : SeriesOf (.tup [tF s, tF s]) v n) :
    ((∃ r, call (CrossCorrelation p lag) v none = .ok r) ↔ 0 < lag) ∧ ((∃ r, callStatic (CrossCorrelation p lag) v none = .ok r) ↔ 0 < lag) := by
  refine call_iff_pos (op := fun lag => CrossCorrelation p lag) hv (fun l hl x hx => ?_) (fun l hl => ⟨_, _, .crossCorrelation s hp hl⟩) lag
  obtain ⟨a, rfl⟩ := hasSig_pair_float hx
  rcases hl.lt_or_eq with hl | rfl
  · exact ⟨.valueError, by simp [CrossCorrelation, streamable, unpackArgs, arity, orZeros, zerosBuf_neg hl, PyVal.tup]⟩
  · exact ⟨.indexError, by simp [CrossCorrelation, streamable, unpackArgs, arity, orZeros, zerosBuf_zero, PyVal.tup, pyIndex]⟩
end

section
variable {K : Type} [Field K] [LinearOrder K] [IsStrictOrderedRing K] [Transc K] [FloorRing K]

/-- **C82, EMA(0) on numbers**: twice the alternating sum of the samples. -/
theorem C82_ema_zero_alternating : StreamsAs (EMA 0 : Operator (XR K)) finSeries finSeries fun h => 2 * h.foldl (fun e x => x - e) 0 := by
  refine ((C82_ema_zero (α := XR K) []).scalar (y' := fun h => h.foldl (fun e x => x * Arith.ofRat 2 + e * Arith.ofRat (-1)) Arith.zero) fun k _ => ?_).fin fun l _ => ?_
  · have key : ∀ (k : List (XR K)) (a : XR K), (k.map pt).foldl (fun (e x : Idx [] → XR K) => x * Arith.ofRat 2 + e * Arith.ofRat (-1)) (pt a) =
        pt (k.foldl (fun e x => x * Arith.ofRat 2 + e * Arith.ofRat (-1)) a) := by
      intro k
      induction k with
      | nil => intro a; rfl
      | cons x k ih => intro a; exact ih (x * Arith.ofRat 2 + a * Arith.ofRat (-1))
    exact key k _
  · have key : ∀ (l : List K) (a : K), (l.map XR.fin).foldl (fun e x => x * Arith.ofRat 2 + e * Arith.ofRat (-1)) (XR.fin (2 * a)) =
        XR.fin (2 * l.foldl (fun e x => x - e) a) := by
      intro l
      induction l with
      | nil => intro a; rfl
      | cons x l ih =>
        intro a
        simp only [List.map_cons, List.foldl_cons]
        rw [← ih (x - a)]
        congr 1
        simp
        ring
    simpa using key l 0

theorem div_zero_not_fin (x : XR K) (k : K) : x / XR.fin 0 ≠ XR.fin k := by
  show XR.div _ _ ≠ _
  cases x <;> simp [XR.div]
  simp only [XR.infOf]
  split_ifs <;> simp

/-- **C82, RMA(0)** divides by 0: it runs, and no output is a number. -/
theorem C82_rma_zero {xs : List (XR K)} (hx : xs ≠ []) :
    ∃ zs sf s0, call (RMA 0) (vSBuf xs) none = .ok (vSBuf zs, sf, s0) ∧ zs.length = xs.length ∧ ∀ z ∈ zs, ∀ k : K, z ≠ .fin k := by
  have h : StreamsAs (RMA 0 : Operator (XR K)) (vBuf (s := [])) vBuf _ :=
    (rma_zero_tracks []).streams (fun l => ⟨by simp, by simp [flatten], isSeries_vBuf l⟩) (fun l => isSeries_vBuf l) fun _ => rfl
  obtain ⟨os, sf, s0, h1, hl, h2⟩ := (h.scalar (y' := fun k => k.foldl (fun e x => (e * Arith.ofInt (-1) + x) / Arith.ofInt 0) Arith.zero) fun k _ => by
    have key : ∀ (k : List (XR K)) (a : XR K), (k.map pt).foldl (fun (e x : Idx [] → XR K) => (e * Arith.ofInt (-1) + x) / Arith.ofInt 0) (pt a) =
        pt (k.foldl (fun e x => (e * Arith.ofInt (-1) + x) / Arith.ofInt 0) a) := by
      intro k
      induction k with
      | nil => intro a; rfl
      | cons x k ih => intro a; exact ih ((a * Arith.ofInt (-1) + x) / Arith.ofInt 0)
    exact key k _).at hx
  refine ⟨os, sf, s0, h1, hl, fun z hz k => ?_⟩
  obtain ⟨i, hi, rfl⟩ := List.getElem_of_mem hz
  rw [h2 i (hl ▸ hi)]
  have hne : xs.take (i + 1) ≠ [] := by rw [← List.length_pos_iff]; simp; omega
  obtain ⟨l, x, hlx⟩ := (List.eq_nil_or_concat' (xs.take (i + 1))).resolve_left hne
  rw [hlx, List.foldl_append]
  simpa using div_zero_not_fin _ k
end

/-! ### Cases -/

/-- a series of numbers -/
theorem three_ok : SeriesOf (tF []) (series [4, 3, 2]) 3 :=
  ⟨(nums_ok _).1, (nums_ok _).2.1, _, (nums_ok _).2.2, by simp, rfl, by simp only [List.mem_map]; rintro _ ⟨a, -, rfl⟩; rfl⟩
/-- a series of pairs of vectors -/
theorem pairs3_ok {s : List Nat} (l : List ((Idx s → XR ℚ) × (Idx s → XR ℚ))) (hl : l ≠ []) : SeriesOf (.tup [tF s, tF s]) (vBuf2 l) l.length :=
  ⟨(pairs_ok l).1, (pairs_ok l).2.1, _, (pairs_ok l).2.2, by simpa using hl, by simp, by simp only [List.mem_map]; rintro _ ⟨a, -, rfl⟩; rfl⟩
/-- two pairs of numbers -/
theorem two_ok : SeriesOf (.tup [tF [], tF []]) (vBuf2 (s := []) [(pt (XR.fin (1 : ℚ)), pt (XR.fin 2)), (pt (XR.fin 3), pt (XR.fin 5))]) 2 := pairs3_ok _ (by simp)

example := C82_sma (-1) [] three_ok
example := C82_msd 0 [] three_ok
example := C82_lag 0 .float [] three_ok
example := C82_localMin (-2) three_ok
example := C82_localMax 0 three_ok
example := C82_correlation 0 [] two_ok
example := C82_return (by simp) 0 three_ok
example := C82_logReturn (by simp) (-1) three_ok
example := C82_sharpe 0 two_ok
example := C82_skewness 0 three_ok
example := C82_rsi 0 three_ok
example := C82_bollinger 0 2 [] three_ok
example := C82_ema 0 [] three_ok
example := C82_rma 0 [] three_ok
example := C82_ema_zero (α := XR ℚ) [2]
example := C82_momentum 0 [] three_ok
example := C82_cross (p := 2) (by norm_num) 0 [] two_ok
example := C82_ema_zero_alternating (K := ℚ)
example := C82_rma_zero (xs := [XR.fin (1 : ℚ), .fin 2]) (by simp)
/-- EMA(0) over 1, 2, 4: 2·1, 2·(2-1), 2·(4-2+1). -/
example : (call (EMA 0) (series [1, 2, 4]) none).map (·.1) = .ok (series [2, 2, 6]) := by decide +kernel
example : (call (RMA 0) (series [1, 2]) none).map (·.1) = .ok (vSBuf [.pinf, .ninf]) := by decide +kernel
/-- periods of 0 run in the model when shapes are unknown, and are rejected when they are known. -/
example : (call (LocalMaximum 0) (series [1, 2, 4]) none).isOk = true ∧ callStatic (LocalMaximum 0) (series [1, 2, 4]) none = .error .valueError := by
  constructor <;> decide +kernel
end TS
