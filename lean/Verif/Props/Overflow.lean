import Verif.Lemmas.Int32
import Verif.Props.Counters
import Verif.Props.Correlation
/-
C87: what happens when the int32 counters wrap around.
-/
namespace TS
open PyVal
variable {α : Type} [TFNum α]

/-! ### Before -/

/-- **C87 When the counters overflow.**  With int32 counters, any operator of the type system streams exactly as with unbounded ones over up to
`2^31 - 1 - M` samples, where `M` bounds the ints of its input and of its `SetDuring`s. -/
theorem C87_before (E : SignsExact α) {c : Nat} {op : Operator α} {X O S} (h : TypedIn (fun n => n.natAbs ≤ c) op X O S) {v : Val α} {n : Nat} (hv : SeriesOf X v n)
    {M : Nat} (hc : c ≤ M) (h1 : 1 ≤ M) (hM : IntsWithin M v) (hn : M + n < 2 ^ 31) : call op.int32 v none = call op v none := by
  obtain ⟨hw, hl, xs, hin, hx, rfl, hX⟩ := hv
  have g : Grading c (fun k n => n.natAbs ≤ M + k) := ⟨fun k n h => by omega, fun k n h => by omega⟩
  have hX' : ∀ x ∈ xs, Fits (fun k n => n.natAbs ≤ M + k) X 1 x := fun x hxm => ⟨hin.mem_WF hw x hxm, hX x hxm,
    ((holds_series hin).1 (holds_within.2 hM) x hxm).mono fun n h => by omega⟩
  obtain ⟨I, hI, -, hn'⟩ := h.graded E g
  obtain ⟨o0, n0, i0, h0, ho0, hn0, hs0⟩ := hn' 0 (xs.head hx) none (hX' _ (List.head_mem hx)) (by simp)
  obtain ⟨os, sf, h2, h3, h4, h5⟩ := graded_steps hI hn' g (k := 0) hX' hs0
  have h2' := (int32_steps (fun k n hn => hn) hI hn' g (k := 0) (by omega) hX' hs0).trans h2
  have hpos := List.length_pos_iff.2 hx
  have w : ∀ {T j} {v : Val α}, Fits (fun k n => n.natAbs ≤ M + k) T j v → j ≤ 1 → wrapVal v = v := fun hv hj =>
    wrapVal_of_small (hv.2.2.mono fun n hn => by omega)
  have h0' := int32_step h0
  rw [w ho0 (by omega), w (hI _ _ hn0) (by omega), w (hI _ _ hs0) (by omega)] at h0'
  simp only [Nat.zero_add] at h3 h4
  obtain ⟨z, hz, -⟩ := exists_series (os := os) (ty := O) fun o ho => (h3 o ho).2.1
  have fin : ∀ op' : Operator α, op'.forwardStep (xs.head hx) none = .ok (o0, n0, i0) → stepsTyped op' (S.map Prod.fst) xs i0 = .ok (os, sf) →
      call op' v none = .ok (z, sf, i0) := fun op' a b => by
    rw [call_eq true hw hin.tensors (by simp)]
    exact callStreamed_complete hw hl hin hx ho0.1 (hI _ _ hs0).1 (fun o ho => (h3 o ho).1) a (hI _ _ hs0).2.1.hasType ho0.2.1.hasType b
      (fun o ho => (h3 o ho).2.1.hasType) hz
  rw [fin _ h0 h2, fin _ h0' h2']
example := C87_before (α := XR ℚ) C71_signs_exact (c := 1) (TypedIn.sma [] (p := 2) (by norm_num)) (v := series [4, 3, 2]) (n := 3)
  ⟨(nums_ok _).1, (nums_ok _).2.1, _, (nums_ok _).2.2, by simp, rfl, by simp only [List.mem_map]; rintro _ ⟨a, -, rfl⟩; rfl⟩
  (M := 7) (by norm_num) (by norm_num) (by simp [IntsWithin, series, vSBuf, flatten]) (by norm_num)

/-! ### After: zeros -/

section
variable {p : Nat} {s : List Nat}

theorem sma32_key (hp : 0 < p) (h : List (Idx s → α)) (x : Idx s → α) :
      (if wrap32 h.length < (p : Int) - 1 then Arith.zero else Arith.sum (padded Arith.zero p (h ++ [x])) / Arith.ofInt (p : Int))
        = if Cold (p - 1) h.length then Arith.zero else movingAvg p (h ++ [x]) := by
  have e : (p : Int) - 1 = ((p - 1 : Nat) : Int) := by omega
  simp only [e, wrap32_lt]
  split
  · rfl
  · rename_i hh
    have := cold_len hh
    rw [movingAvg, if_neg (by simp; omega), padded_eq_window (by simp; omega)]

theorem sma_at (n : Int) (x : Idx s → α) (b : List (Idx s → α)) :
    (SMA (p : Int) : Operator α).forwardStep (vF x) (some (.tup [vI n, vBuf b])) =
      .ok (vF (if n < (p : Int) - 1 then Arith.zero else Arith.sum (roll x b) / Arith.ofInt (p : Int)), .tup [vI (n + 1), vBuf (roll x b)], .tup [vI n, vBuf b]) := by
  simp [SMA, bufferOp, streamable, unpackArgs, arity, smaStep]

theorem sma_at_none (x : Idx s → α) :
    (SMA (p : Int) : Operator α).forwardStep (vF x) none = (SMA (p : Int) : Operator α).forwardStep (vF x) (some (.tup [vI 0, vBuf (s := s) (padded Arith.zero p [])])) := by
  rw [sma_at]
  simp [SMA, bufferOp, streamable, unpackArgs, arity, smaStep, zerosBuf_natCast]

theorem sma32_tracks (hp : 0 < p) : Tracks (SMA (p : Int) : Operator α).int32 Any (fun x : Idx s → α => vF x)
    (fun h => vF (if Cold (p - 1) (h.length - 1) then Arith.zero else movingAvg p h)) (fun h => .tup [vI (wrap32 h.length), vBuf (padded Arith.zero p h)]) := by
  refine counted32 (st := fun n h => .tup [vI n, vBuf (padded Arith.zero p h)]) (fun _ _ => rfl) (fun x => sma_at_none x) (fun n h x => by rw [sma_at, roll_padded hp]) (fun h x => ?_) ?_ ?_ ?_
  · rw [wrapVal_leaf, Leaf.wrap32_f, sma32_key hp, List.length_append, List.length_singleton, Nat.add_sub_cancel]
  · intro x; exact ⟨by simp, by simp [Tensors]⟩
  · exact ⟨.leaf (.float, s), fun h _ => ⟨by simp, rfl⟩⟩
  · exact ⟨.tup [.leaf .int, .leaf .float], fun n h => ⟨by simp [WF_tup], HasType_iff.2 rfl⟩⟩

theorem msd_at (n : Int) (x : Idx s → α) (b : List (Idx s → α)) :
    (MSD (p : Int) : Operator α).forwardStep (vF x) (some (.tup [vI n, vBuf b])) =
      .ok (vF (if n < (p : Int) - 1 then Arith.zero else Arith.sqrt (Arith.moments (roll x b)).2), .tup [vI (n + 1), vBuf (roll x b)], .tup [vI n, vBuf b]) := by
  simp [MSD, bufferOp, streamable, unpackArgs, arity, msdStep]

theorem msd_at_none (x : Idx s → α) :
    (MSD (p : Int) : Operator α).forwardStep (vF x) none = (MSD (p : Int) : Operator α).forwardStep (vF x) (some (.tup [vI 0, vBuf (s := s) (padded Arith.zero p [])])) := by
  rw [msd_at]
  simp [MSD, bufferOp, streamable, unpackArgs, arity, msdStep, zerosBuf_natCast]

theorem msd32_key (hp : 0 < p) (h : List (Idx s → α)) (x : Idx s → α) :
      (if wrap32 h.length < (p : Int) - 1 then Arith.zero else Arith.sqrt (Arith.moments (padded Arith.zero p (h ++ [x]))).2)
        = if Cold (p - 1) h.length then Arith.zero else movingStd p (h ++ [x]) := by
  have e : (p : Int) - 1 = ((p - 1 : Nat) : Int) := by omega
  simp only [e, wrap32_lt]
  split
  · rfl
  · rename_i hh
    have := cold_len hh
    rw [movingStd, if_neg (by simp; omega), padded_eq_window (by simp; omega)]

theorem msd32_tracks (hp : 0 < p) : Tracks (MSD (p : Int) : Operator α).int32 Any (fun x : Idx s → α => vF x)
    (fun h => vF (if Cold (p - 1) (h.length - 1) then Arith.zero else movingStd p h)) (fun h => .tup [vI (wrap32 h.length), vBuf (padded Arith.zero p h)]) := by
  refine counted32 (st := fun n h => .tup [vI n, vBuf (padded Arith.zero p h)]) (fun _ _ => rfl) (fun x => msd_at_none x) (fun n h x => by rw [msd_at, roll_padded hp]) (fun h x => ?_) ?_ ?_ ?_
  · rw [wrapVal_leaf, Leaf.wrap32_f, msd32_key hp, List.length_append, List.length_singleton, Nat.add_sub_cancel]
  · intro x; exact ⟨by simp, by simp [Tensors]⟩
  · exact ⟨.leaf (.float, s), fun h _ => ⟨by simp, rfl⟩⟩
  · exact ⟨.tup [.leaf .int, .leaf .float], fun n h => ⟨by simp [WF_tup], HasType_iff.2 rfl⟩⟩

/-- **C87**: the simple moving average is zero whenever the counter is below `p - 1`, hence also for the `2^31` samples over which it is negative, -/
theorem C87_sma (hp : 0 < p) (s : List Nat) : StreamsAs (SMA (p : Int) : Operator α).int32 (vBuf (s := s)) vBuf
    (fun h => if Cold (p - 1) (h.length - 1) then Arith.zero else movingAvg p h) := (sma32_tracks hp).streams rows_ok isSeries_vBuf fun _ => rfl
example := C87_sma (α := XR ℚ) (p := 2) (by norm_num) [2]

/-- and so is the moving standard deviation. -/
theorem C87_msd (hp : 0 < p) (s : List Nat) : StreamsAs (MSD (p : Int) : Operator α).int32 (vBuf (s := s)) vBuf
    (fun h => if Cold (p - 1) (h.length - 1) then Arith.zero else movingStd p h) := (msd32_tracks hp).streams rows_ok isSeries_vBuf fun _ => rfl
example := C87_msd (α := XR ℚ) (p := 2) (by norm_num) [2]

theorem set_at (v : α) (n : Int) (x : Idx s → α) :
    (SetDuring (.f (Tensor.scalar v)) (p : Int) : Operator α).forwardStep (vF x) (some (.tup [vI n])) =
      .ok (vF (if n < (p : Int) then fun _ => v else x), .tup [vI (n + 1)], .tup [vI n]) := by
  by_cases h : n < (p : Int) <;>
  simp [SetDuring, metaStreamable, setDuringStep, getItem, mapFn, fn1, setLeaf, Tensor.scalar, Tensor.asShape, h, PyVal.tup, asSeq]

theorem set32_tracks (v : α) : Tracks (SetDuring (.f (Tensor.scalar v)) (p : Int) : Operator α).int32 Any (fun x : Idx s → α => vF x)
    (fun h => vF (if Cold p (h.length - 1) then fun _ => v else h.getLastD fun _ => v)) (fun h => .tup [vI (wrap32 h.length)]) := by
  refine counted32 (st := fun n h => .tup [vI n]) (fun _ _ => rfl) (fun x => rfl) (fun n h x => set_at v n x) (fun h x => ?_) ?_ ?_ ?_
  · rw [wrapVal_leaf, Leaf.wrap32_f, List.length_append, List.length_singleton, Nat.add_sub_cancel, getLastD_snoc]
    simp only [wrap32_lt]
  · intro x; exact ⟨by simp, by simp [Tensors]⟩
  · exact ⟨.leaf (.float, s), fun h _ => ⟨by simp, rfl⟩⟩
  · exact ⟨.tup [.leaf .int], fun n h => ⟨by simp [WF_tup], HasType_iff.2 rfl⟩⟩

/-- `SetDuring(v, p)` puts in `v` again, -/
theorem C87_setDuring (v : α) (s : List Nat) : StreamsAs (SetDuring (.f (Tensor.scalar v)) (p : Int) : Operator α).int32 (vBuf (s := s)) vBuf
    (fun h => if Cold p (h.length - 1) then fun _ => v else h.getLastD fun _ => v) := (set32_tracks v).streams rows_ok isSeries_vBuf fun _ => rfl
example := C87_setDuring (p := 3) (XR.fin (7 : ℚ)) [2]

theorem corr_step_at (n : Int) (x : (Idx s → α) × (Idx s → α)) (b b' : List (Idx s → α)) (hl : b.length = b'.length) :
    (Correlation (p : Int) : Operator α).forwardStep (.tup [vF x.1, vF x.2]) (some (.tup [vI n, vBuf b, vBuf b'])) =
      .ok (vF (if n < (p : Int) then Arith.zero else pearson (roll x.1 b) (roll x.2 b')), .tup [vI (n + 1), vBuf (roll x.1 b), vBuf (roll x.2 b')], .tup [vI n, vBuf b, vBuf b']) := by
  have h : correlationOrZero (p : Int) n (roll x.1 b) (roll x.2 b') = (.ok ⟨s, if n < (p : Int) then Arith.zero else pearson (roll x.1 b) (roll x.2 b')⟩ : Res (Tensor α)) := by
    rw [correlationOrZero]
    split
    · rfl
    · rw [computeCorrelation_same (by simp [roll, hl])]
  simp [Correlation, streamable, unpackArgs, arity, correlationStep, h]

theorem corr_step_none (x : (Idx s → α) × (Idx s → α)) :
    (Correlation (p : Int) : Operator α).forwardStep (.tup [vF x.1, vF x.2]) none =
      (Correlation (p : Int) : Operator α).forwardStep (.tup [vF x.1, vF x.2]) (some (.tup [vI 0, vBuf (s := s) (padded Arith.zero p []), vBuf (s := s) (padded Arith.zero p [])])) := by
  simp [Correlation, streamable, unpackArgs, arity, correlationStep, zerosBuf_natCast]

theorem corr32_tracks (hp : 0 < p) : Tracks (Correlation (p : Int) : Operator α).int32 Any (fun x : (Idx s → α) × (Idx s → α) => .tup [vF x.1, vF x.2])
    (fun h => vF (if Cold p (h.length - 1) then Arith.zero else corrOf p h))
    (fun h => .tup [vI (wrap32 h.length), vBuf (padded Arith.zero p (h.map Prod.fst)), vBuf (padded Arith.zero p (h.map Prod.snd))]) := by
  refine counted32 (st := fun n h => .tup [vI n, vBuf (padded Arith.zero p (h.map Prod.fst)), vBuf (padded Arith.zero p (h.map Prod.snd))]) (fun _ _ => rfl)
    (fun x => corr_step_none x) (fun n h x => by rw [corr_step_at _ _ _ _ (by simp), roll_padded hp, roll_padded hp, List.map_append, List.map_append]; rfl) (fun h x => ?_) ?_ ?_ ?_
  · rw [wrapVal_leaf, Leaf.wrap32_f, List.length_append, List.length_singleton, Nat.add_sub_cancel]
    simp only [wrap32_lt]
    split
    · rfl
    · rename_i hh
      have := cold_len hh
      rw [corrOf, if_neg (by simp; omega), padded_eq_window (by simp; omega), padded_eq_window (by simp; omega)]
      simp
  · intro x; exact ⟨by simp [WF_tup], by simp [Tensors, flatten, flattens]⟩
  · exact ⟨.leaf (.float, s), fun h _ => ⟨by simp, rfl⟩⟩
  · exact ⟨.tup [.leaf .int, .leaf .float, .leaf .float], fun n h => ⟨by simp [WF_tup], HasType_iff.2 rfl⟩⟩

/-- the correlation is zero, -/
theorem C87_correlation (hp : 0 < p) (s : List Nat) : StreamsAs (Correlation (p : Int) : Operator α).int32 (vBuf2 (s := s)) vBuf
    (fun h => if Cold p (h.length - 1) then Arith.zero else corrOf p h) := (corr32_tracks hp).streams pairs_ok isSeries_vBuf fun _ => rfl
example := C87_correlation (α := XR ℚ) (p := 2) (by norm_num) [2]

/-! ### After: too short a window -/

theorem extremum_at (red : List α → α) (redI : List Int → Int) (n : Int) (x : α) (b : List α) :
    (localExtremum red redI (p : Int)).forwardStep (vS x) (some (.tup [vSBuf b, vI n])) =
      .ok (vS (red (if n < (p : Int) - 1 then pyTake (shift x b) (n + 1) else shift x b)), .tup [vSBuf (shift x b), vI (n + 1)], .tup [vSBuf b, vI n]) := by
  simp [localExtremum, localArgs, streamable, unpackArgs, arity, localExtremumStep]
  split <;> rfl

theorem ext_at_none (red : List α → α) (redI : List Int → Int) (x : α) : (localExtremum red redI (p : Int)).forwardStep (vS x) none =
    (localExtremum red redI (p : Int)).forwardStep (vS x) (some (.tup [vSBuf (padded Arith.zero p []), vI 0])) := by
  simp [localExtremum, localArgs, streamable, unpackArgs, arity, localExtremumStep, zerosOf_natCast]

theorem ext32_tracks (red : List α → α) (redI : List Int → Int) (hp : 0 < p) (h31 : p ≤ 2 ^ 31) : Tracks (localExtremum red redI (p : Int)).int32 Any vS
    (fun h => vS (red (window (reach p (h.length - 1)) h))) (fun h => .tup [vSBuf (padded Arith.zero p h), vI (wrap32 h.length)]) := by
  refine counted32 (st := fun n h => .tup [vSBuf (padded Arith.zero p h), vI n]) (fun _ _ => rfl)
    (fun x => ext_at_none red redI x) (fun n h x => by rw [extremum_at, shift_padded hp]) (fun h x => ?_) ?_ ?_ ?_
  · have e : (p : Int) - 1 = ((p - 1 : Nat) : Int) := by omega
    rw [wrapVal_leaf, Leaf.wrap32_f, e, take_reach h31 (by omega) (by omega), List.length_append, List.length_singleton, Nat.add_sub_cancel]
  · intro x; exact ⟨by simp, by simp [Tensors]⟩
  · exact ⟨.leaf (.float, []), fun h _ => ⟨by simp, rfl⟩⟩
  · exact ⟨.tup [.leaf .float, .leaf .int], fun n h => ⟨by simp [WF_tup], HasType_iff.2 rfl⟩⟩

/-- the local extrema are those of the samples that `reach` counts -- none at all from sample `2^31` on --, -/
theorem C87_localMinimum (hp : 0 < p) (h31 : p ≤ 2 ^ 31) : StreamsAs (LocalMinimum (p : Int) : Operator α).int32 vSBuf vSBuf
    (fun h => Arith.redMin (window (reach p (h.length - 1)) h)) := (ext32_tracks _ _ hp h31).streams nums_ok isSeries_vSBuf fun _ => rfl
example := C87_localMinimum (α := XR ℚ) (p := 2) (by norm_num) (by norm_num)

theorem C87_localMaximum (hp : 0 < p) (h31 : p ≤ 2 ^ 31) : StreamsAs (LocalMaximum (p : Int) : Operator α).int32 vSBuf vSBuf
    (fun h => Arith.redMax (window (reach p (h.length - 1)) h)) := (ext32_tracks _ _ hp h31).streams nums_ok isSeries_vSBuf fun _ => rfl
example := C87_localMaximum (α := XR ℚ) (p := 2) (by norm_num) (by norm_num)

theorem skew_at (n : Int) (x : α) (b : List α) :
    (Skewness (p : Int) : Operator α).forwardStep (vS x) (some (.tup [vSBuf b, vI n])) =
      .ok (vS (computeSkewness (if n < (p : Int) then pyTake (roll x b) (n + 1) else roll x b)), .tup [vSBuf (roll x b), vI (n + 1)], .tup [vSBuf b, vI n]) := by
  simp [Skewness, streamable, unpackArgs, arity, windowStatStep]
  split <;> rfl

theorem skew_at_none (x : α) : (Skewness (p : Int) : Operator α).forwardStep (vS x) none =
    (Skewness (p : Int) : Operator α).forwardStep (vS x) (some (.tup [vSBuf (padded Arith.zero p []), vI 0])) := by
  simp [Skewness, streamable, unpackArgs, arity, windowStatStep, zerosBuf_natCast]

theorem skew32_tracks (hp : 0 < p) (h31 : p ≤ 2 ^ 31) : Tracks (Skewness (p : Int) : Operator α).int32 Any vS
    (fun h => vS (computeSkewness (window (reach p (h.length - 1)) h))) (fun h => .tup [vSBuf (padded Arith.zero p h), vI (wrap32 h.length)]) := by
  refine counted32 (st := fun n h => .tup [vSBuf (padded Arith.zero p h), vI n]) (fun _ _ => rfl)
    (fun x => skew_at_none x) (fun n h x => by rw [skew_at, roll_padded hp]) (fun h x => ?_) ?_ ?_ ?_
  · rw [wrapVal_leaf, Leaf.wrap32_f, take_reach h31 (by omega) (by omega), List.length_append, List.length_singleton, Nat.add_sub_cancel]
  · intro x; exact ⟨by simp, by simp [Tensors]⟩
  · exact ⟨.leaf (.float, []), fun h _ => ⟨by simp, rfl⟩⟩
  · exact ⟨.tup [.leaf .float, .leaf .int], fun n h => ⟨by simp [WF_tup], HasType_iff.2 rfl⟩⟩

/-- and so for the skewness -/
theorem C87_skewness (hp : 0 < p) (h31 : p ≤ 2 ^ 31) : StreamsAs (Skewness (p : Int) : Operator α).int32 vSBuf vSBuf
    (fun h => computeSkewness (window (reach p (h.length - 1)) h)) := (skew32_tracks hp h31).streams nums_ok isSeries_vSBuf fun _ => rfl
example := C87_skewness (α := XR ℚ) (p := 2) (by norm_num) (by norm_num)

theorem sharpe_at (n : Int) (x : α × α) (b : List α) :
    (SharpeRatio (p : Int) : Operator α).forwardStep (.tup [vS x.1, vS x.2]) (some (.tup [vSBuf b, vI n])) =
      .ok (vS (sharpe (if n < (p : Int) then pyTake (roll (x.1 - x.2) b) (n + 1) else roll (x.1 - x.2) b)),
        .tup [vSBuf (roll (x.1 - x.2) b), vI (n + 1)], .tup [vSBuf b, vI n]) := by
  simp [SharpeRatio, streamable, unpackArgs, arity, windowStatStep]
  split <;> rfl

theorem sharpe_at_none (x : α × α) : (SharpeRatio (p : Int) : Operator α).forwardStep (.tup [vS x.1, vS x.2]) none =
    (SharpeRatio (p : Int) : Operator α).forwardStep (.tup [vS x.1, vS x.2]) (some (.tup [vSBuf (padded Arith.zero p []), vI 0])) := by
  simp [SharpeRatio, streamable, unpackArgs, arity, windowStatStep, zerosBuf_natCast]

theorem sharpe32_tracks (hp : 0 < p) (h31 : p ≤ 2 ^ 31) : Tracks (SharpeRatio (p : Int) : Operator α).int32 Any (fun x : α × α => .tup [vS x.1, vS x.2])
    (fun h => vS (sharpe (window (reach p (h.length - 1)) (excess h)))) (fun h => .tup [vSBuf (padded Arith.zero p (excess h)), vI (wrap32 h.length)]) := by
  have hx : ∀ (h : List (α × α)) x, excess (h ++ [x]) = excess h ++ [x.1 - x.2] := by simp [excess]
  refine counted32 (st := fun n h => .tup [vSBuf (padded Arith.zero p (excess h)), vI n]) (fun _ _ => rfl)
    (fun x => sharpe_at_none x) (fun n h x => by rw [sharpe_at, roll_padded hp, hx]) (fun h x => ?_) ?_ ?_ ?_
  · have e : h.length = (excess h).length := by simp [excess]
    rw [wrapVal_leaf, Leaf.wrap32_f, e, take_reach h31 (by omega) (by omega), List.length_append, List.length_singleton, Nat.add_sub_cancel, ← e, hx]
  · intro x; exact ⟨by simp [WF_tup], by simp [Tensors, flatten, flattens]⟩
  · exact ⟨.leaf (.float, []), fun h _ => ⟨by simp, rfl⟩⟩
  · exact ⟨.tup [.leaf .float, .leaf .int], fun n h => ⟨by simp [WF_tup], HasType_iff.2 rfl⟩⟩

/-- and the Sharpe ratio. -/
theorem C87_sharpe (hp : 0 < p) (h31 : p ≤ 2 ^ 31) : StreamsAs (SharpeRatio (p : Int) : Operator α).int32 vSBuf2 vSBuf
    (fun h => sharpe (window (reach p (h.length - 1)) (excess h))) := (sharpe32_tracks hp h31).streams numPairs_ok isSeries_vSBuf fun _ => rfl
example := C87_sharpe (α := XR ℚ) (p := 2) (by norm_num) (by norm_num)

/-! ### After: the recursive averages -/

/-- the samples that the simple moving average inside a recursive one has seen: the first `p`, and those from `2^31` on -/
def seen (p : Nat) {A : Type} (h : List A) : List A := h.take p ++ h.drop (2 ^ 31)

/-- what a recursive average outputs: itself up to sample `2^31`, then the simple moving average of what was seen -/
def overflown (p : Nat) {E : Type} [Arith E] (y : List E → E) (h : List E) : E := if h.length ≤ 2 ^ 31 then y h else movingAvg p (seen p h)

/-- one step of EMA and RMA from any counter -/
def AvgAt (op : Operator α) (p : Nat) (s : List Nat) (f : (Idx s → α) → (Idx s → α) → Idx s → α) : Prop := ∀ (n : Int) (x e : Idx s → α) (g : List (Idx s → α)),
  op.forwardStep (vF x) (some (.tup [vI n, vF e, bufState p g])) =
    .ok (vF (if n < (p : Int) then movingAvg p (g ++ [x]) else f e x),
      .tup [vI (n + 1), vF (if n < (p : Int) then movingAvg p (g ++ [x]) else f e x), bufState p (if n < (p : Int) then g ++ [x] else g)], .tup [vI n, vF e, bufState p g])

theorem cond_at (n : Int) (x e : Idx s → α) (g : List (Idx s → α)) (f : Idx s → α) :
    tfCond (decide (n < (p : Int))) (.node .tuple [vF (movingAvg p (g ++ [x])), bufState p (g ++ [x])]) (.node .tuple [vF f, bufState p g]) =
    .ok (.node .tuple [vF (if n < (p : Int) then movingAvg p (g ++ [x]) else f), bufState p (if n < (p : Int) then g ++ [x] else g)]) := by
  refine (tfCond_tup2 (tx := .leaf .float) (ty := .tup [.leaf .int, .leaf .float]) (by simp) (bufState_ok _ _).1 (by simp) (bufState_ok _ _).1
    (HasType_iff.2 rfl) (bufState_ok _ _).2 (HasType_iff.2 rfl) (bufState_ok _ _).2 (by simp [flatten])).trans ?_
  by_cases h : n < (p : Int) <;> simp [h]

theorem ema_at (hp : 0 < p) : AvgAt (EMA (p : Int) : Operator α) p s
    (fun e x => x * Arith.ofRat (2 / ((p : ℚ) + 1)) + e * Arith.ofRat (1 - 2 / ((p : ℚ) + 1))) := by
  intro n x e g
  simp [EMA, streamable, unpackArgs, arity, sma_inner hp]
  rw [cond_at n x e g]
  simp

theorem rma_at (hp : 0 < p) : AvgAt (RMA (p : Int) : Operator α) p s
    (fun e x => (e * Arith.ofInt ((p : Int) - 1) + x) / Arith.ofInt p) := by
  intro n x e g
  simp [RMA, streamable, unpackArgs, arity, sma_inner hp]
  rw [cond_at n x e g]
  simp

/-- the state of EMA and RMA with an int32 counter -/
def avgState32 (p : Nat) {s : List Nat} (y : List (Idx s → α) → Idx s → α) (h : List (Idx s → α)) : Val α :=
  .tup [vI (wrap32 h.length), vF (overflown p y h), bufState p (seen p h)]

theorem avg32_next {op : Operator α} {f : (Idx s → α) → (Idx s → α) → Idx s → α} (hop : AvgAt op p s f) (hp : p < 2 ^ 31) {h : List (Idx s → α)} (x : Idx s → α)
    (hl : h.length + 1 + p < 2 ^ 32) :
    op.int32.forwardStep (vF x) (some (avgState32 p (recursiveAvg p f) h)) =
      .ok (vF (overflown p (recursiveAvg p f) (h ++ [x])), avgState32 p (recursiveAvg p f) (h ++ [x]), avgState32 p (recursiveAvg p f) h) := by
  have w : ∀ (n : Int) (e : Idx s → α) (g : List (Idx s → α)), g.length < 2 ^ 31 →
      wrapVal (.tup [vI n, vF e, bufState p g]) = .tup [vI (wrap32 n), vF e, bufState p g] := fun n e g hg => by
    show PyVal.tup [vI (wrap32 n), vF e, .tup [vI (wrap32 g.length), vBuf _]] = _
    rw [wrap32_of_small (n := g.length) (by omega)]
    rfl
  have hs : (seen p h).length ≤ p + (h.length - 2 ^ 31) := by simp only [seen, List.length_append, List.length_take, List.length_drop]; omega
  have hs' : (seen p (h ++ [x])).length ≤ p + (h.length + 1 - 2 ^ 31) := by
    simp only [seen, List.length_append, List.length_take, List.length_drop, List.length_singleton]; omega
  have hc : Cold p h.length ↔ h.length < p ∨ 2 ^ 31 ≤ h.length := by rw [Cold, Nat.mod_eq_of_lt (by omega)]
  have e1 : (if wrap32 h.length < (p : Int) then seen p h ++ [x] else seen p h) = seen p (h ++ [x]) := by
    simp only [wrap32_lt, hc, seen]
    by_cases h1 : h.length < p
    · rw [if_pos (.inl h1), List.take_of_length_le (by omega), List.drop_eq_nil_of_le (by omega), List.take_of_length_le (by simp; omega),
        List.drop_eq_nil_of_le (by simp; omega)]; simp
    · rw [List.take_append_of_le_length (by omega)]
      by_cases h2 : 2 ^ 31 ≤ h.length
      · rw [if_pos (.inr h2), List.drop_append_of_le_length h2, List.append_assoc]
      · rw [if_neg (by omega), List.drop_eq_nil_of_le (by omega), List.drop_eq_nil_of_le (by simp; omega)]
  have e2 : (if wrap32 h.length < (p : Int) then movingAvg p (seen p h ++ [x]) else f (overflown p (recursiveAvg p f) h) x) = overflown p (recursiveAvg p f) (h ++ [x]) := by
    by_cases h2 : 2 ^ 31 ≤ h.length
    · have e1' := e1
      simp only [wrap32_lt, hc] at e1' ⊢
      rw [if_pos (.inr h2)] at e1' ⊢
      rw [e1', overflown, if_neg (by simp; omega)]
    · simp only [wrap32_lt, hc]
      have o1 : overflown p (recursiveAvg p f) h = recursiveAvg p f h := if_pos (by omega)
      have o2 : overflown p (recursiveAvg p f) (h ++ [x]) = recursiveAvg p f (h ++ [x]) := if_pos (by simp; omega)
      rw [o1, o2]
      by_cases h1 : h.length < p
      · rw [if_pos (.inl h1), recursiveAvg_le (by simp; omega), seen, List.take_of_length_le (by omega), List.drop_eq_nil_of_le (by omega), List.append_nil]
      · rw [if_neg (by omega), recursiveAvg_concat (by omega)]
  rw [avgState32, int32_step (hop _ _ _ _), e1, e2, w _ _ _ (by omega), w _ _ _ (by omega), wrap32_wrap32, wrap32_add_one, wrapVal_leaf, Leaf.wrap32_f, avgState32,
    List.length_append, List.length_singleton, Int.natCast_add, Int.natCast_one]

theorem avg32_tracks {op : Operator α} {f : (Idx s → α) → (Idx s → α) → Idx s → α} (hop : AvgAt op p s f) (h0 : 0 < p) (hp : p < 2 ^ 31)
    (hn : ∀ x : Idx s → α, op.forwardStep (vF x) none = op.forwardStep (vF x) (some (.tup [vI 0, vF (Arith.zero : Idx s → α), bufState p ([] : List (Idx s → α))]))) :
    Tracks op.int32 (fun h => h.length + p < 2 ^ 32) (fun x : Idx s → α => vF x) (fun h => vF (overflown p (recursiveAvg p f) h)) (avgState32 p (recursiveAvg p f)) := by
  refine ⟨fun x hl => ?_, fun h x hl => ?_, fun x => ⟨by simp, by simp [Tensors]⟩, ⟨.leaf (.float, s), fun h _ => ⟨by simp, rfl⟩⟩,
    ⟨.tup [.leaf .int, .leaf .float, .tup [.leaf .int, .leaf .float]], fun h => ⟨by simp [avgState32, bufState, WF_tup], HasType_iff.2 rfl⟩⟩⟩
  · have e : avgState32 p (recursiveAvg p f) ([] : List (Idx s → α)) = .tup [vI 0, vF (Arith.zero : Idx s → α), bufState p ([] : List (Idx s → α))] := by
      rw [avgState32, overflown, if_pos (by simp), recursiveAvg_le (by simp), movingAvg_nil h0, List.length_nil, Int.natCast_zero, wrap32_zero]
      simp [seen]
    have := avg32_next hop hp (h := []) x (by simp only [List.length_nil, List.length_singleton] at hl ⊢; omega)
    rw [List.nil_append] at this
    rw [← this, e]
    simp only [Operator.int32, hn]
  · exact avg32_next hop hp x (by simp only [List.length_append, List.length_singleton] at hl; omega)

theorem ema_none (hp : 0 < p) (x : Idx s → α) : (EMA (p : Int) : Operator α).forwardStep (vF x) none =
    (EMA (p : Int) : Operator α).forwardStep (vF x) (some (.tup [vI 0, vF (Arith.zero : Idx s → α), bufState p ([] : List (Idx s → α))])) := by
  simp [EMA, streamable, unpackArgs, arity, sma_inner hp, sma_inner_none hp]
  rfl

theorem rma_none (hp : 0 < p) (x : Idx s → α) : (RMA (p : Int) : Operator α).forwardStep (vF x) none =
    (RMA (p : Int) : Operator α).forwardStep (vF x) (some (.tup [vI 0, vF (Arith.zero : Idx s → α), bufState p ([] : List (Idx s → α))])) := by
  simp [RMA, streamable, unpackArgs, arity, sma_inner hp, sma_inner_none hp]
  rfl

theorem avg32_at {op : Operator α} {f : (Idx s → α) → (Idx s → α) → Idx s → α}
    (T : Tracks op.int32 (fun h => h.length + p < 2 ^ 32) (fun x : Idx s → α => vF x) (fun h => vF (overflown p (recursiveAvg p f) h)) (avgState32 p (recursiveAvg p f)))
    (hp : p < 2 ^ 31) {xs : List (Idx s → α)} (hx : xs ≠ []) (hl : xs.length + p < 2 ^ 32) :
    ∃ os sf s0, call op.int32 (vBuf xs) none = .ok (vBuf os, sf, s0) ∧ ∃ hl : os.length = xs.length, ∀ i (hi : i < xs.length),
      os[i] = if i < 2 ^ 31 then recursiveAvg p f (xs.take (i + 1)) else movingAvg p (xs.take p ++ (xs.take (i + 1)).drop (2 ^ 31)) := by
  have hz := isSeries_vBuf (scan (overflown p (recursiveAvg p f)) [] xs)
  rw [scan_map] at hz
  refine ⟨_, _, _, T.eval hx (fun k _ hk => ?_) (rows_ok xs).1 (rows_ok xs).2.1 (rows_ok xs).2.2 hz, by simp, fun i hi => ?_⟩
  · simp only [List.length_take]; omega
  · simp only [scan_getElem, List.nil_append, overflown, List.length_take, Nat.min_eq_left (show i + 1 ≤ xs.length from hi)]
    by_cases h1 : i < 2 ^ 31
    · rw [if_pos (by omega), if_pos h1]
    · rw [if_neg (by omega), if_neg h1, seen, List.take_take, Nat.min_eq_left (by omega)]

/-- The exponential moving average, from sample `2^31` on: the simple moving average of the first `p` samples of the series followed by those from
`2^31` on (the state of the average it started with was kept). -/
theorem C87_ema (h0 : 0 < p) (hp : p < 2 ^ 31) {xs : List (Idx s → α)} (hx : xs ≠ []) (hl : xs.length + p < 2 ^ 32) :
    ∃ os sf s0, call (EMA (p : Int)).int32 (vBuf xs) none = .ok (vBuf os, sf, s0) ∧ ∃ hl : os.length = xs.length, ∀ i (hi : i < xs.length),
      os[i] = if i < 2 ^ 31 then expAvg p (xs.take (i + 1)) else movingAvg p (xs.take p ++ (xs.take (i + 1)).drop (2 ^ 31)) :=
  avg32_at (avg32_tracks (ema_at h0) h0 hp (ema_none h0)) hp hx hl
example := C87_ema (α := XR ℚ) (p := 2) (by norm_num) (by norm_num) (xs := List.replicate (2 ^ 31 + 5) (pt (XR.fin 1))) (by
  rw [← List.length_pos_iff, List.length_replicate]; norm_num) (by rw [List.length_replicate]; norm_num)

/-- The same for the rolling average. -/
theorem C87_rma (h0 : 0 < p) (hp : p < 2 ^ 31) {xs : List (Idx s → α)} (hx : xs ≠ []) (hl : xs.length + p < 2 ^ 32) :
    ∃ os sf s0, call (RMA (p : Int)).int32 (vBuf xs) none = .ok (vBuf os, sf, s0) ∧ ∃ hl : os.length = xs.length, ∀ i (hi : i < xs.length),
      os[i] = if i < 2 ^ 31 then rollAvg p (xs.take (i + 1)) else movingAvg p (xs.take p ++ (xs.take (i + 1)).drop (2 ^ 31)) :=
  avg32_at (avg32_tracks (rma_at h0) h0 hp (rma_none h0)) hp hx hl
example := C87_rma (α := XR ℚ) (p := 2) (by norm_num) (by norm_num) (xs := List.replicate (2 ^ 31 + 5) (pt (XR.fin 1))) (by
  rw [← List.length_pos_iff, List.length_replicate]; norm_num) (by rw [List.length_replicate]; norm_num)

theorem movingAvg_seen {E : Type} [Arith E] {p i : Nat} {xs : List E} (hi : i < xs.length) (h : 2 ^ 31 + p ≤ i + 1) :
    movingAvg p (xs.take p ++ (xs.take (i + 1)).drop (2 ^ 31)) = movingAvg p (xs.take (i + 1)) := by
  have hl : (xs.take (i + 1)).length = i + 1 := by simp; omega
  have hd : ((xs.take (i + 1)).drop (2 ^ 31)).length = i + 1 - 2 ^ 31 := by rw [List.length_drop, hl]
  have key : ∀ a b : List E, p ≤ b.length → window p (a ++ b) = window p b := fun a b hb => by
    rw [window, window, List.reverse_append, List.take_append_of_le_length (by simpa using hb)]
  have e := key ((xs.take (i + 1)).take (2 ^ 31)) _ (show p ≤ ((xs.take (i + 1)).drop (2 ^ 31)).length by omega)
  rw [List.take_append_drop] at e
  rw [movingAvg, if_neg (by rw [List.length_append, hd]; omega), key _ _ (by omega), ← e, movingAvg, if_neg (by omega)]

/-- So `p` samples later both have turned into the simple moving average. -/
theorem C87_averages_agree (h0 : 0 < p) (hp : p < 2 ^ 31) {xs : List (Idx s → α)} (hx : xs ≠ []) (hl : xs.length + p < 2 ^ 32) :
    ∃ os os' sf sf' s0 s0', call (EMA (p : Int)).int32 (vBuf xs) none = .ok (vBuf os, sf, s0) ∧ call (RMA (p : Int)).int32 (vBuf xs) none = .ok (vBuf os', sf', s0') ∧
      ∃ (_ : os.length = xs.length) (_ : os'.length = xs.length), ∀ i (hi : i < xs.length), 2 ^ 31 + p ≤ i + 1 →
        os[i] = movingAvg p (xs.take (i + 1)) ∧ os'[i] = movingAvg p (xs.take (i + 1)) := by
  obtain ⟨os, sf, s0, a, b, c⟩ := C87_ema h0 hp hx hl
  obtain ⟨os', sf', s0', a', b', c'⟩ := C87_rma h0 hp hx hl
  refine ⟨os, os', sf, sf', s0, s0', a, a', b, b', fun i hi h => ?_⟩
  rw [c i hi, c' i hi, if_neg (by omega), if_neg (by omega), movingAvg_seen hi h]
  exact ⟨rfl, rfl⟩
example := C87_averages_agree (α := XR ℚ) (p := 2) (by norm_num) (by norm_num) (xs := List.replicate (2 ^ 31 + 5) (pt (XR.fin 1))) (by
  rw [← List.length_pos_iff, List.length_replicate]; norm_num) (by rw [List.length_replicate]; norm_num)

/-! ### Operators without counters -/

/-- Lag, the running extrema of numbers and the Heikin Ashi candles have no counter and are never affected. -/
theorem C87_unaffected (hp : 0 < p) (s : List Nat) :
    StreamsAs (Lag (p : Int) : Operator α).int32 (vBuf (s := s)) vBuf (lagged Arith.zero p) ∧
    StreamsAs (GlobalMinimum : Operator α).int32 vSBuf vSBuf runMin ∧ StreamsAs (GlobalMaximum : Operator α).int32 vSBuf vSBuf runMax :=
  ⟨((lag_tracks hp s).int32_same (fun _ => rfl) fun _ => rfl).streams rows_ok isSeries_vBuf fun _ => rfl,
    (globalMin_tracks.int32_same (fun _ => rfl) fun _ => rfl).streams nums_ok isSeries_vSBuf fun _ => rfl,
    (globalMax_tracks.int32_same (fun _ => rfl) fun _ => rfl).streams nums_ok isSeries_vSBuf fun _ => rfl⟩
example := C87_unaffected (α := XR ℚ) (p := 2) (by norm_num) [2]

end

/-! ### What it looks like -/

theorem cold_after {c i : Nat} (h : 2 ^ 31 ≤ i) (h' : i < 2 ^ 32) : Cold c i := .inr (by rw [Nat.mod_eq_of_lt h']; exact h)

theorem reach_after {p i : Nat} (h : 2 ^ 31 ≤ i) (h' : i + p < 2 ^ 32) : reach p i = 0 := by
  rw [reach, Nat.mod_eq_of_lt (by omega), if_neg (by omega)]
  split <;> omega

/-- From sample number `2^31` on (and for another `2^31 - p` samples) the outputs do not depend on the samples: whatever the series and however it is split
into calls, the simple moving average, the moving standard deviation and the correlation are zero, `SetDuring` outputs its value, -/
theorem C87_after {p : Nat} (hp : 0 < p) (s : List Nat) (v : α) :
    ∃ y y' z : List (Idx s → α) → Idx s → α, ∃ c : List ((Idx s → α) × (Idx s → α)) → Idx s → α,
      StreamsAs (SMA (p : Int)).int32 vBuf vBuf y ∧ StreamsAs (MSD (p : Int)).int32 vBuf vBuf y' ∧
      StreamsAs (SetDuring (.f (Tensor.scalar v)) (p : Int)).int32 vBuf vBuf z ∧ StreamsAs (Correlation (p : Int)).int32 vBuf2 vBuf c ∧
      (∀ h, 2 ^ 31 < h.length → h.length ≤ 2 ^ 32 → y h = Arith.zero ∧ y' h = Arith.zero ∧ z h = fun _ => v) ∧
      ∀ h, 2 ^ 31 < h.length → h.length ≤ 2 ^ 32 → c h = Arith.zero :=
  ⟨_, _, _, _, C87_sma hp s, C87_msd hp s, C87_setDuring v s, C87_correlation hp s,
    fun h h1 h2 => ⟨if_pos (cold_after (by omega) (by omega)), if_pos (cold_after (by omega) (by omega)), if_pos (cold_after (by omega) (by omega))⟩,
    fun h h1 h2 => if_pos (cold_after (by omega) (by omega))⟩
example := C87_after (p := 2) (by norm_num) [2] (XR.fin (7 : ℚ))

section
variable {K : Type} [Field K] [LinearOrder K] [IsStrictOrderedRing K] [FloorRing K] [Transc K]

theorem mean_nil : Arith.mean ([] : List (XR K)) = .nan := by
  show XR.div (XR.fin 0) (XR.fin _) = _
  simp [XR.div, XR.infOf]

/-- in exact arithmetic the local minimum is infinity, the local maximum minus infinity, skewness and Sharpe ratio are NaN. -/
theorem C87_infinite {p : Nat} (hp : 0 < p) (h31 : p ≤ 2 ^ 31) :
    ∃ lo hi sk : List (XR K) → XR K, ∃ sh : List (XR K × XR K) → XR K,
      StreamsAs (LocalMinimum (p : Int)).int32 vSBuf vSBuf lo ∧ StreamsAs (LocalMaximum (p : Int)).int32 vSBuf vSBuf hi ∧
      StreamsAs (Skewness (p : Int)).int32 vSBuf vSBuf sk ∧ StreamsAs (SharpeRatio (p : Int)).int32 vSBuf2 vSBuf sh ∧
      (∀ h, 2 ^ 31 < h.length → h.length + p ≤ 2 ^ 32 → lo h = .pinf ∧ hi h = .ninf ∧ sk h = .nan) ∧ ∀ h, 2 ^ 31 < h.length → h.length + p ≤ 2 ^ 32 → sh h = .nan := by
  refine ⟨_, _, _, _, C87_localMinimum hp h31, C87_localMaximum hp h31, C87_skewness hp h31, C87_sharpe hp h31, fun h h1 h2 => ?_, fun h h1 h2 => ?_⟩
  · have e : window (reach p (h.length - 1)) h = [] := by rw [reach_after (by omega) (by omega)]; rfl
    simp only [e]
    refine ⟨rfl, rfl, ?_⟩
    simp only [computeSkewness, Arith.moments, List.map_nil, mean_nil]
    rfl
  · rw [reach_after (by omega) (by omega)]
    show sharpe [] = _
    simp only [sharpe, Arith.moments, List.map_nil, mean_nil]
    rfl
example := C87_infinite (K := ℚ) (p := 2) (by norm_num) (by norm_num)

end
end TS
