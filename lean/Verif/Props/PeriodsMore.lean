import Verif.Props.Periods
import Verif.Props.Progress
import Verif.Props.Bands
import Verif.Props.RiskRatio
/-
C82: which periods the operators built from others accept.
-/
namespace TS
open PyVal
variable {α : Type}
set_option linter.unusedSimpArgs false

/-- Started on `x`, the operator fails, or its first step changes the shapes of its state. -/
def Jumps (op : Operator α) (x : Val α) : Prop :=
  ∀ o n i o' n' i', i.WF → call op x none false = .ok (o, n, i) → call op x (some i) false = .ok (o', n', i') → ¬ SameShapes n' i

theorem static_rejects_jump {op : Operator α} (hop : op.Sane ∧ op.Uniform) {X} {v : Val α} {n : Nat} (hv : SeriesOf X v n)
    (h : ∀ x, x.WF → HasSig x X → Jumps op x) : ¬ ∃ r, callStatic op v none = .ok r := by
  rintro ⟨⟨z, sf, s0⟩, hr⟩
  obtain ⟨hw, hl, xs, hin, hx, rfl, hX⟩ := hv
  obtain ⟨h1, h2⟩ := (C81_static_exact hop.1 hop.2 hw hin (by simp) _ _ _).1 hr
  obtain ⟨-, x, xs', hin', o, n, i, h3, hs0, hts, -, tr, h4, -⟩ := (C01_streaming_eq_stepping hop.1 hop.2 hw (by simp) _ _ _).1 h1
  obtain rfl := hin.det hl hin'
  have hxw := hin.mem_WF hw x (by simp)
  have hxt := hin.mem_tensors x (by simp)
  simp only [Option.getD_none] at hs0
  subst hs0
  have h3' := h3
  rw [call_eq false hxw hxt (by simp)] at h3'
  have hiw := (hop.1 _ _ _ _ _ hxw (by simp) h3').2.2
  obtain ⟨o2, n2, i2, tr', c1, c2, rfl⟩ := stepAll_cons_ok.1 h4
  exact h x hxw (hX x (by simp)) _ _ _ _ _ _ hiw h3 c1 (h2 _ h4 (o2, n2) (by simp))

theorem call_step {op : Operator α} {x : Val α} {st : Option (Val α)} {r} (hx : x.WF) (hs : ∀ s ∈ st, s.WF) (h : call op x st false = .ok r) :
    op.forwardStep x st = .ok r := by
  obtain ⟨h1, h2⟩ := call_ok_tensors hx hs h
  rw [call_eq false hx h1 fun s hs' => ⟨hs s hs', h2 s hs'⟩] at h
  simpa using h

theorem sameShapes_tup {as bs : List (Val α)} (h : SameShapes (.tup as) (.tup bs)) : as.map (PyVal.map shapeOf) = bs.map (PyVal.map shapeOf) := by
  simpa [SameShapes, PyVal.tup] using h

/-- The operator that runs first jumps. -/
theorem Jumps.first {op : Operator α} {x : Val α} (hx : x.WF) (h : Jumps op x) (ops : List (Operator α)) : Jumps (Compose (ops ++ [op])) x := by
  intro o n i o' n' i' hiw h1 h2 hs
  have e : ops ++ [op] = (op :: ops.reverse).reverse := by simp
  rw [e] at h1 h2
  obtain ⟨sts, o1, ns, is, c1, -, c2, c3⟩ := compose_ok.1 (call_step hx (by simp) h1)
  cases c1
  simp only [Prod.mk.injEq] at c3
  obtain ⟨rfl, rfl, rfl⟩ := c3
  simp only [List.length_cons, List.replicate_succ, List.zip_cons_cons] at c2
  obtain ⟨o1, n, i, ns', is', c3, c4, rfl, rfl⟩ := composeLoop_cons_ok.1 c2
  obtain ⟨sts, o2, ns, is, d1, -, d2, d3⟩ := compose_ok.1 (call_step hx (by simpa using hiw) h2)
  cases d1
  simp only [Prod.mk.injEq] at d3
  obtain ⟨rfl, rfl, rfl⟩ := d3
  simp only [List.map_cons, List.zip_cons_cons] at d2
  obtain ⟨o2, n2, i2, ns2, is2, d3, d4, rfl, rfl⟩ := composeLoop_cons_ok.1 d2
  have hh := sameShapes_tup hs
  simp only [List.map_cons, List.cons.injEq] at hh
  exact h _ _ _ _ _ _ (WF_tup.1 hiw i (by simp)) c3 d3 hh.1

/-- The operators after the one that runs first jump on its output. -/
theorem Jumps.next {op : Operator α} {x y n0 i0 n1 i1 : Val α} (hx : x.WF) (hy : y.WF) (hy' : Tensors y) (h0 : call op x none false = .ok (y, n0, i0))
    (h1 : call op x (some i0) false = .ok (y, n1, i1)) {ops : List (Operator α)} (hne : ops ≠ []) (h : Jumps (Compose ops) y) : Jumps (Compose (ops ++ [op])) x := by
  intro o n i o' n' i' hiw h2 h3 hs
  have e : ops ++ [op] = (op :: ops.reverse).reverse := by simp
  rw [e] at h2 h3
  obtain ⟨sts, o1, ns, is, c1, -, c2, c3⟩ := compose_ok.1 (call_step hx (by simp) h2)
  cases c1
  simp only [Prod.mk.injEq] at c3
  obtain ⟨rfl, rfl, rfl⟩ := c3
  simp only [List.length_cons, List.replicate_succ, List.zip_cons_cons] at c2
  obtain ⟨o1, n, i, ns', is', c3, c4, rfl, rfl⟩ := composeLoop_cons_ok.1 c2
  rw [h0] at c3
  simp only [Except.ok.injEq, Prod.mk.injEq] at c3
  obtain ⟨rfl, rfl, rfl⟩ := c3
  obtain ⟨sts, o2, ns, is, d1, -, d2, d3⟩ := compose_ok.1 (call_step hx (by simpa using hiw) h3)
  cases d1
  simp only [Prod.mk.injEq] at d3
  obtain ⟨rfl, rfl, rfl⟩ := d3
  simp only [List.map_cons, List.zip_cons_cons] at d2
  obtain ⟨o2, n2, i2, ns2, is2, d3, d4, rfl, rfl⟩ := composeLoop_cons_ok.1 d2
  rw [h1] at d3
  simp only [Except.ok.injEq, Prod.mk.injEq] at d3
  obtain ⟨rfl, rfl, rfl⟩ := d3
  have hh := sameShapes_tup hs
  simp only [List.map_cons, List.cons.injEq] at hh
  have hw' : (PyVal.tup is').WF := WF_tup.2 fun v hv => WF_tup.1 hiw v (by simp [hv])
  have hne' : ops.reverse ≠ [] := by simpa using hne
  have hl := (composeLoop_length c4).2
  have f1 := compose_call_none hne' hy c4
  rw [List.reverse_reverse] at f1
  have hts := (call_ok_tensors hx (by simpa using hiw) h3).2 _ rfl
  have hts' : Tensors (PyVal.tup is') := fun l hl => hts l (by
    simp only [PyVal.tup, flatten, flattens, List.mem_append] at hl ⊢
    exact .inr hl)
  have f2 := (call_step_ok (op := Compose ops.reverse.reverse) hy (by simpa using hw')).2 ⟨hy', by simpa using hts', compose_ok.2 ⟨_, _, _, _, opStates_tup _ is', by
    simp only [List.length_zip, List.length_replicate, List.length_reverse, min_self] at hl
    intro e
    have := congrArg List.length e
    simp [hl] at this
    exact hne this, d4, rfl⟩⟩
  rw [List.reverse_reverse] at f2
  exact h _ _ _ _ _ _ hw' f1 f2 (by simpa [SameShapes, PyVal.tup] using hh.2)

/-- One of the joined operators jumps on its input. -/
theorem Jumps.join {ops : List (Operator α)} {xs : List (Val α)} (hx : ∀ x ∈ xs, x.WF) {k : Nat} (hk : k < ops.length) (hk' : k < xs.length)
    (h : Jumps ops[k] xs[k]) : Jumps (Join ops) (.tup xs) := by
  intro o n i o' n' i' hiw h1 h2 hs
  have hxw : (PyVal.tup xs).WF := WF_tup.2 hx
  obtain ⟨sts, ys, os, ns, is, c1, c2, c3, c4⟩ := join_ok.1 (call_step hxw (by simp) h1)
  cases c1; cases c2
  simp only [Prod.mk.injEq] at c4
  obtain ⟨rfl, rfl, rfl⟩ := c4
  obtain ⟨sts, ys, os', ns', is', d1, d2, d3, d4⟩ := join_ok.1 (call_step hxw (by simpa using hiw) h2)
  cases d1; cases d2
  simp only [Prod.mk.injEq] at d4
  obtain ⟨rfl, rfl, rfl⟩ := d4
  have hh := sameShapes_tup hs
  have key : ∀ {l : List (Operator α × Val α × Option (Val α))} {os ns is}, joinLoop l = .ok (os, ns, is) → ∀ {k} (hk : k < l.length),
      ∃ o n i, call l[k].1 l[k].2.1 l[k].2.2 false = .ok (o, n, i) ∧ ns[k]? = some n ∧ is[k]? = some i := by
    intro l
    induction l with
    | nil => intro os ns is _ k hk; simp at hk
    | cons p l ih =>
      intro os ns is hl k hk
      obtain ⟨op, x, st⟩ := p
      obtain ⟨o, n, i, os', ns', is', e1, e2, rfl, rfl, rfl⟩ := joinLoop_cons_ok.1 hl
      cases k with
      | zero => exact ⟨o, n, i, e1, rfl, rfl⟩
      | succ k => simpa using ih e2 (by simpa using hk)
  obtain ⟨o1, n1, i1, e1, e2, e3⟩ := key c3 (k := k) (by simp; omega)
  have hlen := (joinLoop_length c3).2.2
  simp only [List.length_zip, List.length_replicate] at hlen
  obtain ⟨hki, e3'⟩ := List.getElem?_eq_some_iff.1 e3
  obtain ⟨o2, n2, i2, f1, f2, f3⟩ := key d3 (k := k) (by simp; omega)
  simp only [List.getElem_zip, List.getElem_replicate] at e1
  simp only [List.getElem_zip, List.getElem_map, e3'] at f1
  refine h _ _ _ _ _ _ (WF_tup.1 hiw _ (List.mem_of_getElem? e3)) e1 f1 ?_
  have := congrArg (fun l => l[k]?) hh
  simpa [f2, e3, SameShapes] using this


section
variable [TFNum α]

theorem sma_jumps {p : Int} (hp : p ≤ 0) {s : List Nat} (a : Idx s → α) : Jumps (SMA p) (vF a) := by
  intro o n i o' n' i' hiw h1 h2
  rcases hp.lt_or_eq with hp | rfl
  · rw [sma_fails hp] at h1; cases h1
  · rw [sma0_first] at h1
    simp only [Except.ok.injEq, Prod.mk.injEq] at h1
    obtain ⟨rfl, rfl, rfl⟩ := h1
    rw [sma0_next] at h2
    simp only [Except.ok.injEq, Prod.mk.injEq] at h2
    obtain ⟨rfl, rfl, rfl⟩ := h2
    simp [SameShapes, PyVal.tup, vBuf, shapeOf, Tensor.pack]

theorem msd_jumps {p : Int} (hp : p ≤ 0) {s : List Nat} (a : Idx s → α) : Jumps (MSD p) (vF a) := by
  intro o n i o' n' i' hiw h1 h2
  rcases hp.lt_or_eq with hp | rfl
  · rw [call_eq false (by simp) (by simp [Tensors]) (by simp)] at h1
    simp [MSD, bufferOp, streamable, unpackArgs, arity, msdStep, zerosBuf_neg hp] at h1
  · rw [msd0_first] at h1
    simp only [Except.ok.injEq, Prod.mk.injEq] at h1
    obtain ⟨rfl, rfl, rfl⟩ := h1
    rw [msd0_next] at h2
    simp only [Except.ok.injEq, Prod.mk.injEq] at h2
    obtain ⟨rfl, rfl, rfl⟩ := h2
    simp [SameShapes, PyVal.tup, vBuf, shapeOf, Tensor.pack]

/-- **C82, Volatility**: both periods must be positive. -/
theorem C82_volatility (hz : TFNum.eq (Arith.zero : α) (Arith.ofRat 0) = true) (m r : Int) {v : Val α} {n : Nat} (hv : SeriesOf (tF []) v n) :
    (∃ x, callStatic (Volatility m r) v none = .ok x) ↔ 0 < m ∧ 0 < r := by
  by_cases h : 0 < m ∧ 0 < r
  · obtain ⟨hm, hr⟩ := h
    lift m to Nat using hm.le
    lift r to Nat using hr.le
    obtain ⟨h1, h2⟩ := C81_typed (C56_volatility_typed (C := fun _ => True) hz (by omega : 0 < m) (by omega : 0 < r)) hv
    exact iff_of_true (h1 ▸ h2) ⟨hm, hr⟩
  · refine iff_of_false (static_rejects_jump ⟨(Volatility_lib m r).ok.sane, (Volatility_lib m r).ok.uniform⟩ hv fun x hw hx => ?_) h
    obtain ⟨a, rfl⟩ := hasSig_scalar hx
    by_cases hr : 0 < r
    · lift r to Nat using hr.le
      have hm : m ≤ 0 := by omega
      obtain ⟨hst, i0, h0⟩ := (TypedIn.logReturn (C := fun _ => True) hz (by omega : 0 < r)).rooted
      obtain ⟨o, n, h1, h2, h3, h4, -⟩ := rooted_call hst h0 hw hx
      obtain ⟨b, rfl⟩ := hasSig_scalar h4
      exact Jumps.next hw h3 h4.tensors h1 h2 (ops := [_, MSD m]) (by simp) (Jumps.first h3 (msd_jumps hm (pt b)) [_])
    · refine Jumps.first (op := LogReturn r) hw (fun o n i _ _ _ _ h1 => ?_) [_, _]
      rw [call_eq false (by simp) (by simp [Tensors]) (by simp)] at h1
      rcases (not_lt.1 hr).lt_or_eq with hp | rfl
      · simp [LogReturn, returnOp, streamable, unpackArgs, arity, returnStep, zerosBuf_neg hp] at h1
      · simp [LogReturn, returnOp, streamable, unpackArgs, arity, returnStep, zerosBuf_zero, pyIndex] at h1

theorem crossover_jumps {slow fast : Int} (h : ¬ (0 < slow ∧ 0 < fast)) {s : List Nat} (a : Idx s → α) : Jumps (SMACrossover slow fast) (vF a) := by
  have hf2 : call (Fork 2) (vF a) (some .unit) false = .ok (.tup [vF a, vF a], .unit, .unit) := by
    rw [call_eq false (by simp) (by simp [Tensors]) (by simp [Tensors, flatten, flattens, PyVal.unit, WF_tup])]; rfl
  refine Jumps.next (op := Fork 2) (by simp) (by simp [WF_tup]) (by simp [Tensors, flatten, flattens, PyVal.tup]) (fork2_first a) hf2 (ops := [_, _]) (by simp) ?_
  refine Jumps.first (by simp [WF_tup]) ?_ [_]
  by_cases hs : 0 < slow
  · refine Jumps.join (k := 0) (by simp) (by simp) (by simp) ?_
    exact Jumps.first (by simp) (sma_jumps (by omega) a) [_]
  · refine Jumps.join (k := 1) (by simp) (by simp) (by simp) ?_
    exact sma_jumps (by omega) a

/-- **C82, moving average crossover and its signal**: both periods must be positive. -/
theorem C82_crossover (slow fast : Int) (s : List Nat) {v : Val α} {n : Nat} (hv : SeriesOf (tF s) v n) :
    (∃ x, callStatic (SMACrossover slow fast) v none = .ok x) ↔ 0 < slow ∧ 0 < fast := by
  by_cases h : 0 < slow ∧ 0 < fast
  · obtain ⟨hm, hr⟩ := h
    lift slow to Nat using hm.le
    lift fast to Nat using hr.le
    obtain ⟨h1, h2⟩ := C81_typed (C56_smaCrossover_typed (C := fun _ => True) (by omega : 0 < slow) (by omega : 0 < fast) s) hv
    exact iff_of_true (h1 ▸ h2) ⟨hm, hr⟩
  · refine iff_of_false (static_rejects_jump ⟨(SMACrossover_lib slow fast).ok.sane, (SMACrossover_lib slow fast).ok.uniform⟩ hv fun x hw hx => ?_) h
    obtain ⟨a, rfl⟩ := hasSig_tF hx
    exact crossover_jumps h a
theorem C82_crossover_signal (slow fast : Int) (s : List Nat) {v : Val α} {n : Nat} (hv : SeriesOf (tF s) v n) :
    (∃ x, callStatic (SMACrossoverSignal slow fast) v none = .ok x) ↔ 0 < slow ∧ 0 < fast := by
  by_cases h : 0 < slow ∧ 0 < fast
  · obtain ⟨hm, hr⟩ := h
    lift slow to Nat using hm.le
    lift fast to Nat using hr.le
    obtain ⟨h1, h2⟩ := C81_typed (C56_smaSignal_typed (C := fun _ => True) trivial (by omega : 0 < slow) (by omega : 0 < fast) s) hv
    exact iff_of_true (h1 ▸ h2) ⟨hm, hr⟩
  · refine iff_of_false (static_rejects_jump ⟨(SMACrossoverSignal_lib slow fast).ok.sane, (SMACrossoverSignal_lib slow fast).ok.uniform⟩ hv fun x hw hx => ?_) h
    obtain ⟨a, rfl⟩ := hasSig_tF hx
    exact Jumps.first (by simp) (crossover_jumps h a) [_, _]

/-- **C82, RiskRatioEvaluator**: exactly the positive periods of the volatility, whatever the other parameters. -/
theorem C82_riskRatio (q : RRParams) {v : Val α} {n : Nat} (hv : SeriesOf (.tup [tF [], tF [], tF [], tI []]) v n) :
    (∃ x, callStatic (RiskRatioEvaluator q) v none = .ok x) ↔ 0 < q.volatility_period := by
  rcases le_or_gt q.volatility_period 0 with hp | hp
  · refine iff_of_false (static_rejects_jump (basic_regular (.riskRatio q)) hv fun x hw hx => ?_) (by omega)
    obtain ⟨xs, rfl, h'⟩ := hasSig_tup_inv hx
    rcases h' with _ | ⟨h1, _ | ⟨h2, _ | ⟨h3, _ | ⟨h4, ⟨⟩⟩⟩⟩⟩
    obtain ⟨a, rfl⟩ := hasSig_scalar h1
    obtain ⟨b, rfl⟩ := hasSig_scalar h2
    obtain ⟨c, rfl⟩ := hasSig_scalar h3
    intro o n i o' n' i' hiw c1 c2 hs
    replace c1 := call_step hw (by simp) c1
    replace c2 := call_step hw (by simpa using hiw) c2
    obtain ⟨y, rfl, hy⟩ := hasSig_leaf_inv h4
    cases y <;> simp [Leaf.sig] at hy
    rename_i t; obtain ⟨s', d⟩ := t; simp only at hy; subst hy
    rcases hp.lt_or_eq with hp | hp
    · have hm : call (MSD q.volatility_period) (vS c) none false = .error .valueError := by
        rw [call_eq false (by simp) (by simp [Tensors]) (by simp)]
        simp [MSD, bufferOp, streamable, unpackArgs, arity, msdStep, zerosBuf_neg hp]
      simp [RiskRatioEvaluator, streamable, unpackArgs, arity, PyVal.tup, hm, decSignal, decLeaf, Tensor.asShape] at c1
    · rw [RiskRatioEvaluator, hp] at c1 c2
      simp [streamable, unpackArgs, arity, PyVal.tup, vS, msd0_first, decSignal, decLeaf, Tensor.asShape] at c1
      obtain ⟨rfl, rfl, rfl⟩ := c1
      simp [streamable, unpackArgs, arity, PyVal.tup, vS, msd0_next, decSignal, decLeaf, Tensor.asShape] at c2
      obtain ⟨rfl, rfl, rfl⟩ := c2
      simp [SameShapes, PyVal.tup, vBuf, shapeOf, Tensor.pack, roll] at hs
  · obtain ⟨p, hq⟩ : ∃ p : Nat, q.volatility_period = p := ⟨q.volatility_period.toNat, by omega⟩
    obtain ⟨h1, h2⟩ := C81_typed (TypedIn.riskRatioInt (C := fun _ => True) (by omega : 0 < p) q hq) hv
    exact iff_of_true (h1 ▸ h2) hp

/-- **C82, AutoCorrelation**: with a positive period, exactly the positive lags. -/
theorem C82_auto {p : Nat} (hp : 0 < p) (lag : Int) (s : List Nat) {v : Val α} {n : Nat} (hv : SeriesOf (tF s) v n) :
    ((∃ r, call (AutoCorrelation p lag) v none = .ok r) ↔ 0 < lag) ∧ ((∃ r, callStatic (AutoCorrelation p lag) v none = .ok r) ↔ 0 < lag) := by
  refine call_iff_pos (op := fun lag => AutoCorrelation p lag) hv (fun l hl x hx => ?_) (fun l hl => ⟨_, _, .autoCorrelation s hp hl⟩) lag
  obtain ⟨a, rfl⟩ := hasSig_tF hx
  obtain ⟨e, he⟩ : ∃ e, call (CrossCorrelation p l) (.tup [vF a, vF a]) none false = .error e := by
    rw [call_eq false (by simp [WF_tup]) (by simp [Tensors, flatten, flattens, PyVal.tup]) (by simp)]
    rcases hl.lt_or_eq with hl | rfl
    · exact ⟨.valueError, by simp [CrossCorrelation, streamable, unpackArgs, arity, orZeros, zerosBuf_neg hl, PyVal.tup]⟩
    · exact ⟨.indexError, by simp [CrossCorrelation, streamable, unpackArgs, arity, orZeros, zerosBuf_zero, PyVal.tup, pyIndex]⟩
  exact ⟨e, by simp [AutoCorrelation, streamable, unpackArgs, arity, he]⟩

/-! ### The recursive averages take the period 0 -/

theorem ema_steady (p : Nat) (s : List Nat) : (EMA (p : Int) : Operator α).Steady (tF s) (tF s) (tAvg p s) := by
  rcases Nat.eq_zero_or_pos p with rfl | hp
  · exact (ema_zero_tracks s).steady (O := tF s) (fun _ h => hasSig_tF h) (fun _ _ => rfl) (fun _ => rfl)
  · exact (TypedIn.ema (C := fun _ => True) s hp).steady
theorem rma_steady (p : Nat) (s : List Nat) : (RMA (p : Int) : Operator α).Steady (tF s) (tF s) (tAvg p s) := by
  rcases Nat.eq_zero_or_pos p with rfl | hp
  · exact (rma_zero_tracks s).steady (O := tF s) (fun _ h => hasSig_tF h) (fun _ _ => rfl) (fun _ => rfl)
  · exact (TypedIn.rma (C := fun _ => True) s hp).steady

theorem ema_neg {p : Int} (hp : p < 0) {s : List Nat} (a : Idx s → α) : call (EMA p) (vF a) none false = .error .valueError := by
  rw [call_eq false (by simp) (by simp [Tensors]) (by simp)]
  simp [EMA, streamable, unpackArgs, arity, sma_fails hp]
theorem rma_neg {p : Int} (hp : p < 0) {s : List Nat} (a : Idx s → α) : call (RMA p) (vF a) none false = .error .valueError := by
  rw [call_eq false (by simp) (by simp [Tensors]) (by simp)]
  simp [RMA, streamable, unpackArgs, arity, sma_fails hp]

theorem atr_steady (p : Nat) (s : List Nat) : (ATR (p : Int) : Operator α).Steady (.tup [tF s, tF s, tF s]) (tF []) (.tup [tF s, tAvg p []]) := by
  obtain ⟨I, hI, hf, hn⟩ := rma_steady (α := α) p []
  refine ⟨fun t => ∃ (c : Idx s → α) (r : Val α), t = .tup [vF c, r] ∧ I r, ?_, ?_, ?_⟩
  · rintro _ ⟨c, r, rfl, hr⟩
    exact ⟨by simp [WF_tup, (hI r hr).1], hasSig_tup (.cons rfl (.cons (hI r hr).2 .nil))⟩
  · intro x hw hx
    obtain ⟨xs, rfl, h'⟩ := hasSig_tup_inv hx
    rcases h' with _ | ⟨h1, _ | ⟨h2, _ | ⟨h3, ⟨⟩⟩⟩⟩
    obtain ⟨a, rfl⟩ := hasSig_tF h1
    obtain ⟨b, rfl⟩ := hasSig_tF h2
    obtain ⟨c, rfl⟩ := hasSig_tF h3
    obtain ⟨o, n, i, e1, e2, e3, e4⟩ := hf (vS (trueRange b c fun _ => Arith.zero)) (by simp) rfl
    refine ⟨o, .tup [vF a, n], .tup [vF (s := s) fun _ => Arith.zero, i], ?_, e2, ⟨a, n, rfl, e3⟩, ⟨_, i, rfl, e4⟩⟩
    have e1' : call (RMA (p : Int)) (vS (trueRange b c fun _ => Arith.zero)) none false = .ok (o, n, i) := by
      rw [call_eq false (by simp) (by simp [Tensors]) (by simp)]; exact e1
    simp [ATR, streamable, unpackArgs, arity, PyVal.tup, e1']
  · rintro x _ hw hx ⟨d, r, rfl, hr⟩
    obtain ⟨xs, rfl, h'⟩ := hasSig_tup_inv hx
    rcases h' with _ | ⟨h1, _ | ⟨h2, _ | ⟨h3, ⟨⟩⟩⟩⟩
    obtain ⟨a, rfl⟩ := hasSig_tF h1
    obtain ⟨b, rfl⟩ := hasSig_tF h2
    obtain ⟨c, rfl⟩ := hasSig_tF h3
    obtain ⟨o, n, i, e1, e2, e3, e4⟩ := hn (vS (trueRange b c d)) r (by simp) rfl hr
    refine ⟨o, .tup [vF a, n], .tup [vF d, i], ?_, e2, ⟨a, n, rfl, e3⟩, ⟨_, i, rfl, e4⟩⟩
    have e1' : call (RMA (p : Int)) (vS (trueRange b c d)) (some r) false = .ok (o, n, i) := by
      rw [call_eq false (by simp) (by simp [Tensors]) (by simpa using ⟨(hI r hr).1, (hI r hr).2.tensors⟩)]; exact e1
    simp [ATR, streamable, unpackArgs, arity, PyVal.tup, e1']

/-- **C82, ATR**: the period may be 0 as well, whether or not the shapes are known. -/
theorem C82_atr (p : Int) (s : List Nat) {v : Val α} {n : Nat} (hv : SeriesOf (.tup [tF s, tF s, tF s]) v n) :
    ((∃ r, call (ATR p) v none = .ok r) ↔ 0 ≤ p) ∧ ((∃ r, callStatic (ATR p) v none = .ok r) ↔ 0 ≤ p) := by
  rcases lt_or_ge p 0 with hp | hp
  · have key : ∀ x, HasSig x (.tup [tF s, tF s, tF s]) → ∃ e, (ATR p : Operator α).forwardStep x none = .error e := by
      intro x hx
      obtain ⟨xs, rfl, h'⟩ := hasSig_tup_inv hx
      rcases h' with _ | ⟨h1, _ | ⟨h2, _ | ⟨h3, ⟨⟩⟩⟩⟩
      obtain ⟨a, rfl⟩ := hasSig_tF h1
      obtain ⟨b, rfl⟩ := hasSig_tF h2
      obtain ⟨c, rfl⟩ := hasSig_tF h3
      exact ⟨.valueError, by simp [ATR, streamable, unpackArgs, arity, PyVal.tup, vS, rma_neg hp]⟩
    exact ⟨iff_of_false (not_ok (rejects_step hv key)) (by omega), iff_of_false (static_rejects_step hv key) (by omega)⟩
  · lift p to Nat using hp
    have hr := basic_regular (α := α) (.atr (p : Int))
    obtain ⟨h1, h2⟩ := callStatic_steady hr.1 hr.2 (atr_steady p s) hv
    exact ⟨iff_of_true h2 (by omega), iff_of_true (h1 ▸ h2) (by omega)⟩

theorem macd_steady (slow fast m : Nat) (s : List Nat) : (MACD (slow : Int) fast m : Operator α).Steady (tF s) (.tup [tF s, tF s, tF s, tF s, tF s])
    (.tup [tI [], tAvg slow s, tAvg fast s, tAvg m s]) := by
  obtain ⟨I, hI, hf, hn⟩ := ema_steady (α := α) slow s
  obtain ⟨J, hJ, gf, gn⟩ := ema_steady (α := α) fast s
  obtain ⟨L, hL, lf, ln⟩ := ema_steady (α := α) m s
  have F : ∀ {p : Nat} (a : Idx s → α), call (EMA (p : Int)) (vF a) none false = (EMA (p : Int)).forwardStep (vF a) none := fun a => by
    rw [call_eq false (by simp) (by simp [Tensors]) (by simp)]; simp
  have N : ∀ {p q : Nat} (a : Idx s → α) (r : Val α), r.WF ∧ HasSig r (tAvg q s) → call (EMA (p : Int)) (vF a) (some r) false = (EMA (p : Int)).forwardStep (vF a) (some r) :=
    fun a r hr => by rw [call_eq false (by simp) (by simp [Tensors]) (by simpa using ⟨hr.1, hr.2.tensors⟩)]; simp
  have cond : ∀ (b : Bool) (u w : Idx s → α) (x y : Val α), L x → L y → ∃ (u' : Idx s → α) (x' : Val α), L x' ∧
      tfCond b (.node .tuple [vF u, x]) (.node .tuple [vF w, y]) = .ok (.node .tuple [vF u', x']) := by
    intro b u w x y hx hy
    have := tfCond_tup2 (b := b) (x := vF u) (y := x) (x' := vF w) (y' := y) (tx := .leaf .float) (by simp) (hL x hx).1 (by simp) (hL y hy).1
      (HasType_iff.2 rfl) (hL x hx).2.hasType (HasType_iff.2 rfl) (hL y hy).2.hasType (by simp [flatten])
    cases b
    · exact ⟨w, y, hy, this⟩
    · exact ⟨u, x, hx, this⟩
  refine ⟨fun t => ∃ (k : Int) (a b c : Val α), t = .tup [vI k, a, b, c] ∧ I a ∧ J b ∧ L c, ?_, ?_, ?_⟩
  · rintro _ ⟨k, a, b, c, rfl, ha, hb, hc⟩
    exact ⟨by simp [WF_tup, (hI a ha).1, (hJ b hb).1, (hL c hc).1], hasSig_tup (.cons rfl (.cons (hI a ha).2 (.cons (hJ b hb).2 (.cons (hL c hc).2 .nil))))⟩
  · intro x hw hx
    obtain ⟨x, rfl⟩ := hasSig_tF hx
    obtain ⟨o1, n1, i1, e1, e2, e3, e4⟩ := hf (vF x) (by simp) rfl
    obtain ⟨o2, n2, i2, f1, f2, f3, f4⟩ := gf (vF x) (by simp) rfl
    obtain ⟨o1, rfl⟩ := hasSig_tF e2.2
    obtain ⟨o2, rfl⟩ := hasSig_tF f2.2
    obtain ⟨o3, n3, i3, g1, g2, g3, g4⟩ := lf (vF (macdDiff o2 o1 0 ((slow : Int) - 1))) (by simp) rfl
    obtain ⟨o3, rfl⟩ := hasSig_tF g2.2
    obtain ⟨u, y, hy, hc⟩ := cond (decide (1 < slow)) (fun _ => Arith.zero) o3 i3 n3 g4 g3
    refine ⟨.tup [vF o1, vF o2, vF (macdDiff o2 o1 0 ((slow : Int) - 1)), vF u, vF (macdDiff (macdDiff o2 o1 0 ((slow : Int) - 1)) u 0 ((slow : Int) + m - 2))], .tup [vI 1, n1, n2, y], .tup [vI 0, i1, i2, i3], ?_, ⟨?_, ?_⟩, ⟨1, n1, n2, y, rfl, e3, f3, hy⟩, ⟨0, i1, i2, i3, rfl, e4, f4, g4⟩⟩
    · simp [MACD, streamable, unpackArgs, arity, PyVal.tup, F, e1, f1, g1, hc]
    · simp [WF_tup]
    · rfl
  · rintro x _ hw hx ⟨k, a, b, c, rfl, ha, hb, hc⟩
    obtain ⟨x, rfl⟩ := hasSig_tF hx
    obtain ⟨o1, n1, i1, e1, e2, e3, e4⟩ := hn (vF x) a (by simp) rfl ha
    obtain ⟨o2, n2, i2, f1, f2, f3, f4⟩ := gn (vF x) b (by simp) rfl hb
    obtain ⟨o1, rfl⟩ := hasSig_tF e2.2
    obtain ⟨o2, rfl⟩ := hasSig_tF f2.2
    obtain ⟨o3, n3, i3, g1, g2, g3, g4⟩ := ln (vF (macdDiff o2 o1 k ((slow : Int) - 1))) c (by simp) rfl hc
    obtain ⟨o3, rfl⟩ := hasSig_tF g2.2
    obtain ⟨u, y, hy, hcc⟩ := cond (decide (k < (slow : Int) - 1)) (fun _ => Arith.zero) o3 c n3 hc g3
    refine ⟨.tup [vF o1, vF o2, vF (macdDiff o2 o1 k ((slow : Int) - 1)), vF u, vF (macdDiff (macdDiff o2 o1 k ((slow : Int) - 1)) u k ((slow : Int) + m - 2))], .tup [vI (k + 1), n1, n2, y], .tup [vI k, i1, i2, i3], ?_, ⟨?_, ?_⟩, ⟨k + 1, n1, n2, y, rfl, e3, f3, hy⟩, ⟨k, i1, i2, i3, rfl, e4, f4, g4⟩⟩
    · simp [MACD, streamable, unpackArgs, arity, PyVal.tup, N _ _ (hI a ha), N _ _ (hJ b hb), N _ _ (hL c hc), e1, f1, g1, hcc]
    · simp [WF_tup]
    · rfl


theorem macd_neg {slow fast m : Int} (h : ¬ (0 ≤ slow ∧ 0 ≤ fast ∧ 0 ≤ m)) {s : List Nat} (a : Idx s → α) : ∃ e, (MACD slow fast m).forwardStep (vF a) none = .error e := by
  rcases hr : (MACD slow fast m).forwardStep (vF a) none with e | r
  · exact ⟨e, rfl⟩
  · exfalso
    rcases lt_or_ge slow 0 with hs | hs
    · simp [MACD, streamable, unpackArgs, arity, ema_neg hs] at hr
    lift slow to Nat using hs
    rcases lt_or_ge fast 0 with hf | hf
    · simp only [MACD, streamable, unpackArgs, bind_eq_ok] at hr
      simp [arity, ema_neg hf] at hr
    lift fast to Nat using hf
    have hm : m < 0 := by omega
    simp [MACD, streamable, unpackArgs, arity, bind_eq_ok, ema_neg hm] at hr

/-- **C82, MACD and its signal**: each of the three periods may be 0 as well, whether or not the shapes are known. -/
theorem C82_macd (slow fast m : Int) (s : List Nat) {v : Val α} {n : Nat} (hv : SeriesOf (tF s) v n) :
    ((∃ r, call (MACD slow fast m) v none = .ok r) ↔ 0 ≤ slow ∧ 0 ≤ fast ∧ 0 ≤ m) ∧
    ((∃ r, callStatic (MACD slow fast m) v none = .ok r) ↔ 0 ≤ slow ∧ 0 ≤ fast ∧ 0 ≤ m) := by
  by_cases h : 0 ≤ slow ∧ 0 ≤ fast ∧ 0 ≤ m
  · obtain ⟨h1, h2, h3⟩ := id h
    lift slow to Nat using h1
    lift fast to Nat using h2
    lift m to Nat using h3
    have hr := basic_regular (α := α) (.macd (slow : Int) fast m)
    obtain ⟨h1, h2⟩ := callStatic_steady hr.1 hr.2 (macd_steady slow fast m s) hv
    exact ⟨iff_of_true h2 h, iff_of_true (h1 ▸ h2) h⟩
  · have key : ∀ x, HasSig x (tF s) → ∃ e, (MACD slow fast m : Operator α).forwardStep x none = .error e := by
      intro x hx
      obtain ⟨a, rfl⟩ := hasSig_tF hx
      exact macd_neg h a
    exact ⟨iff_of_false (not_ok (rejects_step hv key)) h, iff_of_false (static_rejects_step hv key) h⟩
theorem C82_macd_signal (slow fast m : Int) (s : List Nat) {v : Val α} {n : Nat} (hv : SeriesOf (tF s) v n) :
    ((∃ r, call (MACDSignal slow fast m) v none = .ok r) ↔ 0 ≤ slow ∧ 0 ≤ fast ∧ 0 ≤ m) ∧
    ((∃ r, callStatic (MACDSignal slow fast m) v none = .ok r) ↔ 0 ≤ slow ∧ 0 ≤ fast ∧ 0 ≤ m) := by
  by_cases h : 0 ≤ slow ∧ 0 ≤ fast ∧ 0 ≤ m
  · obtain ⟨h1, h2, h3⟩ := id h
    lift slow to Nat using h1
    lift fast to Nat using h2
    lift m to Nat using h3
    have hst : (MACDSignal (slow : Int) fast m : Operator α).Steady (tF s) (tI s)
        (.tup ((List.range 4).map fun k => [.tup [tI [], tAvg slow s, tAvg fast s, tAvg m s], .unit, .tup [tB [], tF s], tSet].getD k .unit)) :=
      Compose_steady (T := fun k => [tF s, .tup [tF s, tF s, tF s, tF s, tF s], tF s, tI s, tI s].getD k .unit) (by simp) fun k hk => by
        match k, hk with
        | 0, _ => exact macd_steady slow fast m s
        | 1, _ => exact (TypedIn.select (C := fun _ => True) (ls := [tF s, tF s, tF s, tF s, tF s]) 4 (by simp)).steady
        | 2, _ => exact (TypedIn.zeroCrossover (C := fun _ => True) s).steady
        | 3, _ => exact (TypedIn.setDuringInt (C := fun _ => True) 0 _ trivial (by simp [flatten])).steady
    obtain ⟨h1, h2⟩ := callStatic_steady (MACDSignal_lib _ _ _).ok.sane (MACDSignal_lib _ _ _).ok.uniform hst hv
    exact ⟨iff_of_true h2 h, iff_of_true (h1 ▸ h2) h⟩
  · have key : ∀ x, HasSig x (tF s) → ∃ e, (MACDSignal slow fast m : Operator α).forwardStep x none = .error e := by
      intro x hx
      obtain ⟨a, rfl⟩ := hasSig_tF hx
      obtain ⟨e, he⟩ := macd_neg h a
      refine ⟨e, ?_⟩
      have : call (MACD slow fast m) (vF a) none false = .error e := by
        rw [call_eq false (by simp) (by simp [Tensors]) (by simp)]; simpa using he
      simp [MACDSignal, Compose, metaStreamable, composeStep, opStates, composeLoop, this]
    exact ⟨iff_of_false (not_ok (rejects_step hv key)) h, iff_of_false (static_rejects_step hv key) h⟩
end

/-! ### Cases -/

/-- two candles -/
theorem two_candles : SeriesOf (.tup [tF [], tF [], tF []]) (candles [⟨XR.fin (2 : ℚ), .fin 1, .fin 3⟩, ⟨.fin 3, .fin 2, .fin 5⟩]) 2 :=
  ⟨(candles_ok _).1, (candles_ok _).2.1, _, (candles_ok _).2.2, by simp, rfl, by simp only [List.mem_map]; rintro _ ⟨a, -, rfl⟩; rfl⟩
/-- two candles, each with a signal -/
theorem two_quotes : SeriesOf (.tup [tF [], tF [], tF [], tI []])
    (.tup [vSBuf [XR.fin (1 : ℚ), .fin 2], vSBuf [.fin 3, .fin 5], vSBuf [.fin 2, .fin 3], vIBuf [1, 0]]) 2 := by
  have h : Quotes (.tup [vSBuf [XR.fin (1 : ℚ), .fin 2], vSBuf [.fin 3, .fin 5], vSBuf [.fin 2, .fin 3], vIBuf [1, 0]])
    [⟨XR.fin (1 : ℚ), .fin 3, .fin 2, .inr 1⟩, ⟨.fin 2, .fin 5, .fin 3, .inr 0⟩] := ⟨_, rfl, .inr ⟨_, rfl, rfl⟩⟩
  exact ⟨h.ok.1, h.ok.2.1, _, h.ok.2.2, by simp, rfl, by simp only [List.map_cons, List.map_nil, List.mem_cons, List.not_mem_nil, or_false]; rintro _ (rfl | rfl) <;> rfl⟩

example := C82_volatility (by simp) 0 2 three_ok
example := C82_crossover 0 2 [] three_ok
example := C82_crossover_signal 3 (-1) [] three_ok
example := C82_auto (p := 2) (by norm_num) 0 [] three_ok
example := C82_atr 0 [] two_candles
example := C82_riskRatio ⟨1, 2, 0, none⟩ two_quotes
example := C82_macd 0 0 2 [] three_ok
example := C82_macd_signal 2 0 (-1) [] three_ok
/-- the rejected periods run in the model when shapes are unknown -/
example : (call (SMACrossover 0 2) (series [1, 2, 4]) none).isOk = true ∧ callStatic (SMACrossover 0 2) (series [1, 2, 4]) none = .error .valueError := by
  constructor <;> decide +kernel
example : callStatic (Volatility 0 2) (series [1, 2, 4]) none = .error .valueError := by decide +kernel
example : (callStatic (MACDSignal 2 0 0) (series [1, 2, 4]) none).isOk = true := by decide +kernel
end TS
