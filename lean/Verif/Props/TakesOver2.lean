import Verif.Props.TakesOver
/-
C93: returns, skewness, Sharpe ratio and RSI that are called with a state of another period.
-/
namespace TS
open PyVal
variable {α : Type} [TFNum α] {p q : Nat}

theorem pyIndex_nat {A : Type} {l : List A} {k : Nat} (hk : k < l.length) : pyIndex l (k : Int) = .ok l[k] := by
  simp only [pyIndex]
  rw [if_neg (by omega), if_neg (by omega), Int.toNat_natCast, List.getElem?_eq_getElem hk]

theorem pyIndex_beyond {A : Type} {l : List A} {k : Nat} (hk : l.length ≤ k) : pyIndex l (k : Int) = .error .indexError := by
  simp only [pyIndex]
  rw [if_neg (by omega), if_neg (by omega), Int.toNat_natCast, List.getElem?_eq_none hk]

/-- returns with a shorter period: as if it had always been the period -/
theorem return_takesOver (hz : TFNum.eq (Arith.zero : α) (Arith.ofRat 0) = true) (f : α → α → α) (hp : 0 < p) (hq : p ≤ q) : TakesOver (returnOp f (q : Int)) (returnOp f (p : Int)) vSBuf vSBuf 0 (fun h k => growth f p (h ++ k)) := by
  have hq0 : 0 < q := by omega
  refine takesOver_of (return_tracks hz f hq0) nums_ok (out' := fun _ h => vS (growth f p h)) (st' := fun _ => retState q) (fun xs hx _ => ⟨{
      first := fun x hx' => absurd hx'.1 (not_lt_one hx)
      next := fun h x _ => ?_
      enc_ok := (return_tracks hz f hq0).enc_ok
      out_ok := ⟨.leaf (.float, []), fun h _ => ⟨by simp, rfl⟩⟩
      st_ok := ⟨_, retState_ok q⟩ }, rfl⟩) isSeries_vSBuf (fun _ _ => rfl)
  have hl : lagged Arith.zero p (h ++ [x]) = (padded Arith.zero q h)[p - 1]'(by simp; omega) := by
    rw [lagged_eq hp, padded_getElem (by omega), padded_getElem (by omega)]
  have i0 : pyIndex (padded (Arith.zero : α) q h) ((p : Int) - 1) = .ok (lagged Arith.zero p (h ++ [x])) := by
    rw [hl, show (p : Int) - 1 = ((p - 1 : Nat) : Int) by omega]
    exact pyIndex_nat _
  have key : (if decide ((h.length : Int) < (p : Int) - 1) || TFNum.eq (lagged Arith.zero p (h ++ [x])) (Arith.ofRat 0) then Arith.zero else f x (lagged Arith.zero p (h ++ [x]))) = growth f p (h ++ [x]) := by
    simp only [growth, getLastD_snoc]
    by_cases h1 : h.length + 1 < p
    · rw [if_pos (by simp; left; omega), if_pos (by left; simp; omega)]
    · by_cases h2 : h.length + 1 = p
      · have : lagged Arith.zero p (h ++ [x]) = Arith.zero := by
          rw [lagged, List.getElem?_eq_none (by simp; omega)]; rfl
        rw [if_pos (by simp [this, hz]), if_pos (by left; simp; omega)]
      · by_cases h3 : TFNum.eq (lagged Arith.zero p (h ++ [x])) (Arith.ofRat 0) = true
        · rw [if_pos (by simp [h3]), if_pos (.inr h3)]
        · rw [if_neg (by simp [h3]; omega), if_neg (by simp [h3]; omega)]
  simp [returnOp, streamable, unpackArgs, arity, returnStep, i0, roll_padded hq0, retState]
  funext _
  simpa using key

/-- **C93 Return**: called with a state of a longer period, it goes on as if it had got all the samples itself. -/
theorem C93_return (hz : TFNum.eq (Arith.zero : α) (Arith.ofRat 0) = true) (hp : 0 < p) (hq : p ≤ q) : TakesOver (Return (q : Int) : Operator α) (Return (p : Int)) vSBuf vSBuf 0
    (fun h k => growth (fun now before => now / before - Arith.ofRat 1) p (h ++ k)) := return_takesOver hz _ hp hq
example := C93_return (α := XR ℚ) (by simp) (p := 2) (q := 5) (by norm_num) (by norm_num)

/-- **C93 LogarithmicReturn** -/
theorem C93_logReturn (hz : TFNum.eq (Arith.zero : α) (Arith.ofRat 0) = true) (hp : 0 < p) (hq : p ≤ q) : TakesOver (LogReturn (q : Int) : Operator α) (LogReturn (p : Int)) vSBuf vSBuf 0
    (fun h k => growth (fun now before => Arith.log (now / before)) p (h ++ k)) := return_takesOver hz _ hp hq
example := C93_logReturn (α := XR ℚ) (by simp) (p := 2) (q := 5) (by norm_num) (by norm_num)

omit [TFNum α] in
/-- An operator whose first step from a state fails cannot be streamed from it. -/
theorem rejects_resume {op : Operator α} {st x v : Val α} {xs : List (Val α)} (hw : v.WF) (hl : flatten v ≠ []) (hin : IsSeries v (x :: xs)) (hst : st.WF ∧ Tensors st)
    (h : ∃ e, op.forwardStep x (some st) = .error e) : ∃ e, call op v (some st) = .error e := by
  obtain ⟨e, he⟩ := h
  refine ⟨e, ?_⟩
  rw [call_eq true hw hin.tensors (by simpa using hst), if_pos rfl, callStreamed_eq hw hl hin (by simp), List.head_cons, he]
  rfl

theorem return_longer (hz : TFNum.eq (Arith.zero : α) (Arith.ofRat 0) = true) (f : α → α → α) (hq : 0 < q) (hp : q < p) {xs : List α} (hx : xs ≠ []) :
    ∃ z sf s0, call (returnOp f (q : Int)) (vSBuf xs) none = .ok (z, sf, s0) ∧ ∀ ys : List α, ys ≠ [] → ∃ e, call (returnOp f (p : Int)) (vSBuf ys) (some sf) = .error e := by
  obtain ⟨z, h1, _⟩ := (return_tracks hz f hq).call_fresh hx (fun _ _ _ => trivial) (nums_ok xs).1 (nums_ok xs).2.1 (nums_ok xs).2.2
  refine ⟨z, _, _, h1, fun ys hys => ?_⟩
  obtain ⟨y, ys, rfl⟩ := List.exists_cons_of_ne_nil hys
  refine rejects_resume (nums_ok _).1 (nums_ok _).2.1 (by simpa using (nums_ok (y :: ys)).2.2) ⟨(retState_ok q xs).1, by simp [retState, Tensors, flatten, vSBuf]⟩ ⟨.indexError, ?_⟩
  have i0 : pyIndex (padded (Arith.zero : α) q xs) ((p : Int) - 1) = .error .indexError := by
    rw [show (p : Int) - 1 = ((p - 1 : Nat) : Int) by omega]
    exact pyIndex_beyond (by simp; omega)
  simp [returnOp, streamable, unpackArgs, arity, returnStep, i0, retState]

/-- **C93 Return, longer period**: it cannot go on. -/
theorem C93_return_longer (hz : TFNum.eq (Arith.zero : α) (Arith.ofRat 0) = true) (hq : 0 < q) (hp : q < p) {xs : List α} (hx : xs ≠ []) :
    ∃ z sf s0, call (Return (q : Int)) (vSBuf xs) none = .ok (z, sf, s0) ∧ ∀ ys : List α, ys ≠ [] → ∃ e, call (Return (p : Int)) (vSBuf ys) (some sf) = .error e := return_longer hz _ hq hp hx
example := C93_return_longer (α := XR ℚ) (by simp) (p := 3) (q := 2) (by norm_num) (by norm_num) (xs := [.fin 1, .fin 2]) (by simp)

/-- **C93 LogarithmicReturn, longer period** -/
theorem C93_logReturn_longer (hz : TFNum.eq (Arith.zero : α) (Arith.ofRat 0) = true) (hq : 0 < q) (hp : q < p) {xs : List α} (hx : xs ≠ []) :
    ∃ z sf s0, call (LogReturn (q : Int)) (vSBuf xs) none = .ok (z, sf, s0) ∧ ∀ ys : List α, ys ≠ [] → ∃ e, call (LogReturn (p : Int)) (vSBuf ys) (some sf) = .error e := return_longer hz _ hq hp hx
example := C93_logReturn_longer (α := XR ℚ) (by simp) (p := 3) (q := 2) (by norm_num) (by norm_num) (xs := [.fin 1, .fin 2]) (by simp)

/-- skewness and Sharpe ratio: as for the local extrema -/
theorem windowStat_mixed (stat : List α → α) (hq : 0 < q) (h : List α) (x : α) : windowStatStep stat (p : Int) x (some (padded Arith.zero q h)) (some h.length) =
    .ok (stat (if (h ++ [x]).length ≤ p then window q (h ++ [x]) else padded Arith.zero q (h ++ [x])), (padded Arith.zero q (h ++ [x]), ((h ++ [x]).length : Int)), (padded Arith.zero q h, (h.length : Int))) := by
  simp only [windowStatStep, pure_eq_ok, ok_bind, Option.getD_some, roll_padded hq]
  by_cases hp : (h ++ [x]).length ≤ p
  · rw [if_pos hp, if_pos (by simp at hp; omega)]
    by_cases hh : (h ++ [x]).length ≤ q
    · rw [pyTake_padded hh (by simp), List.length_append]; simp
    · rw [padded_eq_window (by omega), pyTake, if_neg (by omega), List.take_of_length_le (by simp [window])]; simp
  · rw [if_neg hp, if_neg (by simp at hp; omega)]; simp

/-- **C93 Skewness**: that of the last `q` samples, but when more than `p` and fewer than `q` have come the zeros in the buffer count. -/
theorem C93_skewness (hq : 0 < q) : TakesOver (Skewness (q : Int) : Operator α) (Skewness (p : Int)) vSBuf vSBuf 0
    (fun h k => computeSkewness (if (h ++ k).length ≤ p then window q (h ++ k) else padded Arith.zero q (h ++ k))) :=
  takesOver_of (skewness_tracks hq) nums_ok (out' := fun _ h => vS (computeSkewness (if h.length ≤ p then window q h else padded Arith.zero q h))) (st' := fun _ => sbufState q) (fun xs hx _ => ⟨{
      first := fun x hx' => absurd hx'.1 (not_lt_one hx)
      next := fun h x _ => by
        have := windowStat_mixed (p := p) computeSkewness hq h x
        simp [Skewness, streamable, unpackArgs, arity, this, sbufState]
      enc_ok := (skewness_tracks hq).enc_ok
      out_ok := ⟨.leaf (.float, []), fun h _ => ⟨by simp, rfl⟩⟩
      st_ok := ⟨_, sbufState_ok q⟩ }, rfl⟩) isSeries_vSBuf (fun _ _ => rfl)
example := C93_skewness (α := XR ℚ) (p := 3) (q := 5) (by norm_num)

/-- **C93 SharpeRatio** -/
theorem C93_sharpe (hq : 0 < q) : TakesOver (SharpeRatio (q : Int) : Operator α) (SharpeRatio (p : Int)) vSBuf2 vSBuf 0
    (fun h k => sharpe (if (h ++ k).length ≤ p then window q ((h ++ k).map fun z => z.1 - z.2) else padded Arith.zero q ((h ++ k).map fun z => z.1 - z.2))) :=
  takesOver_of (sharpe_tracks hq) numPairs_ok (out' := fun _ h => vS (sharpe (if h.length ≤ p then window q (excess h) else padded Arith.zero q (excess h)))) (st' := fun _ h => sbufState q (excess h)) (fun xs hx _ => ⟨{
      first := fun x hx' => absurd hx'.1 (not_lt_one hx)
      next := fun h x _ => by
        have := windowStat_mixed (p := p) computeSharpe hq (excess h) (x.1 - x.2)
        simp only [excess, List.length_map, List.length_append] at this
        simp [SharpeRatio, streamable, unpackArgs, arity, this, sbufState, excess, computeSharpe_eq]
      enc_ok := (sharpe_tracks hq).enc_ok
      out_ok := ⟨.leaf (.float, []), fun h _ => ⟨by simp, rfl⟩⟩
      st_ok := ⟨_, fun h => sbufState_ok q _⟩ }, rfl⟩) isSeries_vSBuf (fun _ _ => rfl)
example := C93_sharpe (α := XR ℚ) (p := 3) (q := 5) (by norm_num)

/-- the average of the gains that goes on with the weights of another period -/
def gainOver (p q : Nat) (xs h : List α) : α := ((changes h).drop (xs.length - 1)).foldl (fun g x => (g * Arith.ofInt ((p : Int) - 1) + Arith.max (Arith.ofRat 0) x) / Arith.ofInt p) (avgGain q (changes xs))
/-- the same for the losses -/
def lossOver (p q : Nat) (xs h : List α) : α := ((changes h).drop (xs.length - 1)).foldl (fun g x => (g * Arith.ofInt ((p : Int) - 1) + - Arith.min (Arith.ofRat 0) x) / Arith.ofInt p) (avgLoss q (changes xs))

theorem rsi_over (hq : 0 < q) {xs h : List α} (hn : max p q + 1 ≤ xs.length) (hh : xs.length ≤ h.length) (x : α) :
    tfCaseExclusive [(decide ((h.length : Int) = p), ((rsiFirstGainLoss x (padded Arith.zero q h)).1, (rsiFirstGainLoss x (padded Arith.zero q h)).2, computeRsi (rsiFirstGainLoss x (padded Arith.zero q h)).1 (rsiFirstGainLoss x (padded Arith.zero q h)).2)),
      (decide ((h.length : Int) < p), (Arith.ofRat 0, Arith.ofRat 0, Arith.ofRat 0))]
      ((rsiDefaultGainLoss (p : Int) x ((padded Arith.zero q h)[0]'(by simpa using hq)) (gainOver p q xs h) (lossOver p q xs h)).1, (rsiDefaultGainLoss (p : Int) x ((padded Arith.zero q h)[0]'(by simpa using hq)) (gainOver p q xs h) (lossOver p q xs h)).2,
        computeRsi (rsiDefaultGainLoss (p : Int) x ((padded Arith.zero q h)[0]'(by simpa using hq)) (gainOver p q xs h) (lossOver p q xs h)).1 (rsiDefaultGainLoss (p : Int) x ((padded Arith.zero q h)[0]'(by simpa using hq)) (gainOver p q xs h) (lossOver p q xs h)).2) =
    .ok (gainOver p q xs (h ++ [x]), lossOver p q xs (h ++ [x]), computeRsi (gainOver p q xs (h ++ [x])) (lossOver p q xs (h ++ [x]))) := by
  have h1 : ¬ ((h.length : Int) = p) := by omega
  have h2 : ¬ ((h.length : Int) < p) := by omega
  have hne : h ≠ [] := by rintro rfl; rw [List.length_nil] at hh; omega
  have hl : (padded Arith.zero q h)[0]'(by simpa using hq) = h.getLast hne := by
    rw [padded_getElem hq, List.getElem?_eq_getElem (by simp; omega)]
    simp [List.getLast_eq_getElem]
  have hd : (changes (h ++ [x])).drop (xs.length - 1) = (changes h).drop (xs.length - 1) ++ [x - h.getLast hne] := by
    rw [changes_snoc hne, List.drop_append_of_le_length (by rw [changes_length]; omega)]
  have e : rsiDefaultGainLoss (p : Int) x ((padded Arith.zero q h)[0]'(by simpa using hq)) (gainOver p q xs h) (lossOver p q xs h) = (gainOver p q xs (h ++ [x]), lossOver p q xs (h ++ [x])) := by
    rw [hl]
    simp only [gainOver, lossOver, hd, List.foldl_append, List.foldl_cons, List.foldl_nil, rsiDefaultGainLoss]
  simp only [tfCaseExclusive, h1, h2, decide_false, tfCase, e]
  simp

/-- **C93 RSI**: the averages of gains and losses go on with the weights of period `p`. -/
theorem C93_rsi (hq : 0 < q) : TakesOver (RSI (q : Int) : Operator α) (RSI (p : Int)) vSBuf vSBuf (max p q + 1) (fun h k =>
    let d := (changes (h ++ k)).drop (h.length - 1)
    Arith.ofRat 100 - Arith.ofRat 100 / (Arith.ofRat 1 + d.foldl (fun g x => (g * Arith.ofInt ((p : Int) - 1) + Arith.max (Arith.ofRat 0) x) / Arith.ofInt p) (avgGain q (changes h)) /
      d.foldl (fun g x => (g * Arith.ofInt ((p : Int) - 1) + - Arith.min (Arith.ofRat 0) x) / Arith.ofInt p) (avgLoss q (changes h)))) := by
  refine takesOver_of (rsi_tracks hq) nums_ok (out' := fun xs h => vS (computeRsi (gainOver p q xs h) (lossOver p q xs h)))
    (st' := fun xs h => .tup [vI h.length, vSBuf (padded Arith.zero q h), vS (gainOver p q xs h), vS (lossOver p q xs h)]) (fun xs hx hn => ⟨{
      first := fun x hx' => absurd hx'.1 (not_lt_one hx)
      next := fun h x hV => ?_
      enc_ok := (rsi_tracks hq).enc_ok
      out_ok := ⟨.leaf (.float, []), fun h _ => ⟨by simp, rfl⟩⟩
      st_ok := ⟨.tup [.leaf .int, .leaf .float, .leaf .float, .leaf .float], fun h => ⟨by simp [WF_tup], HasType_iff.2 rfl⟩⟩ }, ?_⟩) isSeries_vSBuf (fun _ _ => rfl)
  · have hl : xs.length ≤ h.length := by have := hV.1; simp at this; omega
    have c0 := rsi_over (p := p) hq hn hl x
    have i0 := pyIndex_zero (l := padded (Arith.zero : α) q h) (by simpa using hq)
    have l0 : call (Lag (p : Int)) (vS x) (some (vSBuf (padded Arith.zero q h))) false =
        .ok (vF (s := []) (lagged Arith.zero q ((h ++ [x]).map pt)), vSBuf (padded Arith.zero q (h ++ [x])), vSBuf (padded Arith.zero q h)) := by
      rw [← lag_inner_scalar hq]
      obtain ⟨t, ht⟩ : ∃ t, vSBuf (padded (Arith.zero : α) q h) = leaf (.f t) := ⟨_, rfl⟩
      rw [ht]
      simp [call, Lag, streamable, unpackArgs, arity, lagStep]
    simp [RSI, streamable, unpackArgs, arity, l0, i0]
    simp at c0
    simp [c0]
  · have : ¬ xs.length ≤ q := by omega
    have e : (changes xs).drop (xs.length - 1) = [] := List.drop_eq_nil_of_le (by rw [changes_length])
    simp only [rsiState, rsiGain, rsiLoss, if_neg this, gainOver, lossOver, e, List.foldl_nil]
example := C93_rsi (α := XR ℚ) (p := 3) (q := 5) (by norm_num)

end TS
