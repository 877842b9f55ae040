import Verif.Props.Overflow
import Verif.Props.Drawdown
import Verif.Props.Returns
/-
C87, continued: the relative strength index, the returns, the drawdown.
-/
namespace TS
open PyVal
variable {α : Type} [TFNum α] {p : Nat}

/-! ### Drawdown -/

theorem dd_at (n : Int) (x m : α) :
    (Drawdown : Operator α).forwardStep (vS x) (some (.tup [vS m, vI n])) =
      .ok (.tup [vS (drawdownStep x m n).1, vI (drawdownStep x m n).2.2], .tup [vS (drawdownStep x m n).2.1, vI (drawdownStep x m n).2.2], .tup [vS m, vI n]) := by
  simp [Drawdown, streamable, unpackArgs, arity]

theorem wrap_days (x m : α) (n : Int) : (drawdownStep x m (wrap32 n)).1 = (drawdownStep x m n).1 ∧ (drawdownStep x m (wrap32 n)).2.1 = (drawdownStep x m n).2.1 ∧
    wrap32 (drawdownStep x m (wrap32 n)).2.2 = wrap32 (drawdownStep x m n).2.2 := by
  refine ⟨rfl, rfl, ?_⟩
  simp only [drawdownStep]
  split
  · rfl
  · rw [wrap32_add_one]

/-- the drawdown and the wrapped number of days -/
def ddOut32 (h : List α) : α × Int := (drawdownOf (peakOf h.dropLast) (h.getLastD Arith.zero), wrap32 (daysSincePeak h.reverse))

theorem dd32_tracks : Tracks (Drawdown : Operator α).int32 Any vS (fun h => .tup [vS (ddOut32 h).1, vI (ddOut32 h).2])
    (fun h => .tup [vS (peakOf h), vI (wrap32 (daysSincePeak h.reverse))]) := by
  have key : ∀ (h : List α) x, (Drawdown : Operator α).int32.forwardStep (vS x) (some (.tup [vS (peakOf h), vI (wrap32 (daysSincePeak h.reverse))])) =
      .ok (.tup [vS (ddOut32 (h ++ [x])).1, vI (ddOut32 (h ++ [x])).2], .tup [vS (peakOf (h ++ [x])), vI (wrap32 (daysSincePeak (h ++ [x]).reverse))],
        .tup [vS (peakOf h), vI (wrap32 (daysSincePeak h.reverse))]) := by
    intro h x
    have e := drawdownStep_eq h x
    obtain ⟨w1, w2, w3⟩ := wrap_days x (peakOf h) (daysSincePeak h.reverse)
    rw [e] at w1 w2 w3
    rw [int32_step (dd_at _ _ _)]
    simp only [wrapVal_tup, List.map_cons, List.map_nil, wrapVal_vI, w1, w2, w3, wrap32_wrap32, wrapVal_leaf, Leaf.wrap32_f]
    simp only [← wrapVal_leaf, wrapVal_vI, w3, wrap32_wrap32, ddOut32, List.dropLast_concat, getLastD_snoc]
  refine ⟨fun x _ => ?_, fun h x _ => key h x, fun x => ⟨by simp, by simp [Tensors]⟩, ⟨.tup [.leaf (.float, []), .leaf (.int, [])], fun h _ => ⟨by simp [WF_tup], rfl⟩⟩,
    ⟨.tup [.leaf .float, .leaf .int], fun h => ⟨by simp [WF_tup], HasType_iff.2 rfl⟩⟩⟩
  have := key [] x
  rw [List.nil_append] at this
  rw [← this]
  simp [Operator.int32, Drawdown, streamable, unpackArgs, arity, peakOf, daysSincePeak]

/-- The drawdown itself does not depend on the counter of days under water, which is output modulo `2^32`: negative after `2^31` days. -/
theorem C87_drawdown : StreamsAs (Drawdown : Operator α).int32 vSBuf numInts
    (fun h => (drawdownOf (peakOf h.dropLast) (h.getLastD Arith.zero), wrap32 (daysSincePeak h.reverse))) :=
  dd32_tracks.streams nums_ok (dec := fun z : α × Int => .tup [vS z.1, vI z.2])
    (fun l => isSeries_tup_map (es := [fun z : α × Int => vS z.1, fun z => vI z.2]) (.cons (numSeries_map _ l) (.cons (intSeries_map _ l) .nil))) fun _ => rfl
example := C87_drawdown (α := XR ℚ)

/-! ### Returns -/

theorem ret_at (f : α → α → α) (n : Int) (x : α) {b : List α} (hp : 0 < p) (hb : p = b.length) :
    (returnOp f (p : Int)).forwardStep (vS x) (some (.tup [vI n, vSBuf b])) =
      .ok (vS (if decide (n < (p : Int) - 1) || TFNum.eq (b[p - 1]'(by omega)) (Arith.ofRat 0) then Arith.zero else f x (b[p - 1]'(by omega))),
        .tup [vI (n + 1), vSBuf (roll x b)], .tup [vI n, vSBuf b]) := by
  have i0 := pyIndex_last (l := b) hp hb.symm
  simp [returnOp, streamable, unpackArgs, arity, returnStep, i0]

theorem ret_at_none (f : α → α → α) (x : α) (hp : 0 < p) : (returnOp f (p : Int)).forwardStep (vS x) none =
    (returnOp f (p : Int)).forwardStep (vS x) (some (.tup [vI 0, vSBuf (padded Arith.zero p [])])) := by
  rw [ret_at f 0 x hp (by simp)]
  have i0 := pyIndex_last (l := padded (Arith.zero : α) p []) hp (by simp)
  simp only [returnOp, streamable, unpackArgs, arity, returnStep, List.append_nil, zerosBuf_natCast]
  simp [i0]

theorem ret32_tracks (hz : TFNum.eq (Arith.zero : α) (Arith.ofRat 0) = true) (f : α → α → α) (hp : 0 < p) :
    Tracks (returnOp f (p : Int)).int32 Any vS (fun h => vS (if Cold (p - 1) (h.length - 1) then Arith.zero else growth f p h))
      (fun h => .tup [vI (wrap32 h.length), vSBuf (padded Arith.zero p h)]) := by
  refine counted32 (st := fun n h => .tup [vI n, vSBuf (padded Arith.zero p h)]) (fun _ _ => rfl) (fun x => ret_at_none f x hp)
    (fun n h x => by rw [ret_at f n x hp (by simp), roll_padded hp]) (fun h x => ?_) ?_ ?_ ?_
  · rw [wrapVal_leaf, Leaf.wrap32_f, List.length_append, List.length_singleton, Nat.add_sub_cancel]
    have e : (p : Int) - 1 = ((p - 1 : Nat) : Int) := by omega
    simp only [e, wrap32_lt]
    by_cases hc : Cold (p - 1) h.length
    · simp [hc]
    · have hl := cold_len hc
      have e1 := lagged_eq (z := (Arith.zero : α)) hp h x
      simp only [hc, decide_false, Bool.false_or, if_false]
      rw [← e1, growth, getLastD_snoc]
      by_cases h2 : h.length + 1 = p
      · have e2 : lagged Arith.zero p (h ++ [x]) = (Arith.zero : α) := by
          rw [lagged, List.getElem?_eq_none (by simp; omega)]; rfl
        rw [e2, if_pos hz, if_pos (.inl (by simp; omega))]
      · by_cases h3 : TFNum.eq (lagged Arith.zero p (h ++ [x])) (Arith.ofRat 0) = true
        · rw [if_pos h3, if_pos (.inr h3)]
        · rw [if_neg h3, if_neg (by simp [h3]; omega)]
  · intro x; exact ⟨by simp, by simp [Tensors]⟩
  · exact ⟨.leaf (.float, []), fun h _ => ⟨by simp, rfl⟩⟩
  · exact ⟨.tup [.leaf .int, .leaf .float], fun n h => ⟨by simp [WF_tup], HasType_iff.2 rfl⟩⟩

/-- The returns and the logarithmic returns are zero while the counter is negative. -/
theorem C87_returns (hz : TFNum.eq (Arith.zero : α) (Arith.ofRat 0) = true) (hp : 0 < p) :
    StreamsAs (Return (p : Int) : Operator α).int32 vSBuf vSBuf (fun h => if Cold (p - 1) (h.length - 1) then Arith.zero else growth (fun v q => v / q - Arith.ofRat 1) p h) ∧
    StreamsAs (LogReturn (p : Int) : Operator α).int32 vSBuf vSBuf (fun h => if Cold (p - 1) (h.length - 1) then Arith.zero else growth (fun v q => Arith.log (v / q)) p h) :=
  ⟨(ret32_tracks hz _ hp).streams nums_ok isSeries_vSBuf fun _ => rfl, (ret32_tracks hz _ hp).streams nums_ok isSeries_vSBuf fun _ => rfl⟩
example := C87_returns (α := XR ℚ) (by decide) (p := 2) (by norm_num)

/-! ### Relative strength index -/

/-- the samples since the counter was last zero -/
def sinceZero {A : Type} (h : List A) : List A := h.drop ((h.length - 1) / 2 ^ 32 * 2 ^ 32)

/-- smoothed gain or loss with a counter that wraps around -/
def kept32 (p : Nat) (y : List α → α) (h : List α) : α := if h.length = 0 ∨ Cold p (h.length - 1) then Arith.ofRat 0 else y (changes (sinceZero h))

theorem rsi_at (hp : 0 < p) (n : Int) (x g l : α) (h : List α) {r : α × α × α}
    (hr : tfCaseExclusive [
      (decide (n = (p : Int)), ((rsiFirstGainLoss x (padded Arith.zero p h)).1, (rsiFirstGainLoss x (padded Arith.zero p h)).2,
        computeRsi (rsiFirstGainLoss x (padded Arith.zero p h)).1 (rsiFirstGainLoss x (padded Arith.zero p h)).2)),
      (decide (n < (p : Int)), (Arith.ofRat 0, Arith.ofRat 0, Arith.ofRat 0))]
    ((rsiDefaultGainLoss (p : Int) x ((padded Arith.zero p h)[0]'(by simpa using hp)) g l).1, (rsiDefaultGainLoss (p : Int) x ((padded Arith.zero p h)[0]'(by simpa using hp)) g l).2,
      computeRsi (rsiDefaultGainLoss (p : Int) x ((padded Arith.zero p h)[0]'(by simpa using hp)) g l).1
        (rsiDefaultGainLoss (p : Int) x ((padded Arith.zero p h)[0]'(by simpa using hp)) g l).2) = .ok r) :
    (RSI (p : Int) : Operator α).forwardStep (vS x) (some (.tup [vI n, vSBuf (padded Arith.zero p h), vS g, vS l])) =
      .ok (vS r.2.2, .tup [vI (n + 1), vSBuf (padded Arith.zero p (h ++ [x])), vS r.1, vS r.2.1], .tup [vI n, vSBuf (padded Arith.zero p h), vS g, vS l]) := by
  have i0 := pyIndex_zero (l := padded (Arith.zero : α) p h) (by simpa using hp)
  simp [RSI, streamable, unpackArgs, arity, lag_inner_scalar hp, i0]
  rw [hr]
  rfl

theorem rsi_case32 (hp : 0 < p) (h : List α) (x : α) :
    tfCaseExclusive [
      (decide (wrap32 h.length = (p : Int)), ((rsiFirstGainLoss x (padded Arith.zero p h)).1, (rsiFirstGainLoss x (padded Arith.zero p h)).2,
        computeRsi (rsiFirstGainLoss x (padded Arith.zero p h)).1 (rsiFirstGainLoss x (padded Arith.zero p h)).2)),
      (decide (wrap32 h.length < (p : Int)), (Arith.ofRat 0, Arith.ofRat 0, Arith.ofRat 0))]
    ((rsiDefaultGainLoss (p : Int) x ((padded Arith.zero p h)[0]'(by simpa using hp)) (kept32 p (avgGain p) h) (kept32 p (avgLoss p) h)).1,
      (rsiDefaultGainLoss (p : Int) x ((padded Arith.zero p h)[0]'(by simpa using hp)) (kept32 p (avgGain p) h) (kept32 p (avgLoss p) h)).2,
      computeRsi (rsiDefaultGainLoss (p : Int) x ((padded Arith.zero p h)[0]'(by simpa using hp)) (kept32 p (avgGain p) h) (kept32 p (avgLoss p) h)).1
        (rsiDefaultGainLoss (p : Int) x ((padded Arith.zero p h)[0]'(by simpa using hp)) (kept32 p (avgGain p) h) (kept32 p (avgLoss p) h)).2) =
    .ok (kept32 p (avgGain p) (h ++ [x]), kept32 p (avgLoss p) (h ++ [x]), if Cold p h.length then Arith.ofRat 0 else rsi p (sinceZero (h ++ [x]))) := by
  have hlen : (h ++ [x]).length - 1 = h.length := by simp
  by_cases hc : Cold p h.length
  · have h2 : wrap32 h.length < (p : Int) := wrap32_lt.2 hc
    have h1 : ¬ wrap32 h.length = (p : Int) := by omega
    simp only [tfCaseExclusive, h1, h2, decide_true, decide_false, tfCase]
    have hk : ∀ y : List α → α, kept32 p y (h ++ [x]) = Arith.ofRat 0 := fun y => if_pos (.inr (by rw [hlen]; exact hc))
    rw [hk, hk, if_pos hc]
    simp
  · have hc' := hc
    simp only [Cold, not_or] at hc'
    have hdm := Nat.div_add_mod h.length (2 ^ 32)
    have hn : wrap32 h.length = ((h.length % 2 ^ 32 : Nat) : Int) := by rw [wrap32_nat, if_pos (by omega)]
    obtain ⟨c, hcd⟩ : ∃ c, c = h.drop (h.length / 2 ^ 32 * 2 ^ 32) := ⟨_, rfl⟩
    have hcl : c.length = h.length % 2 ^ 32 := by rw [hcd, List.length_drop]; omega
    have hsplit : h = h.take (h.length / 2 ^ 32 * 2 ^ 32) ++ c := by rw [hcd, List.take_append_drop]
    have hb : padded (Arith.zero : α) p h = padded Arith.zero p c := by
      rw [padded_eq_window (by omega), padded_eq_window (by omega)]
      conv_lhs => rw [hsplit]
      rw [window, window, List.reverse_append, List.take_append_of_le_length (by simp; omega)]
    have hs : sinceZero (h ++ [x]) = c ++ [x] := by
      rw [sinceZero, hlen, List.drop_append_of_le_length (by omega), hcd]
    have hk : ∀ y : List α → α, kept32 p y h = if c.length ≤ p then Arith.ofRat 0 else y (changes c) := by
      intro y
      rw [kept32]
      by_cases hm : h.length % 2 ^ 32 = p
      · rw [if_pos (.inr (.inl (by omega))), if_pos (by omega)]
      · have hq : (h.length - 1) / 2 ^ 32 = h.length / 2 ^ 32 := by omega
        rw [if_neg (by simp only [Cold]; omega), if_neg (by omega), sinceZero, hq, ← hcd]
    have hk' : ∀ y : List α → α, kept32 p y (h ++ [x]) = y (changes (c ++ [x])) := by
      intro y
      rw [kept32, hlen, hs, if_neg (by simp [hc])]
    have main := rsi_case hp c x (wrap32 h.length) (by rw [hn, hcl])
    simp only [rsiGain, rsiLoss] at main
    simp only [← hk] at main
    simp only [hb, hk', hs, if_neg hc]
    rw [main, if_neg (by simp; omega), if_neg (by simp; omega)]

theorem rsi32_tracks (hp : 0 < p) : Tracks (RSI (p : Int) : Operator α).int32 Any vS
    (fun h => vS (if Cold p (h.length - 1) then Arith.ofRat 0 else rsi p (sinceZero h)))
    (fun h => .tup [vI (wrap32 h.length), vSBuf (padded Arith.zero p h), vS (kept32 p (avgGain p) h), vS (kept32 p (avgLoss p) h)]) := by
  have key : ∀ (h : List α) x, (RSI (p : Int) : Operator α).int32.forwardStep (vS x)
      (some (.tup [vI (wrap32 h.length), vSBuf (padded Arith.zero p h), vS (kept32 p (avgGain p) h), vS (kept32 p (avgLoss p) h)])) =
      .ok (vS (if Cold p ((h ++ [x]).length - 1) then Arith.ofRat 0 else rsi p (sinceZero (h ++ [x]))),
        .tup [vI (wrap32 (h ++ [x]).length), vSBuf (padded Arith.zero p (h ++ [x])), vS (kept32 p (avgGain p) (h ++ [x])), vS (kept32 p (avgLoss p) (h ++ [x]))],
        .tup [vI (wrap32 h.length), vSBuf (padded Arith.zero p h), vS (kept32 p (avgGain p) h), vS (kept32 p (avgLoss p) h)]) := by
    intro h x
    have w : ∀ (n : Int) (b : List α) (g l : α), wrapVal (.tup [vI n, vSBuf b, vS g, vS l]) = .tup [vI (wrap32 n), vSBuf b, vS g, vS l] := fun _ _ _ _ => rfl
    rw [int32_step (rsi_at hp _ x _ _ h (rsi_case32 hp h x)), w, w, wrapVal_leaf, Leaf.wrap32_f, wrap32_wrap32, wrap32_add_one, List.length_append, List.length_singleton,
      Nat.add_sub_cancel, Int.natCast_add, Int.natCast_one]
  refine ⟨fun x _ => ?_, fun h x _ => key h x, fun x => ⟨by simp, by simp [Tensors]⟩, ⟨.leaf (.float, []), fun h _ => ⟨by simp, rfl⟩⟩,
    ⟨.tup [.leaf .int, .leaf .float, .leaf .float, .leaf .float], fun h => ⟨by simp [WF_tup], HasType_iff.2 rfl⟩⟩⟩
  have := key [] x
  rw [List.nil_append] at this
  rw [← this, List.length_nil, Int.natCast_zero, wrap32_zero]
  have k0 : ∀ y : List α → α, kept32 p y [] = Arith.ofRat 0 := fun y => if_pos (.inl rfl)
  have i0 := pyIndex_zero (l := padded (Arith.zero : α) p []) (by simpa using hp)
  have i1 := lag_inner_scalar hp ([] : List α) x
  rw [k0, k0]
  simp only [Operator.int32, RSI, streamable, unpackArgs, arity, List.append_nil]
  simp [lag_inner_scalar_none hp, i0, i1]

/-- The relative strength index is zero while the counter is negative, forgets all samples, and starts again when the counter passes zero. -/
theorem C87_rsi (hp : 0 < p) : StreamsAs (RSI (p : Int) : Operator α).int32 vSBuf vSBuf (fun h => if Cold p (h.length - 1) then Arith.ofRat 0 else rsi p (sinceZero h)) :=
  (rsi32_tracks hp).streams nums_ok isSeries_vSBuf fun _ => rfl
example := C87_rsi (α := XR ℚ) (p := 2) (by norm_num)

end TS
