import Verif.Lemmas.TrackMarket
import Verif.Model.Signals
import Verif.Spec.Signals
import Verif.Lemmas.Coord
/-
ATR, Supertrend, Heikin-Ashi, drawdown, zero crossings and the risk ratio evaluator as functions of the history.
-/
namespace TS
open PyVal
variable {α : Type} [TFNum α]

/-! ### ATR -/

section
variable {p : Nat} {s : List Nat}

theorem trueRanges_snoc (h : List (CLH α)) (x : CLH α) :
    trueRanges (h ++ [x]) = trueRanges h ++ [trueRangeOf (lastClose h) x.low x.high] := by
  have : ∀ z : α, List.zipWith (fun prev (c : CLH α) => trueRangeOf prev c.low c.high) (z :: (h ++ [x]).map CLH.close) (h ++ [x]) =
      List.zipWith (fun prev (c : CLH α) => trueRangeOf prev c.low c.high) (z :: h.map CLH.close) h ++
        [trueRangeOf ((h.map CLH.close).getLastD z) x.low x.high] := by
    induction h with
    | nil => intro z; simp
    | cons a h ih =>
      intro z
      have := ih a.close
      simp only [List.cons_append, List.map_cons, List.zipWith_cons_cons] at this ⊢
      rw [this]
      congr 3
      cases h with
      | nil => simp
      | cons b t => simp [List.getLast?_eq_some_getLast]
  exact this _

theorem trueRange_scalar (low high prev : α) : trueRange (s := []) (pt low) (pt high) (pt prev) = trueRangeOf prev low high := rfl

/-- the state of `ATR(p)` -/
def atrState (p : Nat) (h : List (CLH α)) : Val α :=
  .tup [vS (lastClose h), avgState p (s := []) (rollAvg p) ((trueRanges h).map pt)]

theorem atrState_ok (p : Nat) (h : List (CLH α)) : (atrState p h).WF ∧
    HasType (atrState p h) (.tup [.leaf .float, .tup [.leaf .int, .leaf .float, .tup [.leaf .int, .leaf .float]]]) :=
  ⟨by simp [atrState, WF_tup, avgState_ok], hasType_tup (.cons (HasType_iff.2 rfl) (.cons (avgState_ok _ _ _).2 .nil))⟩

/-- value of `ATR(p)` after a history -/
def atrOf (p : Nat) (h : List (CLH α)) : α := rollAvg p (trueRanges h)

omit [TFNum α] in
theorem map_pt_apply (l : List α) (c : Idx []) : (l.map (pt (α := α))).map (· c) = l := by
  simp [Function.comp_def, pt]

theorem rollAvg_pt (p : Nat) (l : List α) : rollAvg p (l.map pt) = pt (rollAvg p l) := by
  funext c; rw [rollAvg_apply, map_pt_apply]; rfl

theorem movingStd_pt (p : Nat) (l : List α) : movingStd p (l.map pt) = pt (movingStd p l) := by
  funext c; rw [movingStd_apply, map_pt_apply]; rfl

theorem lastClose_snoc (h : List (CLH α)) (x : CLH α) : lastClose (h ++ [x]) = x.close := by simp [lastClose]

/-- encoding of candles for ATR -/
def encCLH (c : CLH α) : Val α := .tup [vS c.close, vS c.low, vS c.high]

omit [TFNum α] in
theorem encCLH_ok (c : CLH α) : (encCLH c).WF ∧ Tensors (encCLH c) :=
  ⟨by simp [WF_tup, encCLH], by simp [Tensors, flatten, flattens, encCLH]⟩

theorem atr_tracks (hp : 0 < p) : Tracks (ATR (p : Int) : Operator α) Any encCLH (fun h => vS (atrOf p h)) (atrState p) := by
  constructor
  · intro x _
    have := rma_inner_none (α := α) (p := p) (s := []) hp (pt (trueRangeOf Arith.zero x.low x.high))
    simp only [ATR, streamable, unpackArgs, arity, encCLH, PyVal.tup]
    simp
    have e : trueRange (s := []) (fun _ => x.low) (fun _ => x.high) (fun _ => Arith.zero) = trueRangeOf Arith.zero x.low x.high := rfl
    rw [e]
    have this' : call (RMA (p : Int)) (vS (trueRangeOf Arith.zero x.low x.high)) none false = _ := this
    rw [this']
    simp [atrState, atrOf, lastClose, trueRanges]
    exact rollAvg_pt p [_]
  · intro h x _
    have := rma_inner (α := α) (p := p) (s := []) hp ((trueRanges h).map pt) (pt (trueRangeOf (lastClose h) x.low x.high))
    have e : trueRange (s := []) (fun _ => x.low) (fun _ => x.high) (fun _ => lastClose h) = trueRangeOf (lastClose h) x.low x.high := rfl
    have this' : call (RMA (p : Int)) (vS (trueRangeOf (lastClose h) x.low x.high)) (some (avgState p (s := []) (rollAvg p) ((trueRanges h).map pt))) false = _ := this
    simp only [ATR, streamable, unpackArgs, arity, encCLH, PyVal.tup, atrState]
    simp
    rw [e, this']
    simp [atrOf, lastClose_snoc, trueRanges_snoc]
    have := rollAvg_pt p (trueRanges h ++ [trueRangeOf (lastClose h) x.low x.high])
    rw [List.map_append] at this
    exact this
  · exact encCLH_ok
  · exact ⟨.leaf (.float, []), fun h _ => ⟨by simp, rfl⟩⟩
  · exact ⟨_, atrState_ok p⟩

end

/-! ### Heikin-Ashi -/

/-- the candle before the first one -/
def noCandle : OHLC α := ⟨Arith.zero, Arith.zero, Arith.zero, Arith.zero⟩

/-- encoding of candles for Heikin-Ashi -/
def encOHLC (c : OHLC α) : Val α := .tup [vS c.opn, vS c.high, vS c.low, vS c.close]

/-- Heikin-Ashi candle after a history -/
def haOf (h : List (OHLC α)) : OHLC α := haCandle (h.dropLast.getLastD noCandle) (h.getLastD noCandle)

/-- the state of `HeikinAshi` -/
def haState (h : List (OHLC α)) : Val α := .tup [vS (h.getLastD noCandle).opn, vS (h.getLastD noCandle).close]

theorem heikinAshiCandle_eq (prev x : OHLC α) : heikinAshiCandle x.opn x.high x.low x.close prev.opn prev.close =
    ((haCandle prev x).opn, (haCandle prev x).high, (haCandle prev x).low, (haCandle prev x).close) := by
  by_cases h : TFNum.eq prev.opn (Arith.ofRat 0) = true <;> simp [heikinAshiCandle, haCandle, h]

omit [TFNum α] in
theorem encOHLC_ok (c : OHLC α) : (encOHLC c).WF ∧ Tensors (encOHLC c) :=
  ⟨by simp [WF_tup, encOHLC], by simp [Tensors, flatten, encOHLC]⟩

theorem ha_tracks : Tracks (HeikinAshi : Operator α) Any encOHLC (fun h => encOHLC (haOf h)) haState := by
  constructor
  · intro x _
    have := heikinAshiCandle_eq noCandle x
    simp [noCandle] at this
    simp [HeikinAshi, streamable, unpackArgs, arity, encOHLC, PyVal.tup, haState, haOf, noCandle, this]
  · intro h x _
    have := heikinAshiCandle_eq (h.getLastD noCandle) x
    simp at this
    simp [HeikinAshi, streamable, unpackArgs, arity, encOHLC, PyVal.tup, haState, haOf, this]
  · exact encOHLC_ok
  · exact ⟨.tup [.leaf (.float, []), .leaf (.float, []), .leaf (.float, []), .leaf (.float, [])], fun h _ => ⟨(encOHLC_ok _).1, rfl⟩⟩
  · exact ⟨.tup [.leaf .float, .leaf .float], fun h => ⟨by simp [haState, WF_tup], HasType_iff.2 rfl⟩⟩

/-! ### Drawdown -/

/-- outputs of `Drawdown` after a history -/
def ddOut (h : List α) : Val α :=
  .tup [vS (drawdownOf (peakOf h.dropLast) (h.getLastD Arith.zero)), vI (daysSincePeak h.reverse)]

/-- the state of `Drawdown` -/
def ddState (h : List α) : Val α := .tup [vS (peakOf h), vI (daysSincePeak h.reverse)]

theorem drawdownStep_eq (h : List α) (x : α) : drawdownStep x (peakOf h) (daysSincePeak h.reverse) =
    (drawdownOf (peakOf h) x, peakOf (h ++ [x]), daysSincePeak (h ++ [x]).reverse) := by
  simp [drawdownStep, drawdownOf, peakOf, daysSincePeak, drawdownError]
  exact ⟨rfl, rfl⟩

theorem drawdown_tracks : Tracks (Drawdown : Operator α) Any vS ddOut ddState := by
  constructor
  · intro x _
    have := drawdownStep_eq [] x
    simp [peakOf, daysSincePeak] at this
    simp [Drawdown, streamable, unpackArgs, arity, ddOut, ddState, this, peakOf, daysSincePeak]
  · intro h x _
    have := drawdownStep_eq h x
    simp at this
    simp [Drawdown, streamable, unpackArgs, arity, ddOut, ddState, this]
  · intro x; exact ⟨by simp, by simp [Tensors]⟩
  · exact ⟨.tup [.leaf (.float, []), .leaf (.int, [])], fun h _ => ⟨by simp [ddOut, WF_tup], rfl⟩⟩
  · exact ⟨.tup [.leaf .float, .leaf .int], fun h => ⟨by simp [ddState, WF_tup], HasType_iff.2 rfl⟩⟩

/-! ### Zero crossings -/

section
variable {s : List Nat}

/-- the state of `ZeroCrossoverSignal` -/
def zcState (h : List (Idx s → α)) : Val α := .tup [vB h.isEmpty, vF fun c => direction (h.map (· c))]

/-- output of `ZeroCrossoverSignal` after a history -/
def zcOut (h : List (Idx s → α)) : Val α := vIs fun c => TFNum.toInt (crossing (h.map (· c)))

theorem zcStep_eq (h : List α) (x : α) : zcStep x h.isEmpty (direction h) = (crossing (h ++ [x]), direction (h ++ [x])) := by
  cases h with
  | nil => simp [zcStep, crossing, direction, zcSign, orientation]
  | cons a t =>
    have e : (a :: t ++ [x]).dropLast = a :: t := by rw [List.dropLast_concat]
    simp only [zcStep, crossing, e, List.getLast?_concat]
    simp [direction, against, zcSign, orientation]
    try exact ⟨rfl, rfl⟩

theorem zc_tracks : Tracks (ZeroCrossoverSignal : Operator α) Any (vF (s := s)) zcOut zcState := by
  constructor
  · intro x _
    have := fun c => zcStep_eq [] (x c)
    simp [direction] at this
    simp [ZeroCrossoverSignal, streamable, unpackArgs, arity, zcOut, zcState, this, direction]
  · intro h x _
    have := fun c => zcStep_eq (h.map (· c)) (x c)
    simp at this
    simp [ZeroCrossoverSignal, streamable, unpackArgs, arity, zcOut, zcState, this]
    cases h <;> rfl
  · intro x; exact ⟨by simp, by simp [Tensors]⟩
  · exact ⟨.leaf (.int, s), fun h _ => ⟨by simp [zcOut], rfl⟩⟩
  · exact ⟨.tup [.leaf .bool, .leaf .float], fun h => ⟨by simp [zcState, WF_tup], HasType_iff.2 rfl⟩⟩

end

/-! ### Supertrend -/

section
variable {p : Nat} {factor : ℚ}

theorem supertrendCond_eq (b b' : Bands α) (prev atr : α) (x : CLH α) (h : bandsStep factor b prev atr x = some b') :
    supertrendCond factor x.close x.low x.high atr prev b.upper b.lower b.trend = .ok (b'.upper, b'.lower, b'.trend, b'.line) := by
  unfold bandsStep at h
  unfold supertrendCond
  by_cases h0 : TFNum.eq atr (Arith.ofRat 0) = true
  · simp only [h0, if_true] at h ⊢
    cases h
    rfl
  · simp only [h0] at h ⊢
    simp only [supertrendDefault]
    cases h1 : TFNum.lt b.upper x.close <;> cases h2 : TFNum.lt x.close b.lower <;> simp [h1, h2] at h
    · subst h
      simp [tfCaseExclusive, tfCase]
    · subst h
      simp [tfCaseExclusive, tfCase]
    · subst h
      simp [tfCaseExclusive, tfCase]

/-- the steps so far have not failed -/
def Trending (p : Nat) (factor : ℚ) (h : List (CLH α)) : Prop := (bandsOf p factor h).isSome

/-- the bands after a history without failure -/
def bandsD (p : Nat) (factor : ℚ) (h : List (CLH α)) : Bands α := (bandsOf p factor h).getD noBands

/-- the state of `Supertrend` -/
def superState (p : Nat) (factor : ℚ) (h : List (CLH α)) : Val α :=
  .tup [atrState p h, vS (lastClose h), vS (bandsD p factor h).upper, vS (bandsD p factor h).lower, vI (bandsD p factor h).trend]

theorem bandsOf_snoc (h : List (CLH α)) (x : CLH α) : bandsOf p factor (h ++ [x]) =
    (bandsOf p factor h).bind fun b => bandsStep factor b (lastClose h) (atrOf p (h ++ [x])) x := by
  simp [bandsOf, bandsRev, atrOf]

theorem Trending.step {h : List (CLH α)} {x : CLH α} (hv : Trending p factor (h ++ [x])) :
    bandsStep factor (bandsD p factor h) (lastClose h) (atrOf p (h ++ [x])) x = some (bandsD p factor (h ++ [x])) := by
  unfold Trending at hv
  rw [bandsOf_snoc] at hv
  unfold bandsD
  rw [bandsOf_snoc]
  cases hb : bandsOf p factor h with
  | none => simp [hb] at hv
  | some b =>
    simp only [hb, Option.bind_some] at hv ⊢
    obtain ⟨b', hb'⟩ := Option.isSome_iff_exists.1 hv
    simp [hb']

theorem supertrend_tracks (hp : 0 < p) : Tracks (Supertrend (p : Int) factor : Operator α) (Trending p factor) encCLH
    (fun h => vS (bandsD p factor h).line) (superState p factor) := by
  constructor
  · intro x hv
    have h1 := (atr_tracks (α := α) hp).step_fresh (x := x) trivial
    have h2 := supertrendCond_eq _ _ _ _ _ (Trending.step (h := []) hv)
    have h0 : bandsD p factor ([] : List (CLH α)) = noBands := rfl
    have hl : lastClose ([] : List (CLH α)) = Arith.ofRat 0 := rfl
    simp only [encCLH] at h1
    rw [h0, hl] at h2
    simp [noBands] at h2
    simp only [Supertrend, streamable, unpackArgs, arity, encCLH, PyVal.tup]
    simp only [PyVal.tup] at h1
    simp [h1, h2, superState, h0, noBands, lastClose]
    rfl
  · intro h x hv
    have h1 := (atr_tracks (α := α) hp).step_next (h := h) (x := x) trivial
    have h2 := supertrendCond_eq _ _ _ _ _ (Trending.step (h := h) hv)
    simp only [encCLH] at h1
    simp only [Supertrend, streamable, unpackArgs, arity, encCLH, PyVal.tup, superState]
    simp only [PyVal.tup] at h1
    simp [h1, h2, lastClose_snoc]
  · exact encCLH_ok
  · exact ⟨.leaf (.float, []), fun h _ => ⟨by simp, rfl⟩⟩
  · exact ⟨.tup [_, .leaf .float, .leaf .float, .leaf .float, .leaf .int], fun h => ⟨by simp [superState, WF_tup, atrState_ok],
      hasType_tup (.cons (atrState_ok p h).2 (.cons (HasType_iff.2 rfl) (.cons (HasType_iff.2 rfl) (.cons (HasType_iff.2 rfl)
        (.cons (HasType_iff.2 rfl) .nil)))))⟩⟩

end

/-! ### Risk ratio evaluator -/

/-- One input of the evaluator; the signal is a float or an int. -/
structure RRIn (α : Type) where
  low : α
  high : α
  close : α
  signal : α ⊕ Int

/-- `signal == 1` -/
def RRIn.isBuy (x : RRIn α) : Bool :=
  match x.signal with
  | .inl f => TFNum.eq f (Arith.ofRat 1)
  | .inr n => decide (n = 1)

/-- encoding of the inputs -/
def encRR (x : RRIn α) : Val α :=
  .tup [vS x.low, vS x.high, vS x.close, match x.signal with | .inl f => vS f | .inr n => vI n]

section
variable (q : RRParams) (p : Nat)

/-- state machine of the evaluator and its last signal after a history given newest first -/
def rrRev : List (RRIn α) → RRState α × Int
  | [] => (⟨Arith.ofRat 0, Arith.ofRat 0, Arith.ofRat 0, 0, 0, 0⟩, 0)
  | x :: older => rrStep q x.low x.high x.close x.isBuy (movingStd p ((x :: older).reverse.map RRIn.close)) (rrRev older).1

/-- the same, history oldest first -/
def rrOf (h : List (RRIn α)) : RRState α × Int := rrRev q p h.reverse

/-- the output of the evaluator -/
def rrOut (h : List (RRIn α)) : Val α :=
  .tup [vI (rrOf q p h).1.successful, vI (rrOf q p h).1.total, vS (movingStd p (h.map RRIn.close)), vI (rrOf q p h).2]

/-- the state of the evaluator -/
def rrVal (h : List (RRIn α)) : Val α :=
  .tup [vS (rrOf q p h).1.stop, vS (rrOf q p h).1.limit, vS (rrOf q p h).1.buy, vI (rrOf q p h).1.duration,
    vI (rrOf q p h).1.successful, vI (rrOf q p h).1.total, bufState p ((h.map RRIn.close).map (pt (α := α)))]

theorem rrOf_snoc (h : List (RRIn α)) (x : RRIn α) : rrOf q p (h ++ [x]) =
    rrStep q x.low x.high x.close x.isBuy (movingStd p ((h ++ [x]).map RRIn.close)) (rrOf q p h).1 := by
  simp [rrOf, rrRev]

theorem decSignal_enc (x : RRIn α) : decSignal (α := α) (match x.signal with | .inl f => vS f | .inr n => vI n) = .ok x.isBuy := by
  cases hs : x.signal <;> simp [decSignal, RRIn.isBuy, hs]

theorem encRR_ok (x : RRIn α) : (encRR x).WF ∧ Tensors (encRR x) := by
  cases hs : x.signal <;> exact ⟨by simp [WF_tup, encRR, hs], by simp [Tensors, flatten, encRR, hs]⟩

variable {q p}

theorem rr_tracks (hp : 0 < p) (hq : q.volatility_period = p) : Tracks (RiskRatioEvaluator q : Operator α) Any encRR (rrOut q p) (rrVal q p) := by
  constructor
  · intro x _
    have h1 : call (MSD (p : Int)) (vS x.close) none false = _ := msd_inner_none (α := α) (p := p) (s := []) hp (pt x.close)
    have h2 := decSignal_enc x
    have h3 := rrOf_snoc q p [] x
    have h4 := movingStd_pt p [x.close]
    have h5 : (rrOf q p ([] : List (RRIn α))).1 = ⟨Arith.ofRat 0, Arith.ofRat 0, Arith.ofRat 0, 0, 0, 0⟩ := rfl
    simp at h4
    rw [h4, show (vF (pt (movingStd p [x.close])) : Val α) = vS (movingStd p [x.close]) from rfl] at h1
    simp only [h5, List.nil_append, List.map_cons, List.map_nil] at h3
    simp only [RiskRatioEvaluator, streamable, unpackArgs, arity, encRR, PyVal.tup, hq]
    simp [h1, h2, ← h3, rrOut, rrVal, h5]
  · intro h x _
    have h1 : call (MSD (p : Int)) (vS x.close) (some (bufState p ((h.map RRIn.close).map (pt (α := α))))) false = _ :=
      msd_inner (α := α) (p := p) (s := []) hp ((h.map RRIn.close).map pt) (pt x.close)
    have h2 := decSignal_enc x
    have h3 := rrOf_snoc q p h x
    have h4 := movingStd_pt p (h.map RRIn.close ++ [x.close])
    rw [List.map_append] at h4
    simp only [List.map_cons, List.map_nil] at h4
    rw [h4, show (vF (pt (movingStd p (h.map RRIn.close ++ [x.close]))) : Val α) = vS (movingStd p (h.map RRIn.close ++ [x.close])) from rfl,
      List.map_map] at h1
    simp only [RiskRatioEvaluator, streamable, unpackArgs, arity, encRR, PyVal.tup, hq, rrVal]
    simp only [List.map_append, List.map_cons, List.map_nil] at h3
    simp [h1, h2, ← h3, rrOut]
  · exact encRR_ok
  · exact ⟨.tup [.leaf (.int, []), .leaf (.int, []), .leaf (.float, []), .leaf (.int, [])], fun h _ => ⟨by simp [WF_tup, rrOut], rfl⟩⟩
  · exact ⟨.tup [.leaf .float, .leaf .float, .leaf .float, .leaf .int, .leaf .int, .leaf .int, .tup [.leaf .int, .leaf .float]], fun h => ⟨by simp [rrVal, WF_tup, bufState], HasType_iff.2 rfl⟩⟩

end
end TS
