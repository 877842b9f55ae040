import Verif.Lemmas.Follows
import Verif.Spec.MovingAverage
/-
The moving averages as functions of the history.
-/
namespace TS
open PyVal
variable {α : Type} [TFNum α]

/-- every history is valid -/
abbrev Any {A : Type} : List A → Prop := fun _ => True

/-- the state of `SMA(p)` and `MSD(p)` after a history -/
def bufState (p : Nat) {s : List Nat} (h : List (Idx s → α)) : Val α := .tup [vI h.length, vBuf (padded Arith.zero p h)]

theorem bufState_ok (p : Nat) {s : List Nat} (h : List (Idx s → α)) :
    (bufState p h).WF ∧ HasType (bufState p h) (.tup [.leaf .int, .leaf .float]) := ⟨by simp [bufState, WF_tup], HasType_iff.2 rfl⟩

theorem sma_tracks {p : Nat} (hp : 0 < p) (s : List Nat) :
    Tracks (SMA (p : Int) : Operator α) Any (fun x : Idx s → α => vF x) (fun h => vF (movingAvg p h)) (bufState p) := by
  have key : ∀ (h : List (Idx s → α)) (x : Idx s → α),
      (if (h.length : Int) < (p : Int) - 1 then Arith.zero else Arith.sum (padded Arith.zero p (h ++ [x])) / Arith.ofInt (p : Int))
        = movingAvg p (h ++ [x]) := by
    intro h x
    by_cases hh : h.length + 1 < p
    · rw [if_pos (by omega), movingAvg, if_pos (by simpa using hh)]
    · rw [if_neg (by omega), movingAvg, if_neg (by simpa using hh), padded_eq_window (by simp; omega)]
  constructor
  · intro x _
    simp [SMA, bufferOp, streamable, unpackArgs, arity, smaStep, zerosBuf_natCast, roll_padded hp, bufState]
    simpa using key [] x
  · intro h x _
    simp [SMA, bufferOp, streamable, unpackArgs, arity, smaStep, roll_padded hp, bufState]
    exact key h x
  · intro x; exact ⟨by simp, by simp [Tensors]⟩
  · exact ⟨.leaf (.float, s), fun h _ => ⟨by simp, rfl⟩⟩
  · exact ⟨_, bufState_ok p⟩

theorem msd_tracks {p : Nat} (hp : 0 < p) (s : List Nat) :
    Tracks (MSD (p : Int) : Operator α) Any (fun x : Idx s → α => vF x) (fun h => vF (movingStd p h)) (bufState p) := by
  have key : ∀ (h : List (Idx s → α)) (x : Idx s → α),
      (if (h.length : Int) < (p : Int) - 1 then Arith.zero else Arith.sqrt (Arith.moments (padded Arith.zero p (h ++ [x]))).2)
        = movingStd p (h ++ [x]) := by
    intro h x
    by_cases hh : h.length + 1 < p
    · rw [if_pos (by omega), movingStd, if_pos (by simpa using hh)]
    · rw [if_neg (by omega), movingStd, if_neg (by simpa using hh), padded_eq_window (by simp; omega)]
  constructor
  · intro x _
    simp [MSD, bufferOp, streamable, unpackArgs, arity, msdStep, zerosBuf_natCast, roll_padded hp, bufState]
    simpa using key [] x
  · intro h x _
    simp [MSD, bufferOp, streamable, unpackArgs, arity, msdStep, roll_padded hp, bufState]
    exact key h x
  · intro x; exact ⟨by simp, by simp [Tensors]⟩
  · exact ⟨.leaf (.float, s), fun h _ => ⟨by simp, rfl⟩⟩
  · exact ⟨_, bufState_ok p⟩

/-- the state of `EMA(p)` and `RMA(p)` after a history -/
def avgState (p : Nat) {s : List Nat} (y : List (Idx s → α) → Idx s → α) (h : List (Idx s → α)) : Val α :=
  .tup [vI h.length, vF (y h), bufState p (h.take p)]

theorem avgState_ok (p : Nat) {s : List Nat} (y : List (Idx s → α) → Idx s → α) (h : List (Idx s → α)) :
    (avgState p y h).WF ∧ HasType (avgState p y h) (.tup [.leaf .int, .leaf .float, .tup [.leaf .int, .leaf .float]]) :=
  ⟨by simp [avgState, bufState, WF_tup], HasType_iff.2 rfl⟩

/-- A `tf.cond` between two pairs of the same structure. -/
theorem tfCond_tup2 {b : Bool} {x y x' y' : Val α} {tx ty : PyVal DType} (hx : x.WF) (hy : y.WF) (hx' : x'.WF) (hy' : y'.WF)
    (h1 : HasType x tx) (h2 : HasType y ty) (h1' : HasType x' tx) (h2' : HasType y' ty) (hf : flatten x ≠ []) :
    tfCond b (.tup [x, y]) (.tup [x', y']) = .ok (if b then .tup [x, y] else .tup [x', y']) := by
  have t1 : toType (.tup [x, y]) = .ok (.tup [tx, ty]) := (toType_ok (by simp [WF_tup, hx, hy])).2
    (hasType_tup (.cons h1 (.cons h2 .nil)))
  have t2 : toType (.tup [x', y']) = .ok (.tup [tx, ty]) := (toType_ok (by simp [WF_tup, hx', hy'])).2
    (hasType_tup (.cons h1' (.cons h2' .nil)))
  have h3 : isEmptySeq (PyVal.tup [x, y]) = false := rfl
  have u1 : unpackSingleton (.tup [x, y]) = .tup [x, y] := rfl
  have u2 : unpackSingleton (.tup [x', y']) = .tup [x', y'] := rfl
  simp only [tfCond, u1, u2, h3, t1, t2, ok_bind]
  cases b <;> simp [u1, u2]

theorem recursiveAvg_le {E : Type} [Arith E] {p : Nat} {f : E → E → E} {h : List E} (hh : h.length ≤ p) :
    recursiveAvg p f h = movingAvg p h := by
  simp [recursiveAvg, List.drop_eq_nil_of_le hh, List.take_of_length_le hh]

theorem recursiveAvg_concat {E : Type} [Arith E] {p : Nat} {f : E → E → E} {h : List E} (hh : p ≤ h.length) (x : E) :
    recursiveAvg p f (h ++ [x]) = f (recursiveAvg p f h) x := by
  simp [recursiveAvg, List.drop_append_of_le_length hh, List.take_append_of_le_length hh, List.foldl_append]

theorem take_append_one {A : Type} {p : Nat} {h : List A} {x : A} :
    (h ++ [x]).take p = if h.length < p then h.take p ++ [x] else h.take p := by
  split
  · rw [List.take_of_length_le (by simp; omega), List.take_of_length_le (by omega)]
  · rw [List.take_append_of_le_length (by omega)]

section
variable {p : Nat} {s : List Nat}

/-- One step of the simple moving average kept inside another operator. -/
theorem sma_inner (hp : 0 < p) (h : List (Idx s → α)) (x : Idx s → α) :
    call (SMA (p : Int)) (vF x) (some (bufState p h)) false =
      .ok (vF (movingAvg p (h ++ [x])), bufState p (h ++ [x]), bufState p h) := (sma_tracks hp s).step_next trivial

theorem sma_inner_none (hp : 0 < p) (x : Idx s → α) :
    call (SMA (p : Int)) (vF x) none false = .ok (vF (movingAvg p [x]), bufState p [x], bufState p ([] : List (Idx s → α))) :=
  (sma_tracks hp s).step_fresh trivial

@[simp] theorem asPair_two (a b : Val α) : asPair (.node .tuple [a, b]) = .ok (a, b) := rfl

theorem avg_cond (f : (Idx s → α) → (Idx s → α) → (Idx s → α)) {h : List (Idx s → α)} {x : Idx s → α} {b : Bool}
    (hb : b = decide (h.length < p)) {e : Idx s → α} (he : e = f (recursiveAvg p f h) x) :
    tfCond b (.node .tuple [vF (movingAvg p (h.take p ++ [x])), bufState p (h.take p ++ [x])])
      (.node .tuple [vF e, bufState p (h.take p)]) =
    .ok (.node .tuple [vF (recursiveAvg p f (h ++ [x])), bufState p ((h ++ [x]).take p)]) := by
  subst hb he
  refine (tfCond_tup2 (tx := .leaf .float) (ty := .tup [.leaf .int, .leaf .float]) (by simp) (bufState_ok _ _).1 (by simp) (bufState_ok _ _).1
    (HasType_iff.2 rfl) (bufState_ok _ _).2 (HasType_iff.2 rfl) (bufState_ok _ _).2 (by simp [flatten])).trans ?_
  rw [take_append_one]
  by_cases hh : h.length < p
  · rw [if_pos (by simpa using hh), if_pos hh, recursiveAvg_le (by simp; omega), List.take_of_length_le (by omega)]
  · rw [if_neg (by simpa using hh), if_neg hh, recursiveAvg_concat (by omega)]

theorem avg_cond_first (f : (Idx s → α) → (Idx s → α) → (Idx s → α)) {x : Idx s → α} (hp : 0 < p) {b : Bool}
    (hb : b = decide (0 < p)) {e : Idx s → α} :
    tfCond b (.node .tuple [vF (movingAvg p [x]), bufState p [x]]) (.node .tuple [vF e, bufState p ([] : List (Idx s → α))]) =
    .ok (.node .tuple [vF (recursiveAvg p f [x]), bufState p ([x].take p)]) := by
  subst hb
  refine (tfCond_tup2 (tx := .leaf .float) (ty := .tup [.leaf .int, .leaf .float]) (by simp) (bufState_ok _ _).1 (by simp) (bufState_ok _ _).1
    (HasType_iff.2 rfl) (bufState_ok _ _).2 (HasType_iff.2 rfl) (bufState_ok _ _).2 (by simp [flatten])).trans ?_
  rw [if_pos (by simpa using hp), recursiveAvg_le (by simp; omega), List.take_of_length_le (by simp; omega)]

theorem movingAvg_nil {E : Type} [Arith E] (hp : 0 < p) : movingAvg p ([] : List E) = Arith.zero := by rw [movingAvg, if_pos (by simpa)]

theorem ema_tracks (hp : 0 < p) (s : List Nat) :
    Tracks (EMA (p : Int) : Operator α) Any (fun x : Idx s → α => vF x) (fun h => vF (expAvg p h)) (avgState p (expAvg p)) := by
  let f := fun (e x : Idx s → α) => x * Arith.ofRat (2 / ((p : ℚ) + 1)) + e * Arith.ofRat (1 - 2 / ((p : ℚ) + 1))
  have h0 : expAvg p ([] : List (Idx s → α)) = fun _ => Arith.zero := by
    rw [expAvg, recursiveAvg_le (by simp), movingAvg_nil hp]; rfl
  constructor
  · intro x _
    simp [EMA, streamable, unpackArgs, arity, sma_inner_none hp, avgState]
    rw [avg_cond_first f hp (by simp)]
    simp [h0]; rfl
  · intro h x _
    simp [EMA, streamable, unpackArgs, arity, sma_inner hp, avgState]
    rw [avg_cond f (by simp) (by simp [f]; rfl)]
    simp; rfl
  · intro x; exact ⟨by simp, by simp [Tensors]⟩
  · exact ⟨.leaf (.float, s), fun h _ => ⟨by simp, rfl⟩⟩
  · exact ⟨_, avgState_ok p _⟩

theorem rma_tracks (hp : 0 < p) (s : List Nat) :
    Tracks (RMA (p : Int) : Operator α) Any (fun x : Idx s → α => vF x) (fun h => vF (rollAvg p h)) (avgState p (rollAvg p)) := by
  let f := fun (e x : Idx s → α) => (e * Arith.ofInt ((p : Int) - 1) + x) / Arith.ofInt p
  have h0 : rollAvg p ([] : List (Idx s → α)) = fun _ => Arith.zero := by
    rw [rollAvg, recursiveAvg_le (by simp), movingAvg_nil hp]; rfl
  constructor
  · intro x _
    simp [RMA, streamable, unpackArgs, arity, sma_inner_none hp, avgState]
    rw [avg_cond_first f hp (by simp)]
    simp [h0]; rfl
  · intro h x _
    simp [RMA, streamable, unpackArgs, arity, sma_inner hp, avgState]
    rw [avg_cond f (by simp) (by simp [f]; rfl)]
    simp; rfl
  · intro x; exact ⟨by simp, by simp [Tensors]⟩
  · exact ⟨.leaf (.float, s), fun h _ => ⟨by simp, rfl⟩⟩
  · exact ⟨_, avgState_ok p _⟩

theorem msd_inner (hp : 0 < p) (h : List (Idx s → α)) (x : Idx s → α) :
    call (MSD (p : Int)) (vF x) (some (bufState p h)) false =
      .ok (vF (movingStd p (h ++ [x])), bufState p (h ++ [x]), bufState p h) := (msd_tracks hp s).step_next trivial

theorem msd_inner_none (hp : 0 < p) (x : Idx s → α) :
    call (MSD (p : Int)) (vF x) none false = .ok (vF (movingStd p [x]), bufState p [x], bufState p ([] : List (Idx s → α))) :=
  (msd_tracks hp s).step_fresh trivial

theorem ema_inner (hp : 0 < p) (h : List (Idx s → α)) (x : Idx s → α) :
    call (EMA (p : Int)) (vF x) (some (avgState p (expAvg p) h)) false =
      .ok (vF (expAvg p (h ++ [x])), avgState p (expAvg p) (h ++ [x]), avgState p (expAvg p) h) := (ema_tracks hp s).step_next trivial

theorem ema_inner_none (hp : 0 < p) (x : Idx s → α) :
    call (EMA (p : Int)) (vF x) none false =
      .ok (vF (expAvg p [x]), avgState p (expAvg p) [x], avgState p (expAvg p) ([] : List (Idx s → α))) :=
  (ema_tracks hp s).step_fresh trivial

theorem rma_inner (hp : 0 < p) (h : List (Idx s → α)) (x : Idx s → α) :
    call (RMA (p : Int)) (vF x) (some (avgState p (rollAvg p) h)) false =
      .ok (vF (rollAvg p (h ++ [x])), avgState p (rollAvg p) (h ++ [x]), avgState p (rollAvg p) h) := (rma_tracks hp s).step_next trivial

theorem rma_inner_none (hp : 0 < p) (x : Idx s → α) :
    call (RMA (p : Int)) (vF x) none false =
      .ok (vF (rollAvg p [x]), avgState p (rollAvg p) [x], avgState p (rollAvg p) ([] : List (Idx s → α))) :=
  (rma_tracks hp s).step_fresh trivial

/-! ### Bollinger bands -/

theorem bollinger_tracks (hp : 0 < p) (k : ℚ) (s : List Nat) :
    Tracks (BollingerBands (p : Int) k : Operator α) Any (fun x : Idx s → α => vF x)
      (fun h => .tup [vF (movingAvg p h - movingStd p h * Arith.ofRat k), vF (movingAvg p h),
        vF (movingAvg p h + movingStd p h * Arith.ofRat k)])
      (fun h => .tup [bufState p h, bufState p h]) := by
  constructor
  · intro x _
    simp [BollingerBands, streamable, unpackArgs, arity, sma_inner_none hp, msd_inner_none hp]
  · intro h x _
    simp [BollingerBands, streamable, unpackArgs, arity, sma_inner hp, msd_inner hp]
  · intro x; exact ⟨by simp, by simp [Tensors]⟩
  · exact ⟨.tup [.leaf (.float, s), .leaf (.float, s), .leaf (.float, s)], fun h _ => ⟨by simp [WF_tup], rfl⟩⟩
  · exact ⟨_, fun h => ⟨by simp [WF_tup, bufState], hasType_tup (.cons (bufState_ok p h).2 (.cons (bufState_ok p h).2 .nil))⟩⟩

/-! ### MACD -/

theorem macdHistory_concat {E : Type} [Arith E] {slow fast : Nat} (h : List E) (x : E) :
    macdHistory slow fast (h ++ [x]) = if h.length + 1 < slow then macdHistory slow fast h
      else macdHistory slow fast h ++ [macdLine slow fast (h ++ [x])] := by
  simp only [macdHistory, scan_snoc]
  split
  · rw [List.drop_eq_nil_of_le (by simp; omega), List.drop_eq_nil_of_le (by simp; omega)]
  · rw [List.drop_append_of_le_length (by simp; omega)]

/-- the state of `MACD` after a history -/
def macdState (slow fast m : Nat) {s : List Nat} (h : List (Idx s → α)) : Val α :=
  .tup [vI h.length, avgState slow (expAvg slow) h, avgState fast (expAvg fast) h,
    avgState m (expAvg m) (macdHistory slow fast h)]

/-- the five outputs of `MACD` after a history -/
def macdOut (slow fast m : Nat) {s : List Nat} (h : List (Idx s → α)) : Val α :=
  .tup [vF (expAvg slow h), vF (expAvg fast h), vF (macdLine slow fast h), vF (macdSignal slow fast m h),
    vF (macdHist slow fast m h)]

theorem macdDiff_eq {n k : Int} {a b : Idx s → α} {q : Prop} [Decidable q] (hq : n < k ↔ q) :
    macdDiff a b n k = if q then Arith.zero else a - b := by
  simp only [macdDiff, hq]; rfl

theorem macd_tracks {slow fast m : Nat} (h1 : 0 < slow) (h2 : 0 < fast) (h3 : 0 < m) (s : List Nat) :
    Tracks (MACD (slow : Int) fast m : Operator α) Any (fun x : Idx s → α => vF x) (macdOut slow fast m) (macdState slow fast m) := by
  have line : ∀ (h : List (Idx s → α)) (x : Idx s → α) (n : Int), n = h.length → macdDiff (expAvg fast (h ++ [x])) (expAvg slow (h ++ [x])) n ((slow : Int) - 1)
      = macdLine slow fast (h ++ [x]) := by
    intro h x n hn
    subst hn
    rw [macdDiff_eq (q := (h ++ [x]).length < slow) (by simp; omega)]; rfl
  have cond : ∀ (h : List (Idx s → α)) (x : Idx s → α) (n : Int), n = h.length →
      tfCond (decide (n < (slow : Int) - 1))
        (.node .tuple [vF (s := s) fun _ => Arith.zero, avgState m (expAvg m) (macdHistory slow fast h)])
        (.node .tuple [vF (expAvg m (macdHistory slow fast h ++ [macdLine slow fast (h ++ [x])])),
          avgState m (expAvg m) (macdHistory slow fast h ++ [macdLine slow fast (h ++ [x])])]) =
      .ok (.node .tuple [vF (macdSignal slow fast m (h ++ [x])), avgState m (expAvg m) (macdHistory slow fast (h ++ [x]))]) := by
    intro h x n hn
    subst hn
    refine (tfCond_tup2 (tx := .leaf .float) (by simp) (avgState_ok _ _ _).1 (by simp) (avgState_ok _ _ _).1
      (HasType_iff.2 rfl) (avgState_ok _ _ _).2 (HasType_iff.2 rfl) (avgState_ok _ _ _).2 (by simp [flatten])).trans ?_
    rw [macdSignal, macdHistory_concat]
    by_cases hh : h.length + 1 < slow
    · rw [if_pos (by simp; omega), if_pos (by simp; omega), if_pos hh]; rfl
    · rw [if_neg (by simp; omega), if_neg (by simp; omega), if_neg hh]
  have hist : ∀ (h : List (Idx s → α)) (x : Idx s → α) (n : Int), n = h.length →
      macdDiff (macdLine slow fast (h ++ [x])) (macdSignal slow fast m (h ++ [x])) n ((slow : Int) + m - 2)
      = macdHist slow fast m (h ++ [x]) := by
    intro h x n hn
    subst hn
    rw [macdDiff_eq (q := (h ++ [x]).length + 1 < slow + m) (by simp; omega)]; rfl
  constructor
  · intro x _
    have e0 : macdHistory slow fast ([] : List (Idx s → α)) = [] := by simp [macdHistory, scan_nil]
    have l0 := line [] x 0 rfl
    have c0 := cond [] x 0 rfl
    have i0 := hist [] x 0 rfl
    simp only [e0, List.nil_append] at l0 c0 i0
    simp [MACD, streamable, unpackArgs, arity, ema_inner_none h1, ema_inner_none h2, l0, ema_inner_none h3]
    simp at c0
    simp [c0, i0, macdState, macdOut, e0]
  · intro h x _
    have l0 := line h x _ rfl
    have c0 := cond h x _ rfl
    have i0 := hist h x _ rfl
    simp [MACD, streamable, unpackArgs, arity, ema_inner h1, ema_inner h2, macdState, l0, ema_inner h3]
    simp [c0, i0, macdOut]
  · intro x; exact ⟨by simp, by simp [Tensors]⟩
  · exact ⟨.tup [.leaf (.float, s), .leaf (.float, s), .leaf (.float, s), .leaf (.float, s), .leaf (.float, s)],
      fun h _ => ⟨by simp [WF_tup, macdOut], rfl⟩⟩
  · exact ⟨_, fun h => ⟨by simp [WF_tup, macdState, avgState_ok], hasType_tup (.cons ((HasType_iff (ty := .leaf .int)).2 rfl)
      (.cons (avgState_ok _ _ h).2 (.cons (avgState_ok _ _ h).2 (.cons (avgState_ok _ _ _).2 .nil))))⟩⟩

end
end TS
