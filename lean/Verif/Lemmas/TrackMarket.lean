import Verif.Lemmas.TrackCorr
import Verif.Spec.Market
/-
Returns, Sharpe ratio, skewness and RSI as functions of the history.
-/
namespace TS
open PyVal
variable {α : Type} [TFNum α]

theorem padded_map {A B : Type} (f : A → B) (z : A) (p : Nat) (h : List A) : (padded z p h).map f = padded (f z) p (h.map f) := by
  simp [padded, List.map_take]

theorem vSBuf_padded (p : Nat) (h : List α) : vSBuf (padded Arith.zero p h) = vBuf (padded Arith.zero p (h.map pt)) := by
  simp only [vSBuf, padded_map]; rfl

/-! ### True range of candles of one shape -/

theorem elems_pack3 {β : Type} {s : List Nat} (a b c : Idx s → β) :
    (Tensor.pack s [a, b, c]).elems = Tensor.elems ⟨s, a⟩ ++ Tensor.elems ⟨s, b⟩ ++ Tensor.elems ⟨s, c⟩ := by
  have h : List.finRange 3 = [0, 1, 2] := by decide
  simp only [Tensor.elems, Tensor.pack, List.length_cons, List.length_nil, Idx.all]
  show List.map _ (List.flatMap _ (List.finRange 3)) = _
  rw [h]
  simp [List.map_map, Function.comp_def]

@[simp] theorem rangeToClose_same {s : List Nat} (price last_close : Idx s → α) :
    rangeToClose ⟨s, price⟩ ⟨s, last_close⟩ = .ok ⟨s, fun c => if TFNum.eq (last_close c) (Arith.ofRat 0) then Arith.zero else Arith.abs (price c - last_close c)⟩ := by
  simp [rangeToClose, broadcast_same]

@[simp] theorem trueRangeT_same {s : List Nat} (low high last_close : Idx s → α) :
    trueRangeT ⟨s, low⟩ ⟨s, high⟩ ⟨s, last_close⟩ = .ok (trueRange low high last_close) := by
  simp only [trueRangeT, broadcast_same, rangeToClose_same, ok_bind, Tensor.stack, List.mapM_cons, List.mapM_nil, Tensor.asShape_mk, pure_bind]
  simp only [pure, Except.pure, ok_bind, elems_pack3, trueRange]

/-! ### Returns -/

/-- the state of the two return operators -/
def retState (p : Nat) (h : List α) : Val α := .tup [vI h.length, vSBuf (padded Arith.zero p h)]

theorem retState_ok (p : Nat) (h : List α) :
    (retState p h).WF ∧ HasType (retState p h) (.tup [.leaf .int, .leaf .float]) := ⟨by simp [retState, WF_tup], HasType_iff.2 rfl⟩

theorem getLastD_snoc {A : Type} (h : List A) (x d : A) : (h ++ [x]).getLastD d = x := by simp

theorem return_tracks (hz : TFNum.eq (Arith.zero : α) (Arith.ofRat 0) = true) (f : α → α → α) {p : Nat} (hp : 0 < p) :
    Tracks (returnOp f (p : Int)) Any vS (fun h => vS (growth f p h)) (retState p) := by
  have key : ∀ (h : List α) (x : α) (n : Int), n = h.length → ∀ e, (padded Arith.zero p h)[p - 1]'(by simp; omega) = e →
      (if decide (n < (p : Int) - 1) || TFNum.eq e (Arith.ofRat 0) then Arith.zero else f x e) = growth f p (h ++ [x]) := by
    intro h x n hn e he
    rw [← lagged_eq hp h x] at he
    simp only [growth, he, getLastD_snoc]
    by_cases h1 : h.length + 1 < p
    · rw [if_pos (by simp; left; omega), if_pos (by left; simp; omega)]
    · by_cases h2 : h.length + 1 = p
      · have : e = Arith.zero := by
          rw [← he, lagged, List.getElem?_eq_none (by simp; omega)]; rfl
        rw [if_pos (by simp [this, hz]), if_pos (by left; simp; omega)]
      · by_cases h3 : TFNum.eq e (Arith.ofRat 0) = true
        · rw [if_pos (by simp [h3]), if_pos (.inr h3)]
        · rw [if_neg (by simp [h3]; omega), if_neg (by simp [h3]; omega)]
  constructor
  · intro x _
    have i0 := pyIndex_last (l := padded (Arith.zero : α) p []) hp (by simp)
    have k0 := key [] x 0 rfl _ rfl
    simp only [returnOp, streamable, unpackArgs, arity, returnStep, List.append_nil, zerosBuf_natCast]
    simp [i0, roll_padded hp, retState]
    funext _
    simpa using k0
  · intro h x _
    have i0 := pyIndex_last (l := padded (Arith.zero : α) p h) hp (by simp)
    have k0 := key h x _ rfl _ rfl
    simp [returnOp, streamable, unpackArgs, arity, returnStep, i0, roll_padded hp, retState]
    funext _
    simpa using k0
  · intro x; exact ⟨by simp, by simp [Tensors]⟩
  · exact ⟨.leaf (.float, []), fun h _ => ⟨by simp, rfl⟩⟩
  · exact ⟨_, retState_ok p⟩

/-! ### Sharpe ratio and skewness -/

theorem windowStat_step (stat : List α → α) {p : Nat} (hp : 0 < p) (h : List α) (x : α) :
    windowStatStep stat (p : Int) x (some (padded Arith.zero p h)) (some h.length) =
      .ok (stat (window p (h ++ [x])), (padded Arith.zero p (h ++ [x]), ((h ++ [x]).length : Int)), (padded Arith.zero p h, (h.length : Int))) := by
  simp [windowStatStep, roll_padded hp]
  split
  · rw [pyTake_padded (by simp; omega) (by simp)]
  · rw [padded_eq_window (by simp; omega)]

theorem windowStat_step_none (stat : List α → α) {p : Nat} (hp : 0 < p) (x : α) :
    windowStatStep stat (p : Int) x none none =
      .ok (stat (window p [x]), (padded Arith.zero p [x], 1), (padded Arith.zero p [], 0)) := by
  have := windowStat_step stat hp [] x
  simpa [windowStatStep, zerosBuf_natCast] using this

theorem skewness_tracks {p : Nat} (hp : 0 < p) :
    Tracks (Skewness (p : Int) : Operator α) Any vS (fun h => vS (computeSkewness (window p h))) (sbufState p) := by
  constructor
  · intro x _
    simp [Skewness, streamable, unpackArgs, arity, windowStat_step_none _ hp, sbufState]
  · intro h x _
    simp [Skewness, streamable, unpackArgs, arity, windowStat_step _ hp, sbufState]
  · intro x; exact ⟨by simp, by simp [Tensors]⟩
  · exact ⟨.leaf (.float, []), fun h _ => ⟨by simp, rfl⟩⟩
  · exact ⟨_, sbufState_ok p⟩

/-- the excess of the return over the risk-free rate -/
def excess (h : List (α × α)) : List α := h.map fun x => x.1 - x.2

theorem computeSharpe_eq (l : List α) : computeSharpe l = sharpe l := rfl

theorem sharpe_tracks {p : Nat} (hp : 0 < p) :
    Tracks (SharpeRatio (p : Int) : Operator α) Any (fun x : α × α => .tup [vS x.1, vS x.2])
      (fun h => vS (sharpe (window p (excess h)))) (fun h => sbufState p (excess h)) := by
  constructor
  · intro x _
    simp [SharpeRatio, streamable, unpackArgs, arity, windowStat_step_none _ hp, sbufState, excess, computeSharpe_eq]
  · intro h x _
    have := windowStat_step computeSharpe hp (excess h) (x.1 - x.2)
    simp only [excess, List.length_map] at this
    simp [SharpeRatio, streamable, unpackArgs, arity, this, sbufState, excess, computeSharpe_eq]
  · intro x; exact ⟨by simp [WF_tup], by simp [Tensors, flatten, flattens]⟩
  · exact ⟨.leaf (.float, []), fun h _ => ⟨by simp, rfl⟩⟩
  · exact ⟨_, fun h => sbufState_ok p _⟩

/-! ### RSI -/

theorem lag_inner_scalar {p : Nat} (hp : 0 < p) (h : List α) (x : α) :
    call (Lag (p : Int)) (vS x) (some (vSBuf (padded Arith.zero p h))) false =
      .ok (vF (s := []) (lagged Arith.zero p ((h ++ [x]).map pt)), vSBuf (padded Arith.zero p (h ++ [x])), vSBuf (padded Arith.zero p h)) := by
  have := (lag_tracks (α := α) hp []).step_next (h := h.map pt) (x := pt x) trivial
  rw [← vSBuf_padded, ← List.map_singleton, ← List.map_append, ← vSBuf_padded] at this
  exact this

theorem lag_inner_scalar_none {p : Nat} (hp : 0 < p) (x : α) :
    call (Lag (p : Int)) (vS x) none false =
      .ok (vF (s := []) (lagged Arith.zero p ([x].map pt)), vSBuf (padded Arith.zero p [x]), vSBuf (padded Arith.zero p ([] : List α))) := by
  have := (lag_tracks (α := α) hp []).step_fresh (x := pt x) trivial
  rw [← List.map_singleton, ← vSBuf_padded, show ([] : List (Idx [] → α)) = List.map pt [] from rfl, ← vSBuf_padded] at this
  exact this

@[simp] theorem changes_length (h : List α) : (changes h).length = h.length - 1 := by simp [changes]

theorem changes_snoc {h : List α} (hh : h ≠ []) (x : α) : changes (h ++ [x]) = changes h ++ [x - h.getLast hh] := by
  have hpos := List.length_pos_iff.2 hh
  apply List.ext_getElem
  · simp; omega
  · intro i h1 h2
    simp only [changes_length, List.length_append, List.length_singleton] at h1 h2
    by_cases hi : i < h.length - 1
    · rw [List.getElem_append_left (by simpa using hi)]
      simp only [changes, List.getElem_zipWith, List.getElem_tail]
      rw [List.getElem_append_left (by omega), List.getElem_append_left (by omega)]
    · rw [List.getElem_append_right (by simpa using hi)]
      simp only [changes, List.getElem_zipWith, List.getElem_tail, List.getElem_singleton]
      rw [List.getElem_append_right (by omega), List.getElem_append_left (by omega)]
      simp only [List.getElem_singleton, List.getLast_eq_getElem]
      congr 2
      omega

theorem reverse_changes (h : List α) : List.zipWith (fun a b => a - b) h.reverse.dropLast h.reverse.tail = (changes h).reverse := by
  apply List.ext_getElem
  · simp
  · intro i h1 h2
    simp only [List.length_zipWith, List.length_dropLast, List.length_reverse, List.length_tail, Nat.min_self] at h1
    simp only [List.getElem_zipWith, List.getElem_dropLast, List.getElem_reverse, List.getElem_tail, changes, List.length_zipWith,
      List.length_tail]
    refine congrArg₂ (fun a b : α => a - b) ?_ ?_ <;> (apply getElem_congr_idx; omega)

theorem wilder_snoc {p : Nat} {f g : α → α} {d : List α} (hd : p ≤ d.length) (x : α) :
    wilder p f g (d ++ [x]) = (wilder p f g d * Arith.ofInt ((p : Int) - 1) + g x) / Arith.ofInt p := by
  simp [wilder, List.drop_append_of_le_length hd, List.take_append_of_le_length hd, List.foldl_append]

theorem avgLoss_snoc {p : Nat} {d : List α} (hd : p ≤ d.length) (x : α) :
    avgLoss p (d ++ [x]) = (avgLoss p d * Arith.ofInt ((p : Int) - 1) + - Arith.min (Arith.ofRat 0) x) / Arith.ofInt p := by
  simp [avgLoss, List.drop_append_of_le_length hd, List.take_append_of_le_length hd, List.foldl_append]

/-- smoothed gain and loss kept by `RSI(p)` -/
def rsiGain (p : Nat) (h : List α) : α := if h.length ≤ p then Arith.ofRat 0 else avgGain p (changes h)
def rsiLoss (p : Nat) (h : List α) : α := if h.length ≤ p then Arith.ofRat 0 else avgLoss p (changes h)

/-- the state of `RSI(p)` -/
def rsiState (p : Nat) (h : List α) : Val α :=
  .tup [vI h.length, vSBuf (padded Arith.zero p h), vS (rsiGain p h), vS (rsiLoss p h)]

theorem rsiState_ok (p : Nat) (h : List α) : (rsiState p h).WF ∧
    HasType (rsiState p h) (.tup [.leaf .int, .leaf .float, .leaf .float, .leaf .float]) := ⟨by simp [rsiState, WF_tup], HasType_iff.2 rfl⟩

theorem pyIndex_zero {A : Type} {l : List A} (hl : 0 < l.length) : pyIndex l 0 = .ok l[0] := by
  simp [pyIndex, List.getElem?_eq_getElem hl]

theorem rsi_case {p : Nat} (hp : 0 < p) (h : List α) (x : α) (n : Int) (hn : n = h.length) :
    let buf : List α := padded Arith.zero p h
    let last := buf[0]'(by simpa [buf] using hp)
    tfCaseExclusive [
      (decide (n = (p : Int)), ((rsiFirstGainLoss x buf).1, (rsiFirstGainLoss x buf).2,
        computeRsi (rsiFirstGainLoss x buf).1 (rsiFirstGainLoss x buf).2)),
      (decide (n < (p : Int)), (Arith.ofRat 0, Arith.ofRat 0, Arith.ofRat 0))]
    ((rsiDefaultGainLoss (p : Int) x last (rsiGain p h) (rsiLoss p h)).1, (rsiDefaultGainLoss (p : Int) x last (rsiGain p h) (rsiLoss p h)).2,
      computeRsi (rsiDefaultGainLoss (p : Int) x last (rsiGain p h) (rsiLoss p h)).1
        (rsiDefaultGainLoss (p : Int) x last (rsiGain p h) (rsiLoss p h)).2) =
    .ok (rsiGain p (h ++ [x]), rsiLoss p (h ++ [x]), rsi p (h ++ [x])) := by
  intro buf last
  subst hn
  rcases Nat.lt_trichotomy h.length p with hh | hh | hh
  · have h1 : ¬ ((h.length : Int) = p) := by omega
    have h2 : ((h.length : Int) < p) := by omega
    simp only [tfCaseExclusive, h1, h2, decide_true, decide_false, tfCase]
    simp [rsiGain, rsiLoss, rsi, hh, show h.length + 1 ≤ p by omega]
  · have h1 : ((h.length : Int) = p) := by omega
    have h2 : ¬ ((h.length : Int) < p) := by omega
    have hb : x :: buf = (h ++ [x]).reverse := by
      simp [buf, padded_eq_window hh.ge, window_of_le hh.le]
    have hf : rsiFirstGainLoss x buf = (avgGain p (changes (h ++ [x])), avgLoss p (changes (h ++ [x]))) := by
      simp only [rsiFirstGainLoss, hb, reverse_changes]
      simp [avgGain, avgLoss, wilder, List.drop_eq_nil_of_le, List.take_of_length_le, hh]
    simp only [tfCaseExclusive, h1, h2, decide_true, decide_false, tfCase, hf]
    simp [rsiGain, rsiLoss, rsi, hh, computeRsi]
  · have h1 : ¬ ((h.length : Int) = p) := by omega
    have h2 : ¬ ((h.length : Int) < p) := by omega
    have hne : h ≠ [] := by rintro rfl; simp at hh
    have hl : last = h.getLast hne := by
      simp only [last, buf]
      rw [padded_getElem hp, List.getElem?_eq_getElem (by simp; omega)]
      simp [List.getLast_eq_getElem]
    have hd : rsiDefaultGainLoss (p : Int) x last (rsiGain p h) (rsiLoss p h) =
        (avgGain p (changes (h ++ [x])), avgLoss p (changes (h ++ [x]))) := by
      rw [changes_snoc hne, avgLoss_snoc (by simp; omega), avgGain, wilder_snoc (by simp; omega)]
      simp only [rsiDefaultGainLoss, rsiGain, rsiLoss, if_neg (show ¬ h.length ≤ p by omega), hl]
      rfl
    simp only [tfCaseExclusive, h1, h2, decide_false, tfCase, hd]
    simp [rsiGain, rsiLoss, rsi, computeRsi, show ¬ h.length + 1 ≤ p by omega]

theorem rsi_tracks {p : Nat} (hp : 0 < p) : Tracks (RSI (p : Int) : Operator α) Any vS (fun h => vS (rsi p h)) (rsiState p) := by
  constructor
  · intro x _
    have c0 := rsi_case hp [] x 0 rfl
    have i0 := pyIndex_zero (l := padded (Arith.zero : α) p []) (by simpa using hp)
    simp only [rsiGain, rsiLoss, List.length_nil, Nat.zero_le, if_true] at c0
    simp only [RSI, streamable, unpackArgs, arity, List.append_nil]
    simp [lag_inner_scalar_none hp, i0, rsiState]
    simp at c0
    simp [c0, rsiGain, rsiLoss]
  · intro h x _
    have c0 := rsi_case hp h x _ rfl
    have i0 := pyIndex_zero (l := padded (Arith.zero : α) p h) (by simpa using hp)
    simp [RSI, streamable, unpackArgs, arity, rsiState, lag_inner_scalar hp, i0]
    simp at c0
    simp [c0]
  · intro x; exact ⟨by simp, by simp [Tensors]⟩
  · exact ⟨.leaf (.float, []), fun h _ => ⟨by simp, rfl⟩⟩
  · exact ⟨_, rsiState_ok p⟩

end TS
