import Verif.Props.Bands
/-
C49, C50, C51: the risk ratio evaluator.
-/
namespace TS
open PyVal

/-- `v` is the quadruple of the series of lows, highs, closes and signals of `l`; the signals are all floats or all ints. -/
def Quotes {α : Type} (v : Val α) (l : List (RRIn α)) : Prop :=
  ∃ sig, v = .tup [vSBuf (l.map RRIn.low), vSBuf (l.map RRIn.high), vSBuf (l.map RRIn.close), sig] ∧
    ((∃ fs, sig = vSBuf fs ∧ l.map RRIn.signal = fs.map Sum.inl) ∨ (∃ ns, sig = vIBuf ns ∧ l.map RRIn.signal = ns.map Sum.inr))

/-- One output of the evaluator. -/
structure RROut (α : Type) where
  successful : Int
  total : Int
  volatility : α
  signal : Int
  deriving DecidableEq

/-- the four series of outputs -/
abbrev rrOuts {α : Type} (l : List (RROut α)) : Val α :=
  .tup [vIBuf (l.map RROut.successful), vIBuf (l.map RROut.total), vSBuf (l.map RROut.volatility), vIBuf (l.map RROut.signal)]

section
variable {α : Type} [TFNum α]

theorem Quotes.ok {v : Val α} {l : List (RRIn α)} (h : Quotes v l) : v.WF ∧ flatten v ≠ [] ∧ IsSeries v (l.map encRR) := by
  obtain ⟨sig, rfl, h⟩ := h
  rcases h with ⟨fs, rfl, h⟩ | ⟨fs, rfl, h⟩
  · refine ⟨by simp [WF_tup, vSBuf], by simp [flatten, flattens, vSBuf, PyVal.tup], ?_⟩
    let g : RRIn α → α := fun x => x.signal.elim id fun _ => Arith.zero
    have hfs : fs = l.map g := by
      have := congrArg (List.map fun s : α ⊕ Int => s.elim id fun _ => Arith.zero) h
      simpa [Function.comp_def] using this.symm
    have := isSeries_tup_map (A := RRIn α) (l := l) (es := [fun x => vS x.low, fun x => vS x.high, fun x => vS x.close, fun x => vS (g x)])
      (.cons (numSeries_map _ l) (.cons (numSeries_map _ l) (.cons (numSeries_map _ l) (.cons (numSeries_map _ l) .nil))))
    rw [← hfs] at this
    convert this using 1
    refine List.map_congr_left fun x hx => ?_
    have hm : x.signal ∈ fs.map (Sum.inl (β := Int)) := h ▸ List.mem_map_of_mem hx
    obtain ⟨f, -, hf⟩ := List.mem_map.1 hm
    simp [encRR, g, ← hf]
  · refine ⟨by simp [WF_tup, vSBuf], by simp [flatten, flattens, vSBuf, PyVal.tup], ?_⟩
    let g : RRIn α → Int := fun x => x.signal.elim (fun _ => 0) id
    have hfs : fs = l.map g := by
      have := congrArg (List.map fun s : α ⊕ Int => s.elim (fun _ => 0) id) h
      simpa [Function.comp_def] using this.symm
    have := isSeries_tup_map (A := RRIn α) (l := l) (es := [fun x => vS x.low, fun x => vS x.high, fun x => vS x.close, fun x => vI (g x)])
      (.cons (numSeries_map _ l) (.cons (numSeries_map _ l) (.cons (numSeries_map _ l) (.cons (intSeries_map _ l) .nil))))
    rw [← hfs] at this
    convert this using 1
    refine List.map_congr_left fun x hx => ?_
    have hm : x.signal ∈ fs.map (Sum.inr (α := α)) := h ▸ List.mem_map_of_mem hx
    obtain ⟨f, -, hf⟩ := List.mem_map.1 hm
    simp [encRR, g, ← hf]

/-- the output after a history -/
def rrY (q : RRParams) (p : Nat) (h : List (RRIn α)) : RROut α :=
  ⟨(rrOf q p h).1.successful, (rrOf q p h).1.total, movingStd p (h.map RRIn.close), (rrOf q p h).2⟩

theorem rr_call {q : RRParams} {p : Nat} (hp : 0 < p) (hq : q.volatility_period = p) {v : Val α} {l : List (RRIn α)} (hv : Quotes v l) (hl : l ≠ []) :
    ∃ (os : List (RROut α)) (sf s0 : Val α), call (RiskRatioEvaluator q) v none = .ok (rrOuts os, sf, s0) ∧
      ∃ hl : os.length = l.length, ∀ i (hi : i < l.length), os[i] = rrY q p (l.take (i + 1)) := by
  obtain ⟨h1, h2, h3⟩ := hv.ok
  have hs : IsSeries (rrOuts (scan (rrY q p) [] l)) (scan (rrOut q p) [] l) := by
    have e : scan (rrOut q p) [] l = (scan (rrY q p) [] l).map fun x => .tup [vI x.successful, vI x.total, vS x.volatility, vI x.signal] := by
      rw [scan_map]; rfl
    rw [e]
    exact isSeries_tup_map (A := RROut α) (l := scan (rrY q p) [] l) (es := [fun x => vI x.successful, fun x => vI x.total, fun x => vS x.volatility, fun x => vI x.signal])
      (.cons (intSeries_map _ _) (.cons (intSeries_map _ _) (.cons (numSeries_map _ _) (.cons (intSeries_map _ _) .nil))))
  exact ⟨_, _, _, (rr_tracks hp hq).eval hl (fun _ _ _ => trivial) h1 h2 h3 hs, by simp [scan], fun i hi => by rw [scan_getElem]; simp⟩

/-- the state machine, branch by branch -/
theorem rrStep_eq (q : RRParams) (low high close : α) (b : Bool) (vol : α) (st : RRState α) : rrStep q low high close b vol st =
    if TFNum.eq st.stop (Arith.ofRat 0) then
      if b then (⟨close - Arith.ofRat q.stop_factor * vol, close + Arith.ofRat q.limit_factor * vol, close, 1, st.successful, st.total⟩, 1)
      else ({ st with duration := st.duration + 1 }, 0)
    else if TFNum.le low st.stop then (⟨Arith.ofRat 0, Arith.ofRat 0, Arith.ofRat 0, 0, st.successful, st.total + 1⟩, -1)
    else if TFNum.le st.limit high then (⟨Arith.ofRat 0, Arith.ofRat 0, Arith.ofRat 0, 0, st.successful + 1, st.total + 1⟩, -1)
    else if q.max_bet_duration = some st.duration then
      (⟨Arith.ofRat 0, Arith.ofRat 0, Arith.ofRat 0, 0, if TFNum.lt st.buy close then st.successful + 1 else st.successful, st.total + 1⟩, -1)
    else ({ st with duration := st.duration + 1 }, 0) := by
  unfold rrStep
  cases hn : TFNum.eq st.stop (Arith.ofRat 0) <;> cases hs : TFNum.le low st.stop <;> cases hl : TFNum.le st.limit high <;> cases b <;>
    cases hm : q.max_bet_duration with
    | none => simp [tfCase]
    | some d =>
      by_cases hd : d = st.duration
      · subst hd; simp [tfCase]
      · simp [tfCase, hd, Ne.symm hd]

/-! ### C49 -/

/-- What one step does to the counters. -/
theorem rrStep_counts (q : RRParams) (low high close : α) (b : Bool) (vol : α) (st : RRState α) {n : RRState α} {s : Int} (h : rrStep q low high close b vol st = (n, s)) :
    (s = -1 ∧ n.total = st.total + 1 ∧ (n.successful = st.successful ∨ n.successful = st.successful + 1)) ∨
      ((s = 0 ∨ s = 1) ∧ n.total = st.total ∧ n.successful = st.successful) := by
  rw [rrStep_eq] at h
  split at h
  · split at h <;> obtain ⟨rfl, rfl⟩ := Prod.mk.inj h <;> simp
  · split at h
    · obtain ⟨rfl, rfl⟩ := Prod.mk.inj h; simp
    · split at h
      · obtain ⟨rfl, rfl⟩ := Prod.mk.inj h; simp
      · split at h
        · obtain ⟨rfl, rfl⟩ := Prod.mk.inj h
          left
          refine ⟨rfl, rfl, ?_⟩
          dsimp only
          split <;> simp
        · obtain ⟨rfl, rfl⟩ := Prod.mk.inj h; simp

/-- **C49 Risk ratio counters**, every arithmetic: signals are -1, 0 or 1; both counters start from zero, never decrease and grow by at most 1 per step;
the number of successful bets is between 0 and the total; the total is the number of sells so far.  The third output is the moving standard deviation of the closes. -/
theorem C49_counters {q : RRParams} {p : Nat} (hp : 0 < p) (hq : q.volatility_period = p) {v : Val α} {l : List (RRIn α)} (hv : Quotes v l) (hl : l ≠ []) :
    ∃ (os : List (RROut α)) (sf s0 : Val α), call (RiskRatioEvaluator q) v none = .ok (rrOuts os, sf, s0) ∧
      (∃ sf' s0', call (MSD (p : Int)) (vSBuf (l.map RRIn.close)) none = .ok (vSBuf (os.map RROut.volatility), sf', s0')) ∧
      ∃ hl : os.length = l.length, ∀ i (hi : i < l.length),
        (os[i].signal = -1 ∨ os[i].signal = 0 ∨ os[i].signal = 1) ∧
        0 ≤ os[i].successful ∧ os[i].successful ≤ os[i].total ∧
        os[i].total = ((os.take (i + 1)).map RROut.signal).count (-1) ∧
        ∀ j (hj : j < l.length), j + 1 = i →
          os[j].successful ≤ os[i].successful ∧ os[i].successful ≤ os[j].successful + 1 ∧
          os[j].total ≤ os[i].total ∧ os[i].total ≤ os[j].total + 1 := by
  obtain ⟨os, sf, s0, h1, hlen, h2⟩ := rr_call hp hq hv hl
  refine ⟨os, sf, s0, h1, ?_, hlen, ?_⟩
  · obtain ⟨os', sf', s0', g1, g2, g3⟩ := (((C29_msd_streams (α := α) hp []).scalar (y' := movingStd p) fun k _ => movingStd_pt p k)).at (xs := l.map RRIn.close) (by simpa using hl)
    refine ⟨sf', s0', ?_⟩
    rw [g1]
    congr 4
    refine List.ext_getElem (by simp [g2, hlen]) fun i a b => ?_
    have hi : i < l.length := by simpa [hlen] using b
    rw [g3 i (by simpa using hi), List.getElem_map, h2 i hi, rrY, List.map_take]
  · have step : ∀ i (hi : i < l.length), ∃ n s, rrOf q p (l.take (i + 1)) = (n, s) ∧
        ((s = -1 ∧ n.total = (rrOf q p (l.take i)).1.total + 1 ∧
          (n.successful = (rrOf q p (l.take i)).1.successful ∨ n.successful = (rrOf q p (l.take i)).1.successful + 1)) ∨
        ((s = 0 ∨ s = 1) ∧ n.total = (rrOf q p (l.take i)).1.total ∧ n.successful = (rrOf q p (l.take i)).1.successful)) := fun i hi => by
      refine ⟨_, _, rfl, ?_⟩
      have := rrOf_snoc q p (l.take i) l[i]
      rw [← List.take_succ_eq_append_getElem hi] at this
      exact rrStep_counts q _ _ _ _ _ _ this.symm
    have inv : ∀ i, i ≤ l.length → 0 ≤ (rrOf q p (l.take i)).1.successful ∧ (rrOf q p (l.take i)).1.successful ≤ (rrOf q p (l.take i)).1.total ∧
        (rrOf q p (l.take i)).1.total = ((os.take i).map RROut.signal).count (-1) := by
      intro i
      induction i with
      | zero => intro _; simp [rrOf, rrRev]
      | succ i ih =>
        intro hi
        obtain ⟨a, b, c⟩ := ih (by omega)
        obtain ⟨n, s, e, h⟩ := step i hi
        have hsig : os[i].signal = s := by rw [h2 i hi, rrY, e]
        rw [List.take_succ_eq_append_getElem (show i < os.length by omega), List.map_append, List.count_append, List.map_singleton, hsig]
        simp only [e]
        rcases h with ⟨rfl, h3, h4⟩ | ⟨hs, h3, h4⟩
        · rw [List.count_singleton_self]
          refine ⟨by omega, by omega, by omega⟩
        · rw [List.count_eq_zero_of_not_mem (l := [s]) (by simp; omega)]
          refine ⟨by omega, by omega, by omega⟩
    intro i hi
    obtain ⟨a, b, c⟩ := inv (i + 1) hi
    obtain ⟨n, s, e, h⟩ := step i hi
    refine ⟨by rw [h2 i hi, rrY]; simp only [e]; omega, by rw [h2 i hi]; exact a, by rw [h2 i hi]; exact b, by rw [h2 i hi]; exact c, ?_⟩
    rintro j hj rfl
    rw [h2 _ hj, h2 _ hi]
    simp only [rrY, e]
    omega

/-! ### C50, C51 -/

/-- stop price of a position opened with this quote and this output -/
def stopAt (q : RRParams) (x : RRIn α) (o : RROut α) : α := x.close - Arith.ofRat q.stop_factor * o.volatility

/-- limit price of a position opened with this quote and this output -/
def limitAt (q : RRParams) (x : RRIn α) (o : RROut α) : α := x.close + Arith.ofRat q.limit_factor * o.volatility

/-- The steps from the start to `i` sell every position bought before `i`. -/
def FlatAt (os : List (RROut α)) (i : Nat) : Prop :=
  ∀ j, j < i → (os[j]?.map RROut.signal = some 1) → ∃ k, j < k ∧ k < i ∧ os[k]?.map RROut.signal = some (-1)

/-- Bought at `j`, not sold before `i`. -/
def OpenAt (os : List (RROut α)) (j i : Nat) : Prop :=
  j < i ∧ os[j]?.map RROut.signal = some 1 ∧ ∀ k, j < k → k < i → os[k]?.map RROut.signal ≠ some (-1)

/-- The open position of `j` ends at `i`: the stop or the limit is hit or the maximal duration reached. -/
def Ends (q : RRParams) (x : RRIn α) (o : RROut α) (y : RRIn α) (n : Int) : Prop :=
  TFNum.le y.low (stopAt q x o) = true ∨ TFNum.le (limitAt q x o) y.high = true ∨ q.max_bet_duration = some n

/-- **C50, one position**, every arithmetic: while a position bought at `j` with a non-zero stop price is open, the evaluator sells exactly when the position ends,
and otherwise does nothing.  The bet counts as successful when the stop is not hit and the limit is hit or the close is above the one at the buy. -/
theorem C50_position {q : RRParams} {p : Nat} (hp : 0 < p) (hq : q.volatility_period = p) {v : Val α} {l : List (RRIn α)} (hv : Quotes v l) (hl : l ≠ []) :
    ∃ (os : List (RROut α)) (sf s0 : Val α), call (RiskRatioEvaluator q) v none = .ok (rrOuts os, sf, s0) ∧
      ∃ hl : os.length = l.length, ∀ j i (hj : j < l.length) (hi : i < l.length), OpenAt os j i → TFNum.eq (stopAt q l[j] os[j]) (Arith.ofRat 0) = false →
        (Ends q l[j] os[j] l[i] (i - j) → os[i].signal = -1 ∧
          os[i].successful = os[i - 1].successful + if TFNum.le l[i].low (stopAt q l[j] os[j]) = false ∧
            (TFNum.le (limitAt q l[j] os[j]) l[i].high = true ∨ TFNum.lt l[j].close l[i].close = true) then 1 else 0) ∧
        (¬ Ends q l[j] os[j] l[i] (i - j) → os[i].signal = 0) := by
  obtain ⟨os, sf, s0, h1, hlen, h2⟩ := rr_call hp hq hv hl
  refine ⟨os, sf, s0, h1, hlen, ?_⟩
  have hstep : ∀ i (hi : i < l.length), rrOf q p (l.take (i + 1)) = rrStep q l[i].low l[i].high l[i].close l[i].isBuy os[i].volatility (rrOf q p (l.take i)).1 := fun i hi => by
    rw [h2 i hi, rrY]
    have := rrOf_snoc q p (l.take i) l[i]
    rwa [← List.take_succ_eq_append_getElem hi] at this
  have hsig : ∀ i (hi : i < l.length), os[i].signal = (rrOf q p (l.take (i + 1))).2 := fun i hi => by rw [h2 i hi]; rfl
  intro j i hj hi hop hst
  have hg : ∀ k (hk : k < l.length), os[k]?.map RROut.signal = some (os[k].signal) := fun k hk => by
    rw [List.getElem?_eq_getElem (show k < os.length by omega)]; rfl
  -- the state before step `i`
  have hstate : ∀ m, j + 1 + m ≤ i → (rrOf q p (l.take (j + 1 + m))).1.stop = stopAt q l[j] os[j] ∧ (rrOf q p (l.take (j + 1 + m))).1.limit = limitAt q l[j] os[j] ∧
      (rrOf q p (l.take (j + 1 + m))).1.buy = l[j].close ∧ (rrOf q p (l.take (j + 1 + m))).1.duration = 1 + m := by
    intro m
    induction m with
    | zero =>
      intro _
      have hs := hop.2.1
      rw [hg j hj, hsig j hj, Option.some_inj] at hs
      rw [Nat.add_zero]
      have e := hstep j hj
      rw [e] at hs ⊢
      rw [rrStep_eq] at hs ⊢
      split at hs
      · rename_i hn
        split at hs
        · rename_i hb
          rw [if_pos hn, if_pos hb]
          exact ⟨rfl, rfl, rfl, rfl⟩
        · simp at hs
      · split at hs
        · simp at hs
        · split at hs
          · simp at hs
          · split at hs <;> simp at hs
    | succ m ih =>
      intro hm
      obtain ⟨a, b, c, d⟩ := ih (by omega)
      have hs := hop.2.2 (j + 1 + m) (by omega) (by omega)
      rw [hg _ (by omega), hsig _ (by omega), ne_eq, Option.some_inj] at hs
      have e := hstep (j + 1 + m) (by omega)
      rw [show j + 1 + (m + 1) = j + 1 + m + 1 from rfl]
      rw [e] at hs ⊢
      rw [rrStep_eq, a, hst] at hs ⊢
      simp only [Bool.false_eq_true, if_false] at hs ⊢
      split at hs
      · simp at hs
      · rename_i g1
        split at hs
        · simp at hs
        · rename_i g2
          split at hs
          · simp at hs
          · rename_i g3
            rw [if_neg g1, if_neg g2, if_neg g3]
            exact ⟨rfl, b, c, by dsimp only; rw [d]; push_cast; ring⟩
  obtain ⟨m, rfl⟩ : ∃ m, i = j + 1 + m := ⟨i - (j + 1), by have := hop.1; omega⟩
  obtain ⟨a, b, c, d⟩ := hstate m (le_refl _)
  have e := hstep _ hi
  rw [rrStep_eq, a, hst, b, c, d] at e
  simp only [Bool.false_eq_true, if_false] at e
  have hdur : (((j + 1 + m : Nat) : Int) - (j : Int)) = 1 + m := by push_cast; ring
  have hprev : os[j + 1 + m - 1].successful = (rrOf q p (l.take (j + 1 + m))).1.successful := by
    rw [h2 _ (by omega)]; show (rrOf q p (l.take (j + 1 + m - 1 + 1))).1.successful = _; rw [Nat.sub_add_cancel (by omega)]
  have hsucc : os[j + 1 + m].successful = (rrOf q p (l.take (j + 1 + m + 1))).1.successful := by rw [h2 _ hi]; rfl
  rw [hdur, hsig _ hi, hsucc, hprev, e]
  unfold Ends
  cases g1 : TFNum.le l[j + 1 + m].low (stopAt q l[j] os[j]) with
  | true => simp
  | false =>
    cases g2 : TFNum.le (limitAt q l[j] os[j]) l[j + 1 + m].high with
    | true => simp
    | false =>
      by_cases g3 : q.max_bet_duration = some (1 + (m : Int))
      · cases g4 : TFNum.lt l[j].close l[j + 1 + m].close <;> simp [g3]
      · simp [g3]

/-- **C50, no position**: when every position bought so far has been sold, the evaluator buys exactly on the signal 1.
`hz` says that zero equals itself, which holds in floating point and in exact arithmetic. -/
theorem C50_flat (hz : TFNum.eq (Arith.ofRat 0 : α) (Arith.ofRat 0) = true) {q : RRParams} {p : Nat} (hp : 0 < p) (hq : q.volatility_period = p)
    {v : Val α} {l : List (RRIn α)} (hv : Quotes v l) (hl : l ≠ []) :
    ∃ (os : List (RROut α)) (sf s0 : Val α), call (RiskRatioEvaluator q) v none = .ok (rrOuts os, sf, s0) ∧
      ∃ hl : os.length = l.length, ∀ i (hi : i < l.length), FlatAt os i → os[i].signal = if l[i].isBuy then 1 else 0 := by
  obtain ⟨os, sf, s0, h1, hlen, h2⟩ := rr_call hp hq hv hl
  refine ⟨os, sf, s0, h1, hlen, ?_⟩
  have hstep : ∀ i (hi : i < l.length), rrOf q p (l.take (i + 1)) = rrStep q l[i].low l[i].high l[i].close l[i].isBuy os[i].volatility (rrOf q p (l.take i)).1 := fun i hi => by
    rw [h2 i hi, rrY]
    have := rrOf_snoc q p (l.take i) l[i]
    rwa [← List.take_succ_eq_append_getElem hi] at this
  have hsig : ∀ i (hi : i < l.length), os[i].signal = (rrOf q p (l.take (i + 1))).2 := fun i hi => by rw [h2 i hi]; rfl
  have hg : ∀ k (hk : k < l.length), os[k]?.map RROut.signal = some (os[k].signal) := fun k hk => by
    rw [List.getElem?_eq_getElem (show k < os.length by omega)]; rfl
  have null : ∀ i, i ≤ l.length → FlatAt os i → TFNum.eq (rrOf q p (l.take i)).1.stop (Arith.ofRat 0) = true := by
    intro i
    induction i with
    | zero => intro _ _; exact hz
    | succ i ih =>
      intro hi hf
      have e := hstep i hi
      have hs := hsig i hi
      rw [e] at hs ⊢
      have back : os[i].signal = 0 → FlatAt os i := fun h0 j hj hj1 => by
        obtain ⟨k, k1, k2, k3⟩ := hf j (by omega) hj1
        refine ⟨k, k1, ?_, k3⟩
        by_contra hk
        obtain rfl : k = i := by omega
        rw [hg k hi, h0] at k3
        simp at k3
      rw [rrStep_eq] at hs ⊢
      by_cases hn : TFNum.eq (rrOf q p (l.take i)).1.stop (Arith.ofRat 0) = true
      · simp only [hn, if_true] at hs ⊢
        split at hs
        · obtain ⟨k, k1, k2, -⟩ := hf i (by omega) (by rw [hg i hi, hs])
          omega
        · rw [if_neg (by assumption)]; exact hn
      · rw [if_neg hn] at hs ⊢
        by_cases c1 : TFNum.le l[i].low (rrOf q p (l.take i)).1.stop = true
        · rw [if_pos c1]; exact hz
        · rw [if_neg c1] at hs ⊢
          by_cases c2 : TFNum.le (rrOf q p (l.take i)).1.limit l[i].high = true
          · rw [if_pos c2]; exact hz
          · rw [if_neg c2] at hs ⊢
            by_cases c3 : q.max_bet_duration = some (rrOf q p (l.take i)).1.duration
            · rw [if_pos c3]; exact hz
            · rw [if_neg c3] at hs
              exact absurd (ih (by omega) (back hs)) hn
  intro i hi hf
  rw [hsig i hi, hstep i hi, rrStep_eq, if_pos (null i (by omega) hf)]
  split <;> rfl

omit [TFNum α] in
theorem vSBuf_inj {xs ys : List α} (h : (vSBuf xs : Val α) = vSBuf ys) : xs = ys := by
  have h1 := isSeries_vSBuf xs
  have h2 := isSeries_vSBuf ys
  rw [← h] at h2
  have := h1.det (by simp [flatten, vSBuf]) h2
  refine List.map_injective_iff.2 (fun a b hab => ?_) this
  simpa using congrFun (show (fun _ : Idx [] => a) = fun _ => b by simpa using hab) ()

omit [TFNum α] in
theorem vIBuf_inj {xs ys : List Int} (h : (vIBuf xs : Val α) = vIBuf ys) : xs = ys := by
  have h1 := isSeries_vIBuf (α := α) xs
  have h2 := isSeries_vIBuf (α := α) ys
  rw [← h] at h2
  have := h1.det (by simp [flatten]) h2
  refine List.map_injective_iff.2 (fun a b hab => ?_) this
  simpa using congrFun (show (fun _ : Idx [] => a) = fun _ => b by simpa using hab) ()

omit [TFNum α] in
/-- The outputs are determined by their packed series. -/
theorem rrOuts_inj {os os' : List (RROut α)} (h : rrOuts os = rrOuts os') : os = os' := by
  simp only [rrOuts, PyVal.tup, PyVal.node.injEq, true_and, List.cons.injEq, and_true] at h
  obtain ⟨h1, h2, h3, h4⟩ := h
  have h1 := vIBuf_inj h1
  have h2 := vIBuf_inj h2
  have h3 := vSBuf_inj h3
  have h4 := vIBuf_inj h4
  have hl : os.length = os'.length := by simpa using congrArg List.length h1
  refine List.ext_getElem hl fun i a b => ?_
  have g1 := List.getElem_of_eq h1 (i := i) (by simpa using a)
  have g2 := List.getElem_of_eq h2 (i := i) (by simpa using a)
  have g3 := List.getElem_of_eq h3 (i := i) (by simpa using a)
  have g4 := List.getElem_of_eq h4 (i := i) (by simpa using a)
  simp only [List.getElem_map] at g1 g2 g3 g4
  generalize os[i] = x at *
  generalize os'[i] = y at *
  cases x; cases y; simp_all

/-- **C50 Risk ratio position discipline**, every arithmetic in which zero equals itself, for runs in which no position has the stop price zero.
(Without that condition it does not hold, see `C50_two_buys`; `C50_discipline_iff` says for which parameters the condition always holds.)  The non-zero signals alternate and begin with a buy; without an open position the evaluator
buys exactly on the signal 1; an open position is sold exactly when its stop or its limit is hit or its maximal duration is reached. -/
theorem C50_discipline (hz : TFNum.eq (Arith.ofRat 0 : α) (Arith.ofRat 0) = true) {q : RRParams} {p : Nat} (hp : 0 < p) (hq : q.volatility_period = p)
    {v : Val α} {l : List (RRIn α)} (hv : Quotes v l) (hl : l ≠ []) :
    ∃ (os : List (RROut α)) (sf s0 : Val α), call (RiskRatioEvaluator q) v none = .ok (rrOuts os, sf, s0) ∧
      ∃ hl : os.length = l.length, (∀ j (hj : j < l.length), os[j].signal = 1 → TFNum.eq (stopAt q l[j] os[j]) (Arith.ofRat 0) = false) →
        Alternates (os.map RROut.signal) ∧
        (∀ i (hi : i < l.length), (∀ k (hk : k < i), os[k].signal = 0) → os[i].signal = 0 ∨ os[i].signal = 1) ∧
        (∀ i (hi : i < l.length), FlatAt os i → (os[i].signal = 1 ↔ l[i].isBuy = true) ∧ os[i].signal ≠ -1) ∧
        (∀ j i (hj : j < l.length) (hi : i < l.length), OpenAt os j i → (os[i].signal = -1 ↔ Ends q l[j] os[j] l[i] (i - j)) ∧ os[i].signal ≠ 1) := by
  obtain ⟨os, sf, s0, h1, hlen, hpos⟩ := C50_position hp hq hv hl
  obtain ⟨os', sf', s0', h1', hlen', hflat⟩ := C50_flat hz hp hq hv hl
  obtain ⟨os2, sf2, s02, h12, -, hlen2, hcount⟩ := C49_counters hp hq hv hl
  rw [h1] at h1' h12
  simp only [Except.ok.injEq, Prod.mk.injEq] at h1' h12
  obtain rfl := rrOuts_inj h1'.1
  obtain rfl := rrOuts_inj h12.1
  refine ⟨os, sf, s0, h1, hlen, fun hno => ?_⟩
  have flat : ∀ i (hi : i < l.length), FlatAt os i → os[i].signal = 0 ∨ os[i].signal = 1 := fun i hi hf => by
    rw [hflat i hi hf]; split <;> simp
  have hg : ∀ k (hk : k < l.length), os[k]?.map RROut.signal = some (os[k].signal) := fun k hk => by
    rw [List.getElem?_eq_getElem (show k < os.length by omega)]; rfl
  have opn : ∀ j i (hj : j < l.length) (hi : i < l.length), OpenAt os j i → os[i].signal = 0 ∨ os[i].signal = -1 := fun j i hj hi ho => by
    have hs : os[j].signal = 1 := by have := ho.2.1; rwa [hg j hj, Option.some_inj] at this
    have := hpos j i hj hi ho (hno j hj hs)
    by_cases he : Ends q l[j] os[j] l[i] (i - j)
    · exact .inr (this.1 he).1
    · exact .inl (this.2 he)
  refine ⟨?_, ?_, ?_, ?_⟩
  · intro i j hij a b ha hb ha0 hb0 hk
    rw [List.getElem?_map] at ha hb
    have hj : j < l.length := by
      obtain ⟨x, hx, -⟩ := Option.map_eq_some_iff.1 hb
      have := (List.getElem?_eq_some_iff.1 hx).1; omega
    have hi : i < l.length := by omega
    have ea : os[i].signal = a := by rwa [hg i hi, Option.some_inj] at ha
    have eb : os[j].signal = b := by rwa [hg j hj, Option.some_inj] at hb
    have hk0 : ∀ k (h1 : i < k) (h2 : k < j), os[k].signal = 0 := fun k h1 h2 => by
      have := hk k h1 h2
      rwa [List.getElem?_map, hg k (by omega), Option.some_inj] at this
    rcases (hcount i hi).1 with h | h | h
    · have hf : FlatAt os j := fun j' hj' hs => by
        rw [hg j' (by omega), Option.some_inj] at hs
        refine ⟨i, ?_, hij, by rw [hg i hi, h]⟩
        by_contra hc
        rcases Nat.lt_or_ge i j' with hc' | hc'
        · rw [hk0 j' hc' hj'] at hs; simp at hs
        · obtain rfl : j' = i := by omega
          rw [h] at hs; simp at hs
      have := flat j hj hf
      omega
    · omega
    · have := opn i j hi hj ⟨hij, by rw [hg i hi, h], fun k h1 h2 => by rw [hg k (by omega), hk0 k h1 h2]; simp⟩
      omega
  · intro i hi hk
    refine flat i hi fun j hj hs => ?_
    rw [hg j (by omega), hk j hj] at hs
    simp at hs
  · intro i hi hf
    rw [hflat i hi hf]
    cases l[i].isBuy <;> simp
  · intro j i hj hi ho
    have hs : os[j].signal = 1 := by have := ho.2.1; rwa [hg j hj, Option.some_inj] at this
    have := hpos j i hj hi ho (hno j hj hs)
    by_cases he : Ends q l[j] os[j] l[i] (i - j)
    · have h := (this.1 he).1
      exact ⟨⟨fun _ => he, fun _ => h⟩, by omega⟩
    · have h := this.2 he
      exact ⟨⟨fun h' => by omega, fun h' => absurd h' he⟩, by omega⟩

/-- **C51 Risk ratio maximal bet duration**, every arithmetic: with `max_bet_duration = d ≥ 1`, a position bought at `j` with a non-zero stop price is sold at most `d` steps later. -/
theorem C51_duration {q : RRParams} {p : Nat} (hp : 0 < p) (hq : q.volatility_period = p) {d : Nat} (hd : 0 < d) (hqd : q.max_bet_duration = some (d : Int))
    {v : Val α} {l : List (RRIn α)} (hv : Quotes v l) (hl : l ≠ []) :
    ∃ (os : List (RROut α)) (sf s0 : Val α), call (RiskRatioEvaluator q) v none = .ok (rrOuts os, sf, s0) ∧
      ∃ hl : os.length = l.length, ∀ j (hj : j + d < l.length), os[j].signal = 1 → TFNum.eq (stopAt q l[j] os[j]) (Arith.ofRat 0) = false →
        ∃ k, ∃ hk : k < l.length, j < k ∧ k ≤ j + d ∧ os[k].signal = -1 := by
  obtain ⟨os, sf, s0, h1, hlen, hpos⟩ := C50_position hp hq hv hl
  refine ⟨os, sf, s0, h1, hlen, fun j hj hs hne => ?_⟩
  by_contra hcon
  push Not at hcon
  have hg : ∀ k (hk : k < l.length), os[k]?.map RROut.signal = some (os[k].signal) := fun k hk => by
    rw [List.getElem?_eq_getElem (show k < os.length by omega)]; rfl
  have := hpos j (j + d) (by omega) hj ⟨by omega, by rw [hg j (by omega), hs], fun k k1 k2 => by
    rw [hg k (by omega), ne_eq, Option.some_inj]; exact hcon k (by omega) k1 (by omega)⟩ hne
  exact hcon (j + d) hj (by omega) (le_refl _) (this.1 (.inr (.inr (by rw [hqd]; congr 1; push_cast; ring)))).1

end

/-- quotes with int signals, low and high given by the close -/
def flatQuotes (cs : List (ℚ × Int)) : Val (XR ℚ) :=
  .tup [series (cs.map Prod.fst), series (cs.map Prod.fst), series (cs.map Prod.fst), vIBuf (cs.map Prod.snd)]
example := C49_counters (α := XR ℚ) (q := ⟨1, 2, 2, some 3⟩) (p := 2) (by norm_num) rfl (v := flatQuotes [(2, 0), (1, 1)])
  (l := [⟨.fin 2, .fin 2, .fin 2, .inr 0⟩, ⟨.fin 1, .fin 1, .fin 1, .inr 1⟩]) ⟨_, rfl, .inr ⟨[0, 1], rfl, rfl⟩⟩ (by simp)
example := C50_discipline (α := XR ℚ) (by simp) (q := ⟨1, 2, 2, some 3⟩) (p := 2) (by norm_num) rfl (v := flatQuotes [(2, 0), (1, 1)])
  (l := [⟨.fin 2, .fin 2, .fin 2, .inr 0⟩, ⟨.fin 1, .fin 1, .fin 1, .inr 1⟩]) ⟨_, rfl, .inr ⟨[0, 1], rfl, rfl⟩⟩ (by simp)
example := C50_flat (α := XR ℚ) (by simp) (q := ⟨1, 2, 2, some 3⟩) (p := 2) (by norm_num) rfl (v := flatQuotes [(2, 0), (1, 1)])
  (l := [⟨.fin 2, .fin 2, .fin 2, .inr 0⟩, ⟨.fin 1, .fin 1, .fin 1, .inr 1⟩]) ⟨_, rfl, .inr ⟨[0, 1], rfl, rfl⟩⟩ (by simp)
example := C50_position (α := XR ℚ) (q := ⟨1, 2, 2, some 3⟩) (p := 2) (by norm_num) rfl (v := flatQuotes [(2, 0), (1, 1)])
  (l := [⟨.fin 2, .fin 2, .fin 2, .inr 0⟩, ⟨.fin 1, .fin 1, .fin 1, .inr 1⟩]) ⟨_, rfl, .inr ⟨[0, 1], rfl, rfl⟩⟩ (by simp)
example := C51_duration (α := XR ℚ) (q := ⟨1, 2, 2, some 3⟩) (p := 2) (by norm_num) rfl (d := 3) (by norm_num) rfl (v := flatQuotes [(2, 0), (1, 1)])
  (l := [⟨.fin 2, .fin 2, .fin 2, .inr 0⟩, ⟨.fin 1, .fin 1, .fin 1, .inr 1⟩]) ⟨_, rfl, .inr ⟨[0, 1], rfl, rfl⟩⟩ (by simp)

/-- **C50 is false without the condition on stop prices**: closes 2, 1, 1 with buy signals at the last two steps and the stop at two standard deviations; the
stop price 1 - 2 * 1/2 = 0 is read as `no position`, so that the evaluator buys twice in a row. -/
theorem C50_two_buys :
    output (call (RiskRatioEvaluator (α := XR ℚ) ⟨2, 2, 2, none⟩) (flatQuotes [(2, 0), (1, 1), (1, 1)]) none) =
      .ok (.tup [vIBuf [0, 0, 0], vIBuf [0, 0, 0], series [0, 1 / 2, 0], vIBuf [0, 1, 1]]) := by decide +kernel

example : output (call (RiskRatioEvaluator (α := XR ℚ) ⟨1, 2, 2, some 3⟩) (flatQuotes [(2, 0), (4, 1), (5, 1), (6, 0), (7, 1), (6, 1), (4, 0)]) none) =
    .ok (.tup [vIBuf [0, 0, 0, 1, 1, 1, 1], vIBuf [0, 0, 0, 1, 1, 2, 2], series [0, 1, 1 / 2, 1 / 2, 1 / 2, 1 / 2, 1], vIBuf [0, 1, 0, -1, 1, -1, 0]]) := by decide +kernel

/-- the quotes of the examples are quotes -/
example : Quotes (flatQuotes [(2, 0), (1, 1)]) [⟨.fin 2, .fin 2, .fin 2, .inr 0⟩, ⟨.fin 1, .fin 1, .fin 1, .inr 1⟩] :=
  ⟨_, rfl, .inr ⟨[0, 1], rfl, rfl⟩⟩

/-- zero equals itself in exact arithmetic -/
example : TFNum.eq (Arith.ofRat 0 : XR ℚ) (Arith.ofRat 0) = true := by decide +kernel

end TS
