import Verif.Props.TakesOver2
import Verif.Lemmas.TrackPipelines
import Verif.Props.AveragesExact
/-
C93: correlation, Bollinger bands, momentum and the crossover of two moving averages that are called with a state of other periods.
-/
namespace TS
open PyVal
variable {α : Type} [TFNum α] {s : List Nat} {p q : Nat}

/-- **C93 Correlation**: that of the last `q` pairs (with the zeros the buffers start with), after the first `p` pairs. -/
theorem C93_correlation (hq : 0 < q) : TakesOver (Correlation (q : Int) : Operator α) (Correlation (p : Int)) (vBuf2 (s := s)) vBuf 0
    (fun h k => if (h ++ k).length ≤ p then Arith.zero else pearson (padded Arith.zero q ((h ++ k).map Prod.fst)) (padded Arith.zero q ((h ++ k).map Prod.snd))) := by
  refine takesOver_of (corr_tracks hq s) pairs_ok
    (out' := fun _ h => vF (if h.length ≤ p then Arith.zero else pearson (padded Arith.zero q (h.map Prod.fst)) (padded Arith.zero q (h.map Prod.snd))))
    (st' := fun _ => corrState q) (fun xs hx _ => ⟨{
      first := fun x hx' => absurd hx'.1 (not_lt_one hx)
      next := fun h x _ => ?_
      enc_ok := (corr_tracks hq s).enc_ok
      out_ok := ⟨.leaf (.float, s), fun h _ => ⟨by simp, rfl⟩⟩
      st_ok := ⟨_, corrState_ok⟩ }, rfl⟩) isSeries_vBuf (fun _ _ => rfl)
  have key : correlationOrZero (p : Int) (h.length : Int) (padded Arith.zero q (h.map Prod.fst ++ [x.1])) (padded Arith.zero q (h.map Prod.snd ++ [x.2])) =
      (.ok ⟨s, if (h ++ [x]).length ≤ p then Arith.zero else pearson (padded Arith.zero q ((h ++ [x]).map Prod.fst)) (padded Arith.zero q ((h ++ [x]).map Prod.snd))⟩ : Res (Tensor α)) := by
    rw [correlationOrZero]
    by_cases hh : h.length < p
    · rw [if_pos (by omega), if_pos (by simp; omega)]
    · rw [if_neg (by omega), if_neg (by simp; omega), computeCorrelation_same (by simp)]
      simp
  simp [Correlation, streamable, unpackArgs, arity, correlationStep, roll_padded hq, corrState, key]

/-- one step of `MovingStandardDeviation(p)` from a state of `MovingStandardDeviation(q)` -/
theorem msd_mixed (hq : 0 < q) {h : List (Idx s → α)} (hh : h ≠ []) (x : Idx s → α) : call (MSD (p : Int)) (vF x) (some (bufState q h)) false =
    .ok (vF (if (h ++ [x]).length < p then Arith.zero else Arith.sqrt (Arith.moments (padded Arith.zero q (h ++ [x]))).2), bufState q (h ++ [x]), bufState q h) := by
  have T : Tracks (MSD (p : Int) : Operator α) (fun h : List (Idx s → α) => 1 < h.length) vF
      (fun h => vF (if h.length < p then Arith.zero else Arith.sqrt (Arith.moments (padded Arith.zero q h)).2)) (bufState q) := {
    first := fun x hx => by simp at hx
    next := fun h x _ => by
      simp [MSD, bufferOp, streamable, unpackArgs, arity, msdStep, roll_padded hq, bufState]
      exact if_congr (by omega) rfl rfl
    enc_ok := (msd_tracks hq s).enc_ok
    out_ok := ⟨.leaf (.float, s), fun h _ => ⟨by simp, rfl⟩⟩
    st_ok := ⟨_, bufState_ok q⟩ }
  have := List.length_pos_iff.2 hh
  exact T.step_next (by simp; omega)

/-- the average that `SimpleMovingAverage(p)` goes on with in a state of `SimpleMovingAverage(q)` -/
def avgOver (p q : Nat) (h : List (Idx s → α)) : Idx s → α := if h.length < p then Arith.zero else Arith.sum (padded Arith.zero q h) / Arith.ofInt (p : Int)
/-- the same for the standard deviation -/
def stdOver (p q : Nat) (h : List (Idx s → α)) : Idx s → α := if h.length < p then Arith.zero else Arith.sqrt (Arith.moments (padded Arith.zero q h)).2

/-- **C93 BollingerBands**: around the sum of the last `q` samples over `p`, `k'` times the deviation of the last `q` samples away, from the `p`-th sample on.  The factor of
the first bands is forgotten. -/
theorem C93_bollinger (hq : 0 < q) (k k' : ℚ) : TakesOver (BollingerBands (q : Int) k : Operator α) (BollingerBands (p : Int) k') (vBuf (s := s)) vBuf3 0
    (fun h y => (avgOver p q (h ++ y) - stdOver p q (h ++ y) * Arith.ofRat k', avgOver p q (h ++ y), avgOver p q (h ++ y) + stdOver p q (h ++ y) * Arith.ofRat k')) := by
  refine takesOver_of (bollinger_tracks hq k s) rows_ok
    (out' := fun _ h => .tup [vF (avgOver p q h - stdOver p q h * Arith.ofRat k'), vF (avgOver p q h), vF (avgOver p q h + stdOver p q h * Arith.ofRat k')])
    (st' := fun _ h => .tup [bufState q h, bufState q h]) (fun xs hx _ => ⟨{
      first := fun x hx' => absurd hx'.1 (not_lt_one hx)
      next := fun h x hv => ?_
      enc_ok := (bollinger_tracks hq k s).enc_ok
      out_ok := ⟨.tup [.leaf (.float, s), .leaf (.float, s), .leaf (.float, s)], fun h _ => ⟨by simp [WF_tup], rfl⟩⟩
      st_ok := (bollinger_tracks (α := α) hq k s).st_ok }, rfl⟩) (dec := fun x => .tup [vF x.1, vF x.2.1, vF x.2.2]) 
    (fun l => isSeries_tup_map (A := (Idx s → α) × (Idx s → α) × (Idx s → α)) (es := [fun b => vF b.1, fun b => vF b.2.1, fun b => vF b.2.2])
      (.cons (rowSeries_map _ l) (.cons (rowSeries_map _ l) (.cons (rowSeries_map _ l) .nil)))) (fun _ _ => rfl)
  have hh : h ≠ [] := by
    rintro rfl
    exact not_lt_one hx hv.1
  simp [BollingerBands, streamable, unpackArgs, arity, sma_mixed hq hh, msd_mixed hq hh, avgOver, stdOver]

/-- `Lag(p)` in the states of `Lag(q)` -/
theorem lag_mixed (hq : 0 < q) (V : List (Idx s → α) → Prop) (hV : ∀ x, ¬ V [x]) :
    Tracks (Lag (p : Int) : Operator α) V vF (fun h => vF (lagged Arith.zero q h)) (fun h => vBuf (padded Arith.zero q h)) := {
  first := fun x hx => absurd hx (hV x)
  next := fun h x _ => by
    have := lastLeaf_pack (α := α) Leaf.f (fun t i => ⟨rfl, rfl⟩) (l := padded (Arith.zero : Idx s → α) q h) (by simpa using hq)
    simp [Lag, streamable, unpackArgs, arity, lagStep, this, rollLeaf, roll_padded hq, lagged_eq hq]
  enc_ok := (lag_tracks hq s).enc_ok
  out_ok := (lag_tracks (α := α) hq s).out_ok
  st_ok := (lag_tracks (α := α) hq s).st_ok }

/-- **C93 Momentum**: the difference to the sample `q` steps earlier, zero for the first `p` samples. -/
theorem C93_momentum (hq : 0 < q) : TakesOver (Momentum (q : Int) : Operator α) (Momentum (p : Int)) (vBuf (s := s)) vBuf 0
    (fun h k => if (h ++ k).length ≤ p then Arith.zero else (h ++ k).getLastD Arith.zero - lagged Arith.zero q (h ++ k)) := by
  refine takesOver_of (momentum_tracks hq s) rows_ok (out' := fun _ h => vF (if h.length ≤ p then Arith.zero else h.getLastD Arith.zero - lagged Arith.zero q h))
    (st' := fun _ => momentumState q) (fun xs hx _ => ⟨?_, rfl⟩) isSeries_vBuf (fun _ _ => rfl)
  have hx' : ∀ h : List (Idx s → α), h ≠ [] → (vF (h.getLastD (zrow s)) : Val α).WF ∧ Tensors (vF (h.getLastD (zrow s)) : Val α) :=
    fun h _ => ⟨by simp, by simp [Tensors]⟩
  let V := fun h : List (Idx s → α) => xs.length < h.length ∧ xs <+: h
  have L := lag_mixed (p := p) hq V (fun x hx' => absurd hx'.1 (not_lt_one hx))
  have F2 := BankFollows.join (.cons (identity_follows (α := α) (V := V) (s := s) fun h : List (Idx s → α) => h.getLastD (zrow s))
    (.cons (L.self (zrow s)) .nil)) (by
    intro h hh x hx'
    simp at hx'
    subst hx'
    exact ⟨by simp, by simp [Tensors]⟩)
  have F3 := ChainFollows.compose (ops := [SetDuring (.f (Tensor.scalar Arith.zero)) (p : Int), Sub, Join [Identity, Lag (p : Int)], Fork 2])
    (.cons (fork2_follows (α := α) (V := V) (s := s) fun h : List (Idx s → α) => h.getLastD (zrow s)) (.cons F2
      (.cons (sub_follows (V := V) _ _) (.cons (setDuring_rows _ _ _) (.nil _))))) (by simp) hx'
  refine (F3.tracks (fun h a => by simp) (fun a => ⟨by simp, by simp [Tensors]⟩)).congr (fun h hh => ?_) (fun h => rfl)
  by_cases hl : h.length ≤ p
  · rw [if_pos hl, if_pos (by omega)]; rfl
  · rw [if_neg hl, if_neg (by omega)]

/-- `SimpleMovingAverage(p)` in the states of `SimpleMovingAverage(q)` -/
theorem sma_over (hq : 0 < q) (V : List (Idx s → α) → Prop) (hV : ∀ x, ¬ V [x]) :
    Tracks (SMA (p : Int) : Operator α) V vF (fun h => vF (avgOver p q h)) (bufState q) := {
  first := fun x hx => absurd hx (hV x)
  next := fun h x _ => by
    simp [SMA, bufferOp, streamable, unpackArgs, arity, smaStep, roll_padded hq, bufState, avgOver]
    exact if_congr (by omega) rfl rfl
  enc_ok := (sma_tracks hq s).enc_ok
  out_ok := ⟨.leaf (.float, s), fun h _ => ⟨by simp, rfl⟩⟩
  st_ok := ⟨_, bufState_ok q⟩ }

/-- **C93 SimpleMovingAverageCrossover**: each average goes on in the buffer it had, divided by its new period. -/
theorem C93_crossover {slow fast slow' fast' : Nat} (hs : 0 < slow) (hf : 0 < fast) : TakesOver (SMACrossover (slow : Int) fast : Operator α) (SMACrossover (slow' : Int) fast') (vBuf (s := s)) vBuf 0
    (fun h k => if (h ++ k).length < slow' then Arith.zero - avgOver slow' slow (h ++ k) else avgOver fast' fast (h ++ k) - avgOver slow' slow (h ++ k)) := by
  refine takesOver_of (crossover_tracks hs hf s) rows_ok (out' := fun _ h => vF (if h.length < slow' then Arith.zero - avgOver slow' slow h else avgOver fast' fast h - avgOver slow' slow h))
    (st' := fun _ => crossoverState slow fast) (fun xs hx _ => ⟨?_, rfl⟩) isSeries_vBuf (fun _ _ => rfl)
  let V := fun h : List (Idx s → α) => xs.length < h.length ∧ xs <+: h
  have hV : ∀ x, ¬ V [x] := fun x hx' => absurd hx'.1 (not_lt_one hx)
  have hx' : ∀ h : List (Idx s → α), h ≠ [] → (vF (h.getLastD (zrow s)) : Val α).WF ∧ Tensors (vF (h.getLastD (zrow s)) : Val α) :=
    fun h _ => ⟨by simp, by simp [Tensors]⟩
  have F1 : Follows (Compose [SetDuring (.f (Tensor.scalar Arith.zero)) ((slow' : Int) - 1), SMA fast'] : Operator α) V
      (fun h : List (Idx s → α) => vF (h.getLastD (zrow s))) _ _ :=
    ChainFollows.compose (.cons ((sma_over hf V hV).self (zrow s)) (.cons (setDuring_rows _ _ _) (.nil _))) (by simp) hx'
  have F2 := BankFollows.join (.cons F1 (.cons ((sma_over (α := α) (p := slow') hs V hV).self (zrow s)) .nil)) (by
    intro h hh x hx'
    simp at hx'
    subst hx'
    exact ⟨by simp, by simp [Tensors]⟩)
  have F3 := ChainFollows.compose (ops := [Sub, Join [Compose [SetDuring (.f (Tensor.scalar Arith.zero)) ((slow' : Int) - 1), SMA fast'], SMA slow'], Fork 2])
    (.cons (fork2_follows (α := α) (V := V) (s := s) fun h : List (Idx s → α) => h.getLastD (zrow s)) (.cons F2
      (.cons (sub_follows (V := V) _ _) (.nil _)))) (by simp) hx'
  refine (F3.tracks (fun h a => by simp) (fun a => ⟨by simp, by simp [Tensors]⟩)).congr (fun h hh => ?_) (fun h => rfl)
  by_cases hl : h.length < slow'
  · rw [if_pos hl, if_pos (by omega)]; rfl
  · rw [if_neg hl, if_neg (by omega)]

example := C93_correlation (α := XR ℚ) (s := [2]) (p := 3) (q := 2) (by norm_num)
example := C93_bollinger (α := XR ℚ) (s := [2]) (p := 3) (q := 2) (by norm_num) 2 3
example := C93_momentum (α := XR ℚ) (s := [2]) (p := 3) (q := 2) (by norm_num)
example := C93_crossover (α := XR ℚ) (s := [2]) (slow := 4) (fast := 2) (slow' := 5) (fast' := 3) (by norm_num) (by norm_num)

end TS
