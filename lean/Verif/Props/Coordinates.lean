import Verif.Props.Windows
import Verif.Lemmas.Coord
/-
C53: series of tensors are processed coordinate by coordinate.
-/
namespace TS
open PyVal

/-- Coordinate `c` of every slice of a series of tensors of shape `s`: a vector.  (Tensors of other shapes are left alone.) -/
def Tensor.coord {β : Type} {s : List Nat} (c : Idx s) (t : Tensor β) : Tensor β :=
  match t with
  | ⟨[], v⟩ => ⟨[], v⟩
  | ⟨n :: s', v⟩ => if h : s' = s then ⟨[n], fun i => v (i.1, h ▸ c)⟩ else ⟨n :: s', v⟩

/-- Coordinate `c` of a float or int series. -/
def Leaf.coord {α : Type} {s : List Nat} (c : Idx s) : Leaf α → Leaf α
  | .f t => .f (t.coord c)
  | .i t => .i (t.coord c)
  | .b t => .b (t.coord c)
  | l => l

/-- Coordinate `c` of a nested structure of series. -/
def atCoord {α : Type} {s : List Nat} (c : Idx s) (v : Val α) : Val α := v.map (Leaf.coord c)

/-- Streaming `op` over series (encoded by `ser`) of tensors of shape `s` succeeds and gives, at every coordinate, what streaming the series of that coordinate gives. -/
def PerCoordinate {α A : Type} (op : Operator α) (s : List Nat) (ser : List A → Val α) : Prop :=
  ∀ xs : List A, xs ≠ [] → ∃ out sf s0, call op (ser xs) none = .ok (out, sf, s0) ∧
    ∀ c : Idx s, ∃ sf' s0', call op (atCoord c (ser xs)) none = .ok (atCoord c out, sf', s0')

section
variable {α A A' B B' : Type} {s : List Nat}

theorem Tensor.coord_pack {β : Type} (c : Idx s) (l : List (Idx s → β)) : (Tensor.pack s l).coord c = Tensor.pack [] (l.map fun x _ => x c) := by
  simp only [Tensor.pack, Tensor.coord, dif_pos]
  have : ∀ (n : Nat) (h : l.length = n) (f : Idx [n] → β), (∀ i : Fin l.length, l.get i c = f (h ▸ i, ())) →
      (⟨[l.length], fun i => l.get i.1 c⟩ : Tensor β) = ⟨[n], f⟩ := by
    rintro n rfl f hf
    congr 1
    funext i
    exact hf i.1
  refine this _ (by simp) _ fun i => ?_
  have cast : ∀ (m n : Nat) (h : m = n) (i : Fin m), ((h ▸ i : Fin n) : Nat) = i := by rintro m _ rfl i; rfl
  simp only [List.get_eq_getElem, List.getElem_map]
  exact congrFun (getElem_congr rfl (cast _ _ _ _).symm _) c

theorem atCoord_vBuf (c : Idx s) (l : List (Idx s → α)) : atCoord c (vBuf l) = vSBuf (l.map (· c)) := by
  simp only [atCoord, vBuf, vSBuf, PyVal.map_leaf, Leaf.coord, Tensor.coord_pack, List.map_map]
  rfl

theorem atCoord_vIsBuf (c : Idx s) (l : List (Idx s → Int)) : atCoord c (vIsBuf l : Val α) = vIBuf (l.map (· c)) := by
  simp only [atCoord, vIsBuf, vIBuf, PyVal.map_leaf, Leaf.coord, Tensor.coord_pack, List.map_map]
  rfl

theorem atCoord_tup (c : Idx s) (vs : List (Val α)) : atCoord c (.tup vs) = .tup (vs.map (atCoord c)) := by
  simp [atCoord, PyVal.tup, PyVal.map_node]

/-- From functions of the history that commute with taking coordinates. -/
theorem StreamsAs.perCoord {op : Operator α} {ser : List A → Val α} {outs : List B → Val α} {y : List A → B} (h : StreamsAs op ser outs y)
    {ser' : List A' → Val α} {outs' : List B' → Val α} {y' : List A' → B'} (h' : StreamsAs op ser' outs' y') (pa : Idx s → A → A') (pb : Idx s → B → B')
    (e : ∀ k c, k ≠ [] → y' (k.map (pa c)) = pb c (y k)) (hs : ∀ c l, atCoord c (ser l) = ser' (l.map (pa c))) (ho : ∀ c l, atCoord c (outs l) = outs' (l.map (pb c))) :
    PerCoordinate op s ser := by
  intro xs hx
  obtain ⟨sf, s0, h1⟩ := h.at' hx
  refine ⟨_, sf, s0, h1, fun c => ?_⟩
  obtain ⟨sf', s0', h2⟩ := h'.at' (xs := xs.map (pa c)) (by simpa using hx)
  refine ⟨sf', s0', ?_⟩
  rw [hs, h2, ho]
  have := scan_comap (fun k hk => e k c hk) [] xs
  rw [List.map_nil] at this
  rw [this]

/-- One float series in, one out. -/
theorem StreamsAs.perCoord1 {op : Operator α} {y : ∀ s, List (Idx s → α) → Idx s → α} (h : ∀ s, StreamsAs op (vBuf (s := s)) (vBuf (s := s)) (y s)) (y' : List α → α)
    (e : ∀ s k c, y s k c = y' (k.map (· c))) (s : List Nat) : PerCoordinate op s (vBuf (s := s)) :=
  (h s).perCoord ((h []).scalar (y' := y') fun k _ => by funext c; rw [e]; congr 1; simp [Function.comp_def, pt]) (fun c x => x c) (fun c x => x c)
    (fun k c _ => (e s k c).symm) (fun c l => atCoord_vBuf c l) (fun c l => atCoord_vBuf c l)

end

section
variable {α : Type} [TFNum α]

/-- **C53**, every arithmetic, every element shape: `SimpleMovingAverage`, -/
theorem C53_sma {p : Nat} (hp : 0 < p) (s : List Nat) : PerCoordinate (SMA (p : Int) : Operator α) s (vBuf (s := s)) :=
  StreamsAs.perCoord1 (C25_sma hp) (movingAvg p) (fun _ k c => movingAvg_apply p k c) s
example := C53_sma (α := XR ℚ) (p := 2) (by norm_num) [2]

/-- `ExponentialMovingAverage`, -/
theorem C53_ema {p : Nat} (hp : 0 < p) (s : List Nat) : PerCoordinate (EMA (p : Int) : Operator α) s (vBuf (s := s)) :=
  StreamsAs.perCoord1 (C26_ema hp) (expAvg p) (fun _ k c => expAvg_apply p k c) s
example := C53_ema (α := XR ℚ) (p := 2) (by norm_num) [2]

/-- `RollingMovingAverage`, -/
theorem C53_rma {p : Nat} (hp : 0 < p) (s : List Nat) : PerCoordinate (RMA (p : Int) : Operator α) s (vBuf (s := s)) :=
  StreamsAs.perCoord1 (C27_rma hp) (rollAvg p) (fun _ k c => rollAvg_apply p k c) s
example := C53_rma (α := XR ℚ) (p := 2) (by norm_num) [2]

/-- `MovingStandardDeviation`, -/
theorem C53_msd {p : Nat} (hp : 0 < p) (s : List Nat) : PerCoordinate (MSD (p : Int) : Operator α) s (vBuf (s := s)) :=
  StreamsAs.perCoord1 (C29_msd_streams hp) (movingStd p) (fun _ k c => movingStd_apply p k c) s
example := C53_msd (α := XR ℚ) (p := 2) (by norm_num) [2]

/-- `SimpleMovingAverageCrossover`, -/
theorem C53_crossover {slow fast : Nat} (hs : 0 < slow) (hf : 0 < fast) (s : List Nat) : PerCoordinate (SMACrossover (slow : Int) fast : Operator α) s (vBuf (s := s)) :=
  StreamsAs.perCoord1 (C32_crossover hs hf) (smaDiff slow fast) (fun _ k c => by
    simp only [smaDiff, sub_apply', movingAvg_apply, List.length_map]
    congr 1
    split
    · rfl
    · rw [movingAvg_apply]) s
example := C53_crossover (α := XR ℚ) (slow := 3) (fast := 2) (by norm_num) (by norm_num) [2]

/-- `Lag`, -/
theorem C53_lag {p : Nat} (hp : 0 < p) (s : List Nat) : PerCoordinate (Lag (p : Int) : Operator α) s (vBuf (s := s)) :=
  StreamsAs.perCoord1 (C17_lag_streams hp) (lagged Arith.zero p) (fun _ k c => lagged_apply p k c) s
example := C53_lag (α := XR ℚ) (p := 2) (by norm_num) [2]

theorem getLastD_apply {ι E : Type} [Arith E] (k : List (ι → E)) (c : ι) : k.getLastD Arith.zero c = (k.map (· c)).getLastD Arith.zero := by
  induction k using List.reverseRecOn with
  | nil => rfl
  | append_singleton k x _ => rw [List.map_append, List.map_singleton, getLastD_snoc, getLastD_snoc]

/-- `Momentum`, -/
theorem C53_momentum {p : Nat} (hp : 0 < p) (s : List Nat) : PerCoordinate (Momentum (p : Int) : Operator α) s (vBuf (s := s)) :=
  StreamsAs.perCoord1 (C19_momentum_streams hp) (momentum p) (fun _ k c => by
    simp only [momentum, List.length_map]
    split
    · rfl
    · rw [sub_apply', lagged_apply, getLastD_apply]) s
example := C53_momentum (α := XR ℚ) (p := 2) (by norm_num) [2]

/-- `BollingerBands`, -/
theorem C53_bollinger {p : Nat} (hp : 0 < p) (k : ℚ) (s : List Nat) : PerCoordinate (BollingerBands (p : Int) k : Operator α) s (vBuf (s := s)) :=
  (C30_bollinger_streams hp k s).perCoord (C30_bollinger_scalar hp k) (fun c x => x c) (fun c x => (x.1 c, x.2.1 c, x.2.2 c))
    (fun l c _ => by simp only [bands3, sub_apply', add_apply', mul_apply', ofRat_apply', movingAvg_apply, movingStd_apply]) (fun c l => atCoord_vBuf c l)
    (fun c l => by simp [vBuf3, vSBuf3, atCoord_tup, atCoord_vBuf, Function.comp_def])
example := C53_bollinger (α := XR ℚ) (p := 2) (by norm_num) 2 [2]

/-- `MovingAverageConvergenceDivergence`, -/
theorem C53_macd {slow fast m : Nat} (h1 : 0 < slow) (h2 : 0 < fast) (h3 : 0 < m) (s : List Nat) :
    PerCoordinate (MACD (slow : Int) fast m : Operator α) s (vBuf (s := s)) :=
  (C31_macd h1 h2 h3 s).perCoord ((C31_macd (α := α) h1 h2 h3 []).comap (y' := macdAll slow fast m) pt (Prod.map pt (Prod.map pt (Prod.map pt (Prod.map pt pt)))) fun l _ => by
      have e : (l.map pt).map (· ()) = l := by simp [Function.comp_def, pt]
      simp only [macdAll, Prod.map, Prod.mk.injEq]
      refine ⟨funext fun _ => ?_, funext fun _ => ?_, funext fun _ => ?_, funext fun _ => ?_, funext fun _ => ?_⟩
      · rw [expAvg_apply, e]; rfl
      · rw [expAvg_apply, e]; rfl
      · rw [macdLine_apply, e]; rfl
      · rw [macdSignal_apply, e]; rfl
      · rw [macdHist_apply, e]; rfl) (fun c x => x c) (fun c x => (x.1 c, x.2.1 c, x.2.2.1 c, x.2.2.2.1 c, x.2.2.2.2 c))
    (fun l c _ => by simp only [macdAll, expAvg_apply, macdLine_apply, macdSignal_apply, macdHist_apply]) (fun c l => atCoord_vBuf c l)
    (fun c l => by simp [vBuf5, atCoord_tup, atCoord_vBuf, Function.comp_def, vSBuf])
example := C53_macd (α := XR ℚ) (slow := 3) (fast := 2) (m := 2) (by norm_num) (by norm_num) (by norm_num) [2]

/-- `Correlation`, -/
theorem C53_correlation {p : Nat} (hp : 0 < p) (s : List Nat) : PerCoordinate (Correlation (p : Int) : Operator α) s (vBuf2 (s := s)) :=
  (C41_correlation_streams hp s).perCoord (C41_correlation_scalar hp) (fun c x => (x.1 c, x.2 c)) (fun c x => x c) (fun l c _ => (corrOf_apply p l c).symm)
    (fun c l => by simp [vBuf2, vSBuf2, atCoord_tup, atCoord_vBuf, Function.comp_def]) (fun c l => atCoord_vBuf c l)
example := C53_correlation (α := XR ℚ) (p := 2) (by norm_num) [2]

/-- `ZeroCrossoverSignal`, -/
theorem C53_zero_crossover (s : List Nat) : PerCoordinate (ZeroCrossoverSignal : Operator α) s (vBuf (s := s)) :=
  (C33_zero_crossover_streams s).perCoord ((C33_zero_crossover_streams (α := α) []).scalarInt (y := fun h => TFNum.toInt (crossing h))) (fun c x => x c) (fun c x => x c)
    (fun _ _ _ => rfl) (fun c l => atCoord_vBuf c l) (fun c l => atCoord_vIsBuf c l)
example := C53_zero_crossover (α := XR ℚ) [2]

/-- and the two trading signals. -/
theorem C53_sma_signal {slow fast : Nat} (hs : 0 < slow) (hf : 0 < fast) (s : List Nat) : PerCoordinate (SMACrossoverSignal (slow : Int) fast : Operator α) s (vBuf (s := s)) :=
  ((smaSignal_tracks (α := α) hs hf s).streams rows_ok isSeries_vIsBuf (y := fun h c => smaSignal slow fast (h.map (· c))) fun _ => rfl).perCoord (C34_sma_streams hs hf)
    (fun c x => x c) (fun c x => x c) (fun _ _ _ => rfl) (fun c l => atCoord_vBuf c l) (fun c l => atCoord_vIsBuf c l)
example := C53_sma_signal (α := XR ℚ) (slow := 3) (fast := 2) (by norm_num) (by norm_num) [2]

theorem C53_macd_signal {slow fast m : Nat} (hs : 0 < slow) (hf : 0 < fast) (hm : 0 < m) (s : List Nat) :
    PerCoordinate (MACDSignal (slow : Int) fast m : Operator α) s (vBuf (s := s)) :=
  ((macdTrade_tracks (α := α) hs hf hm s).streams rows_ok isSeries_vIsBuf (y := fun h c => macdTrade slow fast m (h.map (· c))) fun _ => rfl).perCoord (C34_macd_streams hs hf hm)
    (fun c x => x c) (fun c x => x c) (fun _ _ _ => rfl) (fun c l => atCoord_vBuf c l) (fun c l => atCoord_vIsBuf c l)

end

/-- a series of three vectors of length two -/
def pairSeries : Val (XR ℚ) := vBuf (s := [2]) [fun c => if c.1 = 0 then .fin 1 else .fin 10, fun c => if c.1 = 0 then .fin 3 else .fin 20,
  fun c => if c.1 = 0 then .fin 5 else .fin 60]

example : atCoord (s := [2]) (0, ()) pairSeries = series [1, 3, 5] ∧ atCoord (s := [2]) (1, ()) pairSeries = series [10, 20, 60] :=
  ⟨by decide +kernel, by decide +kernel⟩

example : (output (call (SMA 2) pairSeries none)).map (atCoord (s := [2]) (1, ())) = .ok (series [0, 15, 40]) := by decide +kernel

end TS
