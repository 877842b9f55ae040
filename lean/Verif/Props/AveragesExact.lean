import Verif.Props.Common
import Verif.Lemmas.Stats
/-
C28, C29, C30: moving averages, standard deviation and Bollinger bands in exact arithmetic.
-/
namespace TS
open PyVal

section
variable {K : Type} [Field K] [LinearOrder K] [IsStrictOrderedRing K] [Transc K] [FloorRing K]

theorem StreamsAs.fin {op : Operator (XR K)} {y : List (XR K) → XR K} (h : StreamsAs op vSBuf vSBuf y) {y' : List K → K}
    (e : ∀ l, l ≠ [] → y (l.map XR.fin) = XR.fin (y' l)) : StreamsAs op finSeries finSeries y' := h.comap XR.fin XR.fin e

theorem movingAvg_pt {α : Type} [TFNum α] (p : Nat) (l : List α) : movingAvg p (l.map pt) = pt (movingAvg p l) := by
  funext c; rw [movingAvg_apply, map_pt_apply]; rfl

theorem expAvg_pt {α : Type} [TFNum α] (p : Nat) (l : List α) : expAvg p (l.map pt) = pt (expAvg p l) := by
  funext c; rw [expAvg_apply, map_pt_apply]; rfl

/-- moving average of numbers -/
def movingAvgK (p : Nat) (l : List K) : K := if l.length < p then 0 else avg (window p l)

theorem movingAvg_fin {p : Nat} (hp : 0 < p) (l : List K) : (movingAvg p (l.map XR.fin) : XR K) = XR.fin (movingAvgK p l) := by
  simp only [movingAvg, movingAvgK, List.length_map]
  split
  · simp
  · rename_i h
    rw [window_fin, XR.sum_fin, XR.ofInt_eq, XR.fin_div _ _ (by simp; omega), avg, window_length, Nat.min_eq_left (by omega)]
    simp

/-- recursive average of numbers -/
def recursiveAvgK (p : Nat) (f : K → K → K) (l : List K) : K := (l.drop p).foldl f (movingAvgK p (l.take p))

theorem recursiveAvg_fin {p : Nat} (hp : 0 < p) {f : XR K → XR K → XR K} {g : K → K → K} (h : ∀ a b, f (XR.fin a) (XR.fin b) = XR.fin (g a b))
    (l : List K) : recursiveAvg p f (l.map XR.fin) = XR.fin (recursiveAvgK p g l) := by
  simp only [recursiveAvg, recursiveAvgK, ← List.map_drop, ← List.map_take, movingAvg_fin hp]
  generalize movingAvgK p (l.take p) = a
  generalize l.drop p = l
  induction l generalizing a with
  | nil => rfl
  | cons x l ih => simp only [List.map_cons, List.foldl_cons, h, ih]

theorem movingAvgK_bounds {p : Nat} (hp : 0 < p) {l : List K} (hl : p ≤ l.length) {a b : K} (h : ∀ x ∈ window p l, a ≤ x ∧ x ≤ b) :
    a ≤ movingAvgK p l ∧ movingAvgK p l ≤ b := by
  have hne : window p l ≠ [] := window_ne_nil hp (by rw [← List.length_pos_iff]; omega)
  rw [movingAvgK, if_neg (by omega)]
  exact ⟨le_avg hne fun x hx => (h x hx).1, avg_le hne fun x hx => (h x hx).2⟩

theorem mem_of_mem_window {A : Type} {p : Nat} {l : List A} {x : A} (h : x ∈ window p l) : x ∈ l :=
  List.mem_reverse.1 (List.mem_of_mem_take h)

theorem recursiveAvgK_bounds {p : Nat} (hp : 0 < p) {w : K} (h0 : 0 ≤ w) (h1 : w ≤ 1) {l : List K} (hl : p ≤ l.length) {a b : K}
    (h : ∀ x ∈ l, a ≤ x ∧ x ≤ b) :
    a ≤ recursiveAvgK p (fun m x => m + w * (x - m)) l ∧ recursiveAvgK p (fun m x => m + w * (x - m)) l ≤ b := by
  rw [recursiveAvgK]
  have hm := movingAvgK_bounds (l := l.take p) hp (by simp [hl]) fun x hx => h x (List.mem_of_mem_take (mem_of_mem_window hx))
  have hd : ∀ x ∈ l.drop p, a ≤ x ∧ x ≤ b := fun x hx => h x (List.mem_of_mem_drop hx)
  generalize movingAvgK p (l.take p) = m at hm ⊢
  generalize l.drop p = l at hd ⊢
  induction l generalizing m with
  | nil => exact hm
  | cons x l ih =>
    refine ih _ ?_ fun y hy => hd y (by simp [hy])
    have hx := hd x (by simp)
    constructor
    · nlinarith [hm.1, hx.1]
    · nlinarith [hm.2, hx.2]

/-- The weight of a new sample in the exponential average. -/
theorem ema_weight {p : Nat} (hp : 0 < p) : 0 ≤ 2 / ((p : K) + 1) ∧ 2 / ((p : K) + 1) ≤ 1 := by
  have : (1 : K) ≤ p := by exact_mod_cast hp
  refine ⟨by positivity, ?_⟩
  rw [div_le_one (by linarith)]; linarith

theorem rma_weight {p : Nat} (hp : 0 < p) : 0 ≤ 1 / (p : K) ∧ 1 / (p : K) ≤ 1 := by
  have : (1 : K) ≤ p := by exact_mod_cast hp
  refine ⟨by positivity, ?_⟩
  rw [div_le_one (by linarith)]; linarith

theorem expAvg_fin {p : Nat} (hp : 0 < p) (l : List K) :
    expAvg p (l.map XR.fin) = XR.fin (recursiveAvgK p (fun m x => m + 2 / ((p : K) + 1) * (x - m)) l) := by
  apply recursiveAvg_fin hp
  intro a b
  simp only [XR.ofRat_eq, XR.fin_mul, XR.fin_add]
  congr 1
  push_cast
  ring

theorem rollAvg_fin {p : Nat} (hp : 0 < p) (l : List K) :
    rollAvg p (l.map XR.fin) = XR.fin (recursiveAvgK p (fun m x => m + 1 / (p : K) * (x - m)) l) := by
  apply recursiveAvg_fin hp
  intro a b
  have : (p : K) ≠ 0 := by simpa using hp.ne'
  simp only [XR.ofInt_eq, XR.fin_mul, XR.fin_add]
  rw [XR.fin_div _ _ (by simpa using this)]
  congr 1
  push_cast
  field_simp
  ring

/-! ### C28 -/

/-- **C28, simple moving average**: from index `p - 1` on between all bounds of the last `p` inputs. -/
theorem C28_sma {p : Nat} (hp : 0 < p) {xs : List K} (hx : xs ≠ []) :
    ∃ os sf s0, call (SMA (p : Int)) (finSeries xs) none = .ok (finSeries os, sf, s0) ∧ ∃ hl : os.length = xs.length,
      ∀ i (hi : i < xs.length), p ≤ i + 1 → ∀ a b, (∀ x ∈ lastOf p xs i hi, a ≤ x ∧ x ≤ b) → a ≤ os[i] ∧ os[i] ≤ b := by
  have h := ((C25_sma (α := XR K) hp []).scalar fun k _ => movingAvg_pt p k).fin fun l _ => movingAvg_fin hp l
  obtain ⟨os, sf, s0, h1, hl, h2⟩ := h.at hx
  refine ⟨os, sf, s0, h1, hl, fun i hi hpi a b hab => ?_⟩
  rw [h2 i hi]
  exact movingAvgK_bounds hp (by simp; omega) (by rwa [window_take hi hpi])
example := C28_sma (K := ℚ) (p := 2) (by norm_num) (xs := [3, 1, 4]) (by simp)

theorem recursive_bounds {op : Operator (XR K)} {y : List (XR K) → XR K} (h : StreamsAs op vSBuf vSBuf y) {p : Nat} (hp : 0 < p) {w : K}
    (hw : 0 ≤ w ∧ w ≤ 1) (hy : ∀ l : List K, y (l.map XR.fin) = XR.fin (recursiveAvgK p (fun m x => m + w * (x - m)) l)) {xs : List K} (hx : xs ≠ []) :
    ∃ os sf s0, call op (finSeries xs) none = .ok (finSeries os, sf, s0) ∧ ∃ hl : os.length = xs.length,
      ∀ i (hi : i < xs.length), p ≤ i + 1 → ∀ a b, (∀ x ∈ xs.take (i + 1), a ≤ x ∧ x ≤ b) → a ≤ os[i] ∧ os[i] ≤ b := by
  obtain ⟨os, sf, s0, h1, hl, h2⟩ := (h.fin fun l _ => hy l).at hx
  refine ⟨os, sf, s0, h1, hl, fun i hi hpi a b hab => ?_⟩
  rw [h2 i hi]
  exact recursiveAvgK_bounds hp hw.1 hw.2 (by simp; omega) hab

/-- **C28, exponential moving average**: from index `p - 1` on between all bounds of the inputs so far. -/
theorem C28_ema {p : Nat} (hp : 0 < p) {xs : List K} (hx : xs ≠ []) :
    ∃ os sf s0, call (EMA (p : Int)) (finSeries xs) none = .ok (finSeries os, sf, s0) ∧ ∃ hl : os.length = xs.length,
      ∀ i (hi : i < xs.length), p ≤ i + 1 → ∀ a b, (∀ x ∈ xs.take (i + 1), a ≤ x ∧ x ≤ b) → a ≤ os[i] ∧ os[i] ≤ b :=
  recursive_bounds ((C26_ema (α := XR K) hp []).scalar fun k _ => expAvg_pt p k) hp (ema_weight hp) (expAvg_fin hp) hx
example := C28_ema (K := ℚ) (p := 2) (by norm_num) (xs := [3, 1, 4]) (by simp)

/-- **C28, rolling moving average**: from index `p - 1` on between all bounds of the inputs so far. -/
theorem C28_rma {p : Nat} (hp : 0 < p) {xs : List K} (hx : xs ≠ []) :
    ∃ os sf s0, call (RMA (p : Int)) (finSeries xs) none = .ok (finSeries os, sf, s0) ∧ ∃ hl : os.length = xs.length,
      ∀ i (hi : i < xs.length), p ≤ i + 1 → ∀ a b, (∀ x ∈ xs.take (i + 1), a ≤ x ∧ x ≤ b) → a ≤ os[i] ∧ os[i] ≤ b :=
  recursive_bounds ((C27_rma (α := XR K) hp []).scalar fun k _ => rollAvg_pt p k) hp (rma_weight hp) (rollAvg_fin hp) hx
example := C28_rma (K := ℚ) (p := 2) (by norm_num) (xs := [3, 1, 4]) (by simp)

/-- **C28, constant series**: the three averages of a constant series are zero below index `p - 1` and the
constant from there on. -/
theorem C28_constant {p : Nat} (hp : 0 < p) {n : Nat} (hn : 0 < n) (c : K) (op : Operator (XR K))
    (hop : op = SMA (p : Int) ∨ op = EMA (p : Int) ∨ op = RMA (p : Int)) :
    ∃ sf s0, call op (finSeries (List.replicate n c)) none =
      .ok (finSeries ((List.range n).map fun i => if i + 1 < p then 0 else c), sf, s0) := by
  have key : ∀ (w : K), 0 ≤ w → w ≤ 1 → ∀ i < n, recursiveAvgK p (fun m x => m + w * (x - m)) ((List.replicate n c).take (i + 1)) = if i + 1 < p then 0 else c := by
    intro w h0 h1 i hi
    split
    · rw [recursiveAvgK, List.drop_of_length_le (by simp; omega), List.foldl_nil, movingAvgK, if_pos (by simp; omega)]
    · have := recursiveAvgK_bounds (l := (List.replicate n c).take (i + 1)) hp h0 h1 (by simp; omega) (a := c) (b := c) (by
        intro x hx
        obtain rfl := List.eq_of_mem_replicate (List.mem_of_mem_take hx)
        exact ⟨le_rfl, le_rfl⟩)
      exact le_antisymm this.2 this.1
  have hne : List.replicate n c ≠ [] := by simpa using hn.ne'
  rcases hop with rfl | rfl | rfl
  · obtain ⟨sf, s0, h⟩ := (((C25_sma (α := XR K) hp []).scalar fun k _ => movingAvg_pt p k).fin fun l _ => movingAvg_fin hp l).at' hne
    refine ⟨sf, s0, ?_⟩
    rw [h]
    congr 3
    simp only [scan, List.length_replicate, List.nil_append]
    refine List.map_congr_left fun i hi => ?_
    rw [List.mem_range] at hi
    split
    · rw [movingAvgK, if_pos (by simp; omega)]
    · have := movingAvgK_bounds (l := (List.replicate n c).take (i + 1)) hp (by simp; omega) (a := c) (b := c) (by
        intro x hx
        obtain rfl := List.eq_of_mem_replicate (List.mem_of_mem_take (mem_of_mem_window hx))
        exact ⟨le_rfl, le_rfl⟩)
      exact le_antisymm this.2 this.1
  · obtain ⟨sf, s0, h⟩ := (((C26_ema (α := XR K) hp []).scalar fun k _ => expAvg_pt p k).fin fun l _ => expAvg_fin hp l).at' hne
    refine ⟨sf, s0, ?_⟩
    rw [h]
    congr 3
    simp only [scan, List.length_replicate, List.nil_append]
    exact List.map_congr_left fun i hi => key _ (ema_weight hp).1 (ema_weight hp).2 i (List.mem_range.1 hi)
  · obtain ⟨sf, s0, h⟩ := (((C27_rma (α := XR K) hp []).scalar fun k _ => rollAvg_pt p k).fin fun l _ => rollAvg_fin hp l).at' hne
    refine ⟨sf, s0, ?_⟩
    rw [h]
    congr 3
    simp only [scan, List.length_replicate, List.nil_append]
    exact List.map_congr_left fun i hi => key _ (rma_weight hp).1 (rma_weight hp).2 i (List.mem_range.1 hi)

end

example : output (call (RMA 2) (series [3, 5, 1, 1]) none) = .ok (series [0, 4, 5 / 2, 7 / 4]) := by decide +kernel
example : output (call (EMA 2) (series [3, 3, 3]) none) = .ok (series [0, 3, 3]) := by decide +kernel

/-! ### C29 -/

/-- moving standard deviation of real numbers -/
noncomputable def movingStdR (p : Nat) (l : List ℝ) : ℝ := if l.length < p then 0 else stdDev (window p l)

theorem movingStd_fin {p : Nat} (hp : 0 < p) (l : List ℝ) : movingStd p (l.map XR.fin) = XR.fin (movingStdR p l) := by
  simp only [movingStd, movingStdR, List.length_map]
  split
  · simp
  · rw [window_fin, XR.std_fin (window_ne_nil hp (by rw [← List.length_pos_iff]; omega))]

theorem C29_msd_streams {α : Type} [TFNum α] {p : Nat} (hp : 0 < p) (s : List Nat) :
    StreamsAs (MSD (p : Int) : Operator α) (vBuf (s := s)) vBuf (movingStd p) :=
  (msd_tracks hp s).streams rows_ok isSeries_vBuf fun _ => rfl
example := C29_msd_streams (α := XR ℚ) (p := 2) (by norm_num) [2]

theorem msd_reals {p : Nat} (hp : 0 < p) : StreamsAs (MSD (p : Int) : Operator (XR ℝ)) finSeries finSeries (movingStdR p) :=
  ((C29_msd_streams hp []).scalar fun k _ => movingStd_pt p k).fin fun l _ => movingStd_fin hp l

theorem movingStdR_take {p i : Nat} {xs : List ℝ} (hi : i < xs.length) :
    movingStdR p (xs.take (i + 1)) = if i + 1 < p then 0 else stdDev (lastOf p xs i hi) := by
  unfold movingStdR
  rw [List.length_take, Nat.min_eq_left (by omega)]
  split
  · rfl
  · rw [window_take hi (by omega)]

/-- **C29 Moving standard deviation**, real numbers: zero below index `p - 1`, then the population standard
deviation of the last `p` inputs. -/
theorem C29_msd {p : Nat} (hp : 0 < p) {xs : List ℝ} (hx : xs ≠ []) :
    ∃ os sf s0, call (MSD (p : Int)) (finSeries xs) none = .ok (finSeries os, sf, s0) ∧ ∃ hl : os.length = xs.length,
      ∀ i (hi : i < xs.length), os[i] = if i + 1 < p then 0 else stdDev (lastOf p xs i hi) := by
  obtain ⟨os, sf, s0, h1, hl, h2⟩ := (msd_reals hp).at hx
  exact ⟨os, sf, s0, h1, hl, fun i hi => by rw [h2 i hi, movingStdR_take hi]⟩
example := C29_msd (p := 2) (by norm_num) (xs := [3, 1, 4]) (by simp)

/-- **C29**: never negative, and (from index `p - 1` on) zero exactly when the last `p` inputs are equal. -/
theorem C29_msd_zero {p : Nat} (hp : 0 < p) {xs : List ℝ} (hx : xs ≠ []) :
    ∃ os sf s0, call (MSD (p : Int)) (finSeries xs) none = .ok (finSeries os, sf, s0) ∧ ∃ hl : os.length = xs.length,
      ∀ i (hi : i < xs.length), 0 ≤ os[i] ∧
        (p ≤ i + 1 → (os[i] = 0 ↔ ∀ j k, (hj : j < p) → (hk : k < p) → xs[i - j] = xs[i - k])) := by
  obtain ⟨os, sf, s0, h1, hl, h2⟩ := C29_msd hp hx
  refine ⟨os, sf, s0, h1, hl, fun i hi => ⟨?_, fun hpi => ?_⟩⟩
  · rw [h2 i hi]
    split
    · exact le_rfl
    · exact Real.sqrt_nonneg _
  · rw [h2 i hi, if_neg (by omega), stdDev, Real.sqrt_eq_zero (variance_nonneg _), variance_eq_zero]
    constructor
    · intro h j k hj hk
      exact h _ (List.mem_ofFn.2 ⟨⟨j, hj⟩, rfl⟩) _ (List.mem_ofFn.2 ⟨⟨k, hk⟩, rfl⟩)
    · intro h x hx y hy
      obtain ⟨j, rfl⟩ := List.mem_ofFn.1 hx
      obtain ⟨k, rfl⟩ := List.mem_ofFn.1 hy
      exact h j k j.2 k.2
example := C29_msd_zero (p := 2) (by norm_num) (xs := [3, 1, 4]) (by simp)

theorem stdDev_shift (l : List ℝ) (c : ℝ) : stdDev (l.map (· + c)) = stdDev l := by rw [stdDev, variance_shift, stdDev]

theorem stdDev_smul (l : List ℝ) (c : ℝ) : stdDev (l.map (c * ·)) = |c| * stdDev l := by
  rw [stdDev, variance_smul, Real.sqrt_mul (sq_nonneg c), Real.sqrt_sq_eq_abs, stdDev]

theorem scan_of_map {A B C : Type} {y : List B → C} {y' : List A → C} {f : A → B} (e : ∀ l, y (l.map f) = y' l) (xs : List A) :
    scan y [] (xs.map f) = scan y' [] xs := by
  simp [scan, ← List.map_take, e]

/-- **C29**: adding a constant to the series changes nothing. -/
theorem C29_msd_shift {p : Nat} (hp : 0 < p) {xs : List ℝ} (hx : xs ≠ []) (c : ℝ) :
    ∃ os sf s0 sf' s0', call (MSD (p : Int)) (finSeries xs) none = .ok (finSeries os, sf, s0) ∧
      call (MSD (p : Int)) (finSeries (xs.map (· + c))) none = .ok (finSeries os, sf', s0') := by
  obtain ⟨sf, s0, h⟩ := (msd_reals hp).at' hx
  obtain ⟨sf', s0', h'⟩ := (msd_reals hp).at' (xs := xs.map (· + c)) (by simpa using hx)
  refine ⟨_, _, _, sf', s0', h, ?_⟩
  rw [h', scan_of_map]
  intro l
  simp only [movingStdR, List.length_map, window_map, stdDev_shift]
example := C29_msd_shift (p := 2) (by norm_num) (xs := [3, 1, 4]) (by simp) 2

/-- **C29**: multiplying the series by `c` multiplies the outputs by `|c|`. -/
theorem C29_msd_scale {p : Nat} (hp : 0 < p) {xs : List ℝ} (hx : xs ≠ []) (c : ℝ) :
    ∃ os sf s0 sf' s0', call (MSD (p : Int)) (finSeries xs) none = .ok (finSeries os, sf, s0) ∧
      call (MSD (p : Int)) (finSeries (xs.map (c * ·))) none = .ok (finSeries (os.map (|c| * ·)), sf', s0') := by
  obtain ⟨sf, s0, h⟩ := (msd_reals hp).at' hx
  obtain ⟨sf', s0', h'⟩ := (msd_reals hp).at' (xs := xs.map (c * ·)) (by simpa using hx)
  refine ⟨_, _, _, sf', s0', h, ?_⟩
  rw [h', scan_map, scan_of_map]
  intro l
  simp only [movingStdR, List.length_map, window_map, stdDev_smul]
  split <;> simp

example : output (call (MSD 2) (series [1, 3, 5, 5]) none) = .ok (series [0, 1, 1, 0]) := by decide +kernel

/-! ### C30 -/

/-- three series of tensors -/
abbrev vBuf3 {α : Type} {s : List Nat} (l : List ((Idx s → α) × (Idx s → α) × (Idx s → α))) : Val α :=
  .tup [vBuf (l.map (·.1)), vBuf (l.map (·.2.1)), vBuf (l.map (·.2.2))]

/-- three series of numbers -/
abbrev vSBuf3 {α : Type} (l : List (α × α × α)) : Val α :=
  .tup [vSBuf (l.map (·.1)), vSBuf (l.map (·.2.1)), vSBuf (l.map (·.2.2))]

/-- the three Bollinger bands -/
def bands3 {E : Type} [Arith E] (p : Nat) (k : ℚ) (h : List E) : E × E × E :=
  (movingAvg p h - movingStd p h * Arith.ofRat k, movingAvg p h, movingAvg p h + movingStd p h * Arith.ofRat k)

/-- **C30, every arithmetic**: lower, middle and upper band. -/
theorem C30_bollinger_streams {α : Type} [TFNum α] {p : Nat} (hp : 0 < p) (k : ℚ) (s : List Nat) :
    StreamsAs (BollingerBands (p : Int) k : Operator α) (vBuf (s := s)) vBuf3 (bands3 p k) :=
  (bollinger_tracks hp k s).streams rows_ok (dec := fun b => .tup [vF b.1, vF b.2.1, vF b.2.2])
    (fun l => isSeries_tup_map (A := (Idx s → α) × (Idx s → α) × (Idx s → α)) (es := [fun b => vF b.1, fun b => vF b.2.1, fun b => vF b.2.2])
      (.cons (rowSeries_map _ l) (.cons (rowSeries_map _ l) (.cons (rowSeries_map _ l) .nil)))) fun _ => rfl
example := C30_bollinger_streams (α := XR ℚ) (p := 2) (by norm_num) 2 [2]

theorem C30_bollinger_scalar {α : Type} [TFNum α] {p : Nat} (hp : 0 < p) (k : ℚ) :
    StreamsAs (BollingerBands (p : Int) k : Operator α) vSBuf vSBuf3 (bands3 p k) := by
  have := (C30_bollinger_streams (α := α) hp k []).comap (y' := bands3 p k) pt (Prod.map pt (Prod.map pt pt)) fun l _ =>
    (congrArg₂ (fun a b : Idx [] → α => (a - b * Arith.ofRat k, a, a + b * Arith.ofRat k)) (movingAvg_pt p l) (movingStd_pt p l)).trans rfl
  have e : (fun l : List (α × α × α) => vBuf3 (l.map (Prod.map pt (Prod.map pt pt)))) = vSBuf3 := by
    funext l; simp [vBuf3, vSBuf3, vSBuf, Function.comp_def]
  rwa [e] at this
example := C30_bollinger_scalar (α := XR ℚ) (p := 2) (by norm_num) 2

/-- **C30 Bollinger bands**, real numbers: the middle band is what SMA outputs, the outer bands are `k` times what
the moving standard deviation outputs away from it, on both sides, and the bands are ordered. -/
theorem C30_bollinger {p : Nat} (hp : 0 < p) {k : ℚ} (hk : 0 ≤ k) {xs : List ℝ} (hx : xs ≠ []) :
    ∃ lo mid up sd : List ℝ, (∃ sf s0, call (BollingerBands (p : Int) k) (finSeries xs) none = .ok (.tup [finSeries lo, finSeries mid, finSeries up], sf, s0)) ∧
      (∃ sf s0, call (SMA (p : Int)) (finSeries xs) none = .ok (finSeries mid, sf, s0)) ∧
      (∃ sf s0, call (MSD (p : Int)) (finSeries xs) none = .ok (finSeries sd, sf, s0)) ∧
      ∃ (l1 : lo.length = xs.length) (l2 : mid.length = xs.length) (l3 : up.length = xs.length) (l4 : sd.length = xs.length),
      ∀ i (hi : i < xs.length), lo[i] ≤ mid[i] ∧ mid[i] ≤ up[i] ∧ up[i] - mid[i] = k * sd[i] ∧ mid[i] - lo[i] = k * sd[i] := by
  obtain ⟨sf1, s1, h1⟩ := (((C25_sma (α := XR ℝ) hp []).scalar fun k _ => movingAvg_pt p k).fin fun l _ => movingAvg_fin hp l).at' hx
  obtain ⟨sf2, s2, h2⟩ := (msd_reals hp).at' hx
  let y : List ℝ → ℝ × ℝ × ℝ := fun l =>
    (movingAvgK p l - movingStdR p l * k, movingAvgK p l, movingAvgK p l + movingStdR p l * k)
  have h3 := (C30_bollinger_scalar (α := XR ℝ) hp k).comap (y' := y) XR.fin (Prod.map XR.fin (Prod.map XR.fin XR.fin)) (fun l _ => by
    simp [bands3, movingAvg_fin hp, movingStd_fin hp, y])
  obtain ⟨sf3, s3, h3⟩ := h3.at' hx
  refine ⟨scan (fun l => (y l).1) [] xs, scan (movingAvgK p) [] xs, scan (fun l => (y l).2.2) [] xs, scan (movingStdR p) [] xs,
    ⟨sf3, s3, ?_⟩, ⟨sf1, s1, h1⟩, ⟨sf2, s2, h2⟩, by simp, by simp, by simp, by simp, fun i hi => ?_⟩
  · rw [h3]
    simp [vSBuf3, finSeries, scan_map, y]
  · have hs : 0 ≤ movingStdR p (xs.take (i + 1)) := by
      unfold movingStdR; split
      · exact le_rfl
      · exact Real.sqrt_nonneg _
    have hk' : (0 : ℝ) ≤ k := by exact_mod_cast hk
    have := mul_nonneg hk' hs
    simp only [scan_getElem, List.nil_append, y]
    refine ⟨by linarith, by linarith, by ring, by ring⟩

example : output (call (BollingerBands 2 3) (series [1, 3, 5, 5]) none) =
    .ok (.tup [series [0, -1, 1, 5], series [0, 2, 4, 5], series [0, 5, 7, 5]]) := by decide +kernel

end TS
