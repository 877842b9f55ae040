import Verif.Lemmas.Accuracy
import Verif.Props.Signals
import Verif.Props.Bands
import Verif.Props.Rounding
/-
C70: the errors of floating-point arithmetic do not add up.
-/
namespace TS
open PyVal XR FloatArith
set_option linter.unusedSectionVars false
variable {K : Type} [Field K] [LinearOrder K] [IsStrictOrderedRing K] [Transc K] [FloorRing K] {α : Type} [TFNum α] [F : FloatArith α K]

theorem StreamsAs.approximates {A A' B B' : Type} {op : Operator α} {op' : Operator (XR K)} {ser : List A → Val α} {ser' : List A' → Val (XR K)}
    {outs : List B → Val α} {outs' : List B' → Val (XR K)} {y : List A → B} {y' : List A' → B'} (h : StreamsAs op ser outs y) (h' : StreamsAs op' ser' outs' y')
    {D : A → A' → Prop} {R : B → B' → Prop} (e : ∀ l : List (A × A'), l ≠ [] → (∀ x ∈ l, D x.1 x.2) → R (y (l.map Prod.fst)) (y' (l.map Prod.snd))) :
    Approximates op op' ser ser' outs outs' D R := by
  obtain ⟨st, h1, h2⟩ := h
  obtain ⟨st', h3, h4⟩ := h'
  have key : ∀ h xs : List (A × A'), xs ≠ [] → (∀ x ∈ h ++ xs, D x.1 x.2) → ∃ os : List (B × B'),
      scan y (h.map Prod.fst) (xs.map Prod.fst) = os.map Prod.fst ∧ scan y' (h.map Prod.snd) (xs.map Prod.snd) = os.map Prod.snd ∧ os.length = xs.length ∧
      ∀ o ∈ os, R o.1 o.2 := by
    intro h xs _ hD
    refine ⟨scan (fun l : List (A × A') => (y (l.map Prod.fst), y' (l.map Prod.snd))) h xs, ?_, ?_, scan_length _ _ _, ?_⟩
    · exact scan_comap (f := Prod.fst) (g := id) (y' := fun l : List (A × A') => y (l.map Prod.fst)) (fun _ _ => rfl) h xs |>.trans (by rw [List.map_id, scan_map])
    · exact scan_comap (f := Prod.snd) (g := id) (y' := fun l : List (A × A') => y' (l.map Prod.snd)) (fun _ _ => rfl) h xs |>.trans (by rw [List.map_id, scan_map])
    · intro o ho
      obtain ⟨i, hi, rfl⟩ := List.getElem_of_mem ho
      rw [scan_getElem]
      refine e _ ?_ fun x hx => hD x ?_
      · rw [scan_length] at hi
        intro e
        have := congrArg List.length e
        simp only [List.length_append, List.length_take, List.length_nil] at this
        omega
      · rcases List.mem_append.1 hx with h | h
        · exact List.mem_append_left _ h
        · exact List.mem_append_right _ (List.mem_of_mem_take h)
  refine ⟨st, st', fun xs hx hD => ?_, fun h xs hx hD => ?_⟩
  · obtain ⟨os, e1, e2, hl, hR⟩ := key [] xs hx hD
    refine ⟨os, ?_, ?_, hl, hR⟩
    · rw [h1 _ (by simpa using hx), ← e1]; rfl
    · rw [h3 _ (by simpa using hx), ← e2]; rfl
  · obtain ⟨os, e1, e2, hl, hR⟩ := key h xs hx hD
    refine ⟨os, ?_, ?_, hl, hR⟩
    · rw [h2 _ _ (by simpa using hx), ← e1, List.map_append]
    · rw [h4 _ _ (by simpa using hx), ← e2, List.map_append]

section
variable {u c Ω : K} {N : Nat} (A : Accurate (rnd (α := α)) u c Ω N)
  {p : Nat} (hp : 0 < p) (hpN : p ≤ N) (hpu : 32 * ((p : K) + 1) * u ≤ 1) {M : K} (hcM : c ≤ M)
include A hp hpN hpu hcM

/-- **C70, simple moving average**: on samples up to `M` in size, whatever their number, the outputs differ from the exact averages by at most `4 p u M`. -/
theorem C70_sma (hΩ : 4 * ((p : K) + 1) * M ≤ Ω) : Approximates (SMA (p : Int) : Operator α) (SMA (p : Int) : Operator (XR K)) vSBuf finSeries vSBuf finSeries
    (Is M) (fun a x => Close a x (4 * p * u * M)) :=
  ((C25_sma hp []).scalar (y' := movingAvg p) fun l _ => movingAvg_pt p l).approximates
    (((C25_sma (α := XR K) hp []).scalar (y' := movingAvg p) fun l _ => movingAvg_pt p l).fin fun l _ => movingAvg_fin hp l)
    fun _ _ h => movingAvg_close A hp hpN hpu hcM hΩ h
example := C70_sma (K := ℚ) (α := F32 ℚ) round32_accurate (p := 14) (by norm_num) (by norm_num) (by norm_num) (M := 1000) (by norm_num) (by norm_num)

/-- **C70, exponential moving average.** -/
theorem C70_ema (hΩ : 4 * ((p : K) + 1) * M ≤ Ω) : Approximates (EMA (p : Int) : Operator α) (EMA (p : Int) : Operator (XR K)) vSBuf finSeries vSBuf finSeries
    (Is M) (fun a x => Close a x (7 * (p + 1) * u * M)) :=
  ((C26_ema hp []).scalar (y' := expAvg p) fun l _ => expAvg_pt p l).approximates
    (((C26_ema (α := XR K) hp []).scalar (y' := expAvg p) fun l _ => expAvg_pt p l).fin fun l _ => expAvg_fin hp l)
    fun _ _ h => expAvg_close A hp hpN hpu hcM hΩ h
example := C70_ema (K := ℚ) (α := F32 ℚ) round32_accurate (p := 14) (by norm_num) (by norm_num) (by norm_num) (M := 1000) (by norm_num) (by norm_num)

/-- **C70, rolling moving average.** -/
theorem C70_rma (hΩ : 4 * ((p : K) + 1) * M ≤ Ω) : Approximates (RMA (p : Int) : Operator α) (RMA (p : Int) : Operator (XR K)) vSBuf finSeries vSBuf finSeries
    (Is M) (fun a x => Close a x (9 * p * u * M)) :=
  ((C27_rma hp []).scalar (y' := rollAvg p) fun l _ => rollAvg_pt p l).approximates (rma_reals hp) fun _ _ h => rollAvg_close A hp hpN hpu hcM hΩ h
example := C70_rma (K := ℚ) (α := F32 ℚ) round32_accurate (p := 14) (by norm_num) (by norm_num) (by norm_num) (M := 1000) (by norm_num) (by norm_num)

end

/-! ### Averages of inexact samples -/

theorem abs_sum_sub {l m : List K} {d : K} (h : List.Forall₂ (fun a b => |a - b| ≤ d) l m) : |l.sum - m.sum| ≤ l.length * d := by
  induction h with
  | nil => simp
  | @cons a b l m h1 h2 ih =>
    simp only [List.sum_cons, List.length_cons, Nat.cast_succ]
    rw [add_sub_add_comm]
    refine (abs_add_le _ _).trans ?_
    linarith

theorem forall₂_window {A B : Type} {R : A → B → Prop} {l : List A} {m : List B} (h : List.Forall₂ R l m) (p : Nat) : List.Forall₂ R (window p l) (window p m) := by
  have : ∀ {l : List A} {m : List B}, List.Forall₂ R l m → ∀ n, List.Forall₂ R (l.take n) (m.take n) := by
    intro l m h
    induction h with
    | nil => intro n; simp
    | cons h1 _ ih =>
      intro n
      cases n with
      | zero => simp
      | succ n => exact .cons h1 (ih n)
  exact this (List.rel_reverse h) p

theorem movingAvgK_near {p : Nat} (hp : 0 < p) {l m : List K} {d : K} (hd : 0 ≤ d) (h : List.Forall₂ (fun a b => |a - b| ≤ d) l m) :
    |movingAvgK p l - movingAvgK p m| ≤ d := by
  unfold movingAvgK
  rw [h.length_eq]
  split
  · simpa using hd
  · rename_i hl
    have hw := abs_sum_sub (forall₂_window h p)
    have e1 : (window p l).length = p := by rw [window_length, h.length_eq]; omega
    have e2 : (window p m).length = p := by rw [window_length]; omega
    have hp0 : (0 : K) < p := by exact_mod_cast hp
    rw [avg, avg, e1, e2, ← sub_div, abs_div, abs_of_pos hp0, div_le_iff₀ hp0]
    rw [e1] at hw
    linarith

theorem recursiveAvgK_near {p : Nat} (hp : 0 < p) {w : K} (hw : 0 ≤ w ∧ w ≤ 1) {l m : List K} {d : K} (hd : 0 ≤ d) (h : List.Forall₂ (fun a b => |a - b| ≤ d) l m) :
    |recursiveAvgK p (fun m x => m + w * (x - m)) l - recursiveAvgK p (fun m x => m + w * (x - m)) m| ≤ d := by
  unfold recursiveAvgK
  have take : ∀ {l m : List K}, List.Forall₂ (fun a b => |a - b| ≤ d) l m → ∀ n, List.Forall₂ (fun a b => |a - b| ≤ d) (l.take n) (m.take n) ∧
      List.Forall₂ (fun a b => |a - b| ≤ d) (l.drop n) (m.drop n) := by
    intro l m h
    induction h with
    | nil => intro n; simp
    | cons h1 h2 ih =>
      intro n
      cases n with
      | zero => exact ⟨.nil, .cons h1 h2⟩
      | succ n => exact ⟨.cons h1 (ih n).1, (ih n).2⟩
  have h0 := movingAvgK_near hp hd (take h p).1
  revert h0
  generalize movingAvgK p (l.take p) = a
  generalize movingAvgK p (m.take p) = b
  have h' := (take h p).2
  revert h'
  generalize l.drop p = l
  generalize m.drop p = m
  intro h'
  induction h' generalizing a b with
  | nil => exact id
  | @cons x y l m h1 _ ih =>
    intro h0
    refine ih _ _ ?_
    obtain ⟨hw0, hw1⟩ := hw
    have h0 := abs_le.1 h0
    have h1 := abs_le.1 h1
    rw [abs_le]
    constructor <;> nlinarith

theorem recursiveAvgK_abs {p : Nat} (hp : 0 < p) {w : K} (hw : 0 ≤ w ∧ w ≤ 1) {l : List K} {M : K} (hM : 0 ≤ M) (h : ∀ x ∈ l, |x| ≤ M) :
    |recursiveAvgK p (fun m x => m + w * (x - m)) l| ≤ M := by
  by_cases hl : p ≤ l.length
  · exact abs_le.2 (recursiveAvgK_bounds hp hw.1 hw.2 hl fun x hx => abs_le.1 (h x hx))
  · rw [recursiveAvgK, List.drop_eq_nil_of_le (by omega), List.foldl_nil, movingAvgK, if_pos (by rw [List.length_take]; omega)]
    simpa using hM

/-- floats close to numbers are numbers close to numbers -/
theorem close_values {l : List (α × K)} {M d : K} (h : ∀ z ∈ l, Close z.1 z.2 d ∧ |z.2| ≤ M) :
    ∃ l' : List (α × K), l'.map Prod.fst = l.map Prod.fst ∧ (∀ z ∈ l', val z.1 = fin z.2 ∧ |z.2| ≤ M + d) ∧
      List.Forall₂ (fun a b => |a - b| ≤ d) (l'.map Prod.snd) (l.map Prod.snd) := by
  induction l with
  | nil => exact ⟨[], rfl, by simp, .nil⟩
  | cons z l ih =>
    obtain ⟨l', h1, h2, h3⟩ := ih fun z hz => h z (List.mem_cons_of_mem _ hz)
    obtain ⟨⟨y, h4, h5⟩, h6⟩ := h z List.mem_cons_self
    refine ⟨(z.1, y) :: l', by simp [h1], ?_, .cons h5 h3⟩
    rintro w hw
    rcases List.mem_cons.1 hw with rfl | hw
    · refine ⟨h4, ?_⟩
      have := abs_add_le z.2 (y - z.2)
      rw [add_sub_cancel] at this
      exact this.trans (add_le_add h6 h5)
    · exact h2 w hw

section
variable {u c Ω : K} {N : Nat} (A : Accurate (rnd (α := α)) u c Ω N)
  {p : Nat} (hp : 0 < p) (hpN : p ≤ N) (hpu : 32 * ((p : K) + 1) * u ≤ 1) {M d : K} (hd : 0 ≤ d) (hcM : c ≤ M + d) (hΩ : 4 * ((p : K) + 1) * (M + d) ≤ Ω)
include A hp hpN hpu hcM hΩ hd

theorem expAvg_near {l : List (α × K)} (h : ∀ z ∈ l, Close z.1 z.2 d ∧ |z.2| ≤ M) :
    Close (expAvg p (l.map Prod.fst) : α) (recursiveAvgK p (fun m x => m + 2 / ((p : K) + 1) * (x - m)) (l.map Prod.snd)) (7 * (p + 1) * u * (M + d) + d) := by
  obtain ⟨l', h1, h2, h3⟩ := close_values h
  have := expAvg_close A hp hpN hpu hcM hΩ h2
  rw [h1] at this
  refine this.of.mono (add_le_add le_rfl (recursiveAvgK_near hp (ema_weight hp) hd h3))

theorem rollAvg_near {l : List (α × K)} (h : ∀ z ∈ l, Close z.1 z.2 d ∧ |z.2| ≤ M) :
    Close (rollAvg p (l.map Prod.fst) : α) (recursiveAvgK p (fun m x => m + 1 / (p : K) * (x - m)) (l.map Prod.snd)) (9 * p * u * (M + d) + d) := by
  obtain ⟨l', h1, h2, h3⟩ := close_values h
  have := rollAvg_close A hp hpN hpu hcM hΩ h2
  rw [h1] at this
  refine this.of.mono (add_le_add le_rfl (recursiveAvgK_near hp (rma_weight hp) hd h3))

end

/-! ### Average true range -/

/-- a float close to a number, and another one: so are the maxima -/
theorem max_close {x y z a b e d : K} (h1 : |x - a| ≤ d) (h2 : |y - b| ≤ d) (h3 : |z - e| ≤ d) :
    |Max.max x (Max.max y z) - Max.max a (Max.max b e)| ≤ d := by
  refine (abs_max_sub_max_le_max _ _ _ _).trans (max_le h1 ((abs_max_sub_max_le_max _ _ _ _).trans (max_le h2 h3)))

theorem redMax3 {a b e : α} {x y z : K} (ha : val a = fin x) (hb : val b = fin y) (he : val e = fin z) :
    val (Arith.redMax [a, b, e]) = fin (Max.max x (Max.max y z)) := by
  rw [F.redMax_eq]
  · simp only [List.map_cons, List.map_nil, List.foldr_cons, List.foldr_nil, ha, hb, he]
    have e : (fin z).max ninf = fin z := by simp [XR.max, XR.lt]
    rw [e]
    have m : ∀ a b : K, (fin a).max (fin b) = fin (Max.max a b) := fun a b => XR.max_fin a b
    rw [m, m]
  · simp [ha, hb, he]

theorem Close.abs {a : α} {x d : K} (h : Close a x d) : Close (Arith.abs a) |x| d := by
  obtain ⟨y, h1, h2⟩ := h
  refine ⟨|y|, by rw [F.abs_eq, h1]; rfl, (abs_abs_sub_abs_le _ _).trans h2⟩

theorem Close.redMax3 {a b e : α} {x y z d : K} (ha : Close a x d) (hb : Close b y d) (he : Close e z d) :
    Close (Arith.redMax [a, b, e]) (Max.max x (Max.max y z)) d := by
  obtain ⟨x', h1, h2⟩ := ha
  obtain ⟨y', h3, h4⟩ := hb
  obtain ⟨z', h5, h6⟩ := he
  exact ⟨_, TS.redMax3 h1 h3 h5, max_close h2 h4 h6⟩

section
variable {u c Ω : K} {N : Nat} (A : Accurate (rnd (α := α)) u c Ω N) {M : K} (hcM : c ≤ M)
include A hcM

theorem sub_close (hΩ : 2 * M ≤ Ω) {a b : α} {x y : K} (ha : Is M a x) (hb : Is M b y) : Close (a - b) (x - y) (3 * u * M) ∧ |x - y| ≤ 2 * M := by
  have h : |x - y| ≤ 2 * M := (abs_sub _ _).trans (by have := ha.2; have := hb.2; linarith)
  refine ⟨(Close.sub A (Close.exact ha.1) (Close.exact hb.1) h (by linarith)).mono ?_, h⟩
  have := mul_le_mul_of_nonneg_left hcM A.u_nonneg
  linarith

theorem trueRange_close (hΩ : 2 * M ≤ Ω) {prev low high : α} {P L H : K} (hP : Is M prev P) (hL : Is M low L) (hH : Is M high H) :
    Close (trueRangeOf prev low high) (trueRangeK P L H) (3 * u * M) ∧ |trueRangeK P L H| ≤ 2 * M := by
  have hM : 0 ≤ M := A.c_nonneg.trans hcM
  have h0 : 0 ≤ 3 * u * M := by have := A.u_nonneg; positivity
  have e : TFNum.eq prev (Arith.ofRat 0) = decide (P = 0) := by rw [F.eq_eq, hP.1, val_ofRat_zero]; simp [XR.eq]
  have h1 := sub_close A hcM hΩ hH hL
  have h2 := sub_close A hcM hΩ hH hP
  have h3 := sub_close A hcM hΩ hL hP
  have hz : Close (Arith.zero : α) (0 : K) (3 * u * M) := (Close.exact val_zero).mono h0
  have hm : ∀ {x y : K}, |x| ≤ 2 * M → |y| ≤ 2 * M → |Max.max x y| ≤ 2 * M := fun hx hy => by
    rw [abs_le] at *
    exact ⟨hx.1.trans (le_max_left _ _), max_le hx.2 hy.2⟩
  unfold trueRangeOf trueRangeK
  rw [e]
  by_cases hp : P = 0
  · simp only [hp, decide_true, if_true]
    have := Close.redMax3 h1.1 hz hz
    rw [max_self] at this
    exact ⟨this, hm h1.2 (by simpa using hM)⟩
  · simp only [hp, decide_false, if_false]
    refine ⟨by simpa using Close.redMax3 h1.1 h2.1.abs h3.1.abs, hm h1.2 (hm ?_ ?_)⟩ <;> rw [abs_abs]
    · exact h2.2
    · exact h3.2

theorem trueRanges_close (hΩ : 2 * M ≤ Ω) {l : List (CLH α × CLH K)}
    (h : ∀ z ∈ l, Is M z.1.close z.2.close ∧ Is M z.1.low z.2.low ∧ Is M z.1.high z.2.high) :
    ∃ m : List (α × K), m.map Prod.fst = trueRanges (l.map Prod.fst) ∧ m.map Prod.snd = trueRangesK (l.map Prod.snd) ∧
      ∀ z ∈ m, Close z.1 z.2 (3 * u * M) ∧ |z.2| ≤ 2 * M := by
  have hM : 0 ≤ M := A.c_nonneg.trans hcM
  unfold trueRanges trueRangesK
  have gen : ∀ (a : α) (x : K), Is M a x → ∃ m : List (α × K),
      m.map Prod.fst = List.zipWith (fun prev c => trueRangeOf prev c.low c.high) (a :: (l.map Prod.fst).map CLH.close) (l.map Prod.fst) ∧
      m.map Prod.snd = List.zipWith (fun prev c => trueRangeK prev c.low c.high) (x :: (l.map Prod.snd).map CLH.close) (l.map Prod.snd) ∧
      ∀ z ∈ m, Close z.1 z.2 (3 * u * M) ∧ |z.2| ≤ 2 * M := by
    induction l with
    | nil => intro a x _; exact ⟨[], rfl, rfl, by simp⟩
    | cons w l ih =>
      intro a x ha
      obtain ⟨h1, h2, h3⟩ := h w List.mem_cons_self
      obtain ⟨m, e1, e2, hm⟩ := ih (fun z hz => h z (List.mem_cons_of_mem _ hz)) w.1.close w.2.close h1
      refine ⟨(trueRangeOf a w.1.low w.1.high, trueRangeK x w.2.low w.2.high) :: m, by simpa using e1, by simpa using e2, ?_⟩
      intro z hz
      rcases List.mem_cons.1 hz with rfl | hz
      · exact trueRange_close A hcM hΩ ha h2 h3
      · exact hm z hz
  exact gen _ _ ⟨val_zero, by simpa using hM⟩

/-- **C70, average true range.** -/
theorem C70_atr {p : Nat} (hp : 0 < p) (hpN : p ≤ N) (hpu : 32 * ((p : K) + 1) * u ≤ 1) (hΩ : 12 * ((p : K) + 1) * M ≤ Ω) :
    Approximates (ATR (p : Int) : Operator α) (ATR (p : Int) : Operator (XR K)) candles finCandles vSBuf finSeries
      (fun a x => Is M a.close x.close ∧ Is M a.low x.low ∧ Is M a.high x.high) (fun a x => Close a x (30 * p * u * M)) := by
  have hM : 0 ≤ M := A.c_nonneg.trans hcM
  have hu := A.u_nonneg
  have hp' : (1 : K) ≤ p := by exact_mod_cast hp
  have huM : 0 ≤ u * M := mul_nonneg hu hM
  have hpu' : u * M ≤ p * (u * M) := by nlinarith
  have hpuM : 32 * (((p : K) + 1) * (u * M)) ≤ M := by nlinarith
  have hpM : 0 ≤ p * M := by positivity
  refine (C43_atr_streams hp).approximates (atr_reals hp) fun l _ h => ?_
  obtain ⟨m, e1, e2, hm⟩ := trueRanges_close A hcM (by linarith) h
  have hd3 : 2 * M + 3 * u * M ≤ 3 * M := by linarith
  rw [← e1, atrK, ← e2]
  refine (rollAvg_near A hp hpN hpu (by positivity) (by linarith) ?_ hm).mono ?_
  · have := mul_le_mul_of_nonneg_left hd3 (by positivity : 0 ≤ 4 * ((p : K) + 1))
    linarith
  · have := mul_le_mul_of_nonneg_left hd3 (by positivity : 0 ≤ 9 * (p : K) * u)
    linarith
example := C70_atr (K := ℚ) (α := F32 ℚ) round32_accurate (M := 1000) (by norm_num) (p := 14) (by norm_num) (by norm_num) (by norm_num) (by norm_num)

end

/-! ### MACD -/

section
variable {u c Ω : K} {N : Nat} (A : Accurate (rnd (α := α)) u c Ω N) {M : K} (hcM : c ≤ M)
  {slow fast m : Nat} (hs : 0 < slow) (hf : 0 < fast) (hm : 0 < m) (hsN : slow ≤ N) (hfN : fast ≤ N) (hmN : m ≤ N)
  (hsu : 32 * ((slow : K) + 1) * u ≤ 1) (hfu : 32 * ((fast : K) + 1) * u ≤ 1) (hmu : 32 * ((m : K) + 1) * u ≤ 1)
  (hΩs : 4 * ((slow : K) + 1) * M ≤ Ω) (hΩf : 4 * ((fast : K) + 1) * M ≤ Ω) (hΩm : 12 * ((m : K) + 1) * M ≤ Ω)

include A hcM hs hf hsN hfN hsu hfu hΩs hΩf in
theorem macdLine_close {l : List (α × K)} (h : ∀ z ∈ l, val z.1 = fin z.2 ∧ |z.2| ≤ M) :
    Close (macdLine slow fast (l.map Prod.fst) : α) (macdLineK slow fast (l.map Prod.snd)) (8 * (slow + fast + 2) * u * M) ∧
      |macdLineK slow fast (l.map Prod.snd)| ≤ 2 * M := by
  have hM : 0 ≤ M := A.c_nonneg.trans hcM
  have hu := A.u_nonneg
  have hs' : (1 : K) ≤ slow := by exact_mod_cast hs
  have hf' : (1 : K) ≤ fast := by exact_mod_cast hf
  have huM : 0 ≤ u * M := mul_nonneg hu hM
  have h1 := expAvg_close A hs hsN hsu hcM hΩs h
  have h2 := expAvg_close A hf hfN hfu hcM hΩf h
  have hab : ∀ x ∈ l.map Prod.snd, |x| ≤ M := by
    intro x hx
    obtain ⟨z, hz, rfl⟩ := List.mem_map.1 hx
    exact (h z hz).2
  have h3 := recursiveAvgK_abs hs (ema_weight hs) hM hab
  have h4 := recursiveAvgK_abs hf (ema_weight hf) hM hab
  have h5 : 32 * (((slow : K) + 1) * (u * M)) ≤ M := by nlinarith
  have h6 : 32 * (((fast : K) + 1) * (u * M)) ≤ M := by nlinarith
  have h7 : u * M ≤ slow * (u * M) := by nlinarith
  have h8 : u * M ≤ fast * (u * M) := by nlinarith
  have h9 : M ≤ slow * M := by nlinarith
  unfold macdLine macdLineK
  simp only [List.length_map]
  split
  · exact ⟨(Close.exact val_zero).mono (by positivity), by simpa using hM⟩
  · have h10 := abs_sub _ _ |>.trans (add_le_add h4 h3)
    rw [← two_mul] at h10
    refine ⟨(Close.sub A h2 h1 h10 (by linarith)).mono ?_, h10⟩
    have := mul_le_mul_of_nonneg_left (by linarith : 2 * M + (7 * (fast + 1) * u * M + 7 * (slow + 1) * u * M) + c ≤ 4 * M) hu
    linarith

/-- the signal line on numbers -/
def macdSignalK (slow fast m : Nat) (l : List K) : K :=
  if l.length < slow then 0 else recursiveAvgK m (fun e x => e + 2 / ((m : K) + 1) * (x - e)) ((scan (macdLineK slow fast) [] l).drop (slow - 1))

theorem macdSignal_fin {slow fast m : Nat} (hs : 0 < slow) (hf : 0 < fast) (hm : 0 < m) (l : List K) :
    macdSignal slow fast m (l.map XR.fin) = XR.fin (macdSignalK slow fast m l) := by
  have e := scan_comap (y := macdLine slow fast) (f := XR.fin) (g := XR.fin) (fun l _ => macdLine_fin (K := K) hs hf l) [] l
  rw [List.map_nil] at e
  simp only [macdSignal, macdSignalK, macdHistory, List.length_map, e, ← List.map_drop, expAvg_fin hm]
  split <;> simp

include A hcM hs hf hm hsN hfN hmN hsu hfu hmu hΩs hΩf hΩm

theorem macdSignal_close {l : List (α × K)} (h : ∀ z ∈ l, val z.1 = fin z.2 ∧ |z.2| ≤ M) :
    Close (macdSignal slow fast m (l.map Prod.fst) : α) (macdSignalK slow fast m (l.map Prod.snd)) (21 * (m + 1) * u * M + 8 * (slow + fast + 2) * u * M) ∧
      |macdSignalK slow fast m (l.map Prod.snd)| ≤ 2 * M := by
  have hM : 0 ≤ M := A.c_nonneg.trans hcM
  have hu := A.u_nonneg
  have huM : 0 ≤ u * M := mul_nonneg hu hM
  unfold macdSignal macdSignalK macdHistory
  simp only [List.length_map]
  split
  · exact ⟨(Close.exact val_zero).mono (by positivity), by simpa using hM⟩
  let w : List (α × K) := (scan (fun l : List (α × K) => (macdLine slow fast (l.map Prod.fst), macdLineK slow fast (l.map Prod.snd))) [] l).drop (slow - 1)
  have e1 : (scan (macdLine slow fast) [] (l.map Prod.fst)).drop (slow - 1) = w.map Prod.fst := by
    rw [List.map_drop, scan_map]
    exact congrArg _ (scan_of_map (fun _ => rfl) l)
  have e2 : (scan (macdLineK slow fast) [] (l.map Prod.snd)).drop (slow - 1) = w.map Prod.snd := by
    rw [List.map_drop, scan_map]
    exact congrArg _ (scan_of_map (fun _ => rfl) l)
  have hw : ∀ z ∈ w, Close z.1 z.2 (8 * (slow + fast + 2) * u * M) ∧ |z.2| ≤ 2 * M := by
    intro z hz
    obtain ⟨i, hi, rfl⟩ := List.getElem_of_mem (List.mem_of_mem_drop hz)
    rw [scan_getElem]
    exact macdLine_close A hcM hs hf hsN hfN hsu hfu hΩs hΩf fun z hz => h z (List.mem_of_mem_take (by simpa using hz))
  have h5 : 32 * (((slow : K) + 1) * (u * M)) ≤ M := by nlinarith
  have h6 : 32 * (((fast : K) + 1) * (u * M)) ≤ M := by nlinarith
  have hd3 : 2 * M + 8 * (slow + fast + 2) * u * M ≤ 3 * M := by linarith
  rw [e1, e2]
  constructor
  · refine (expAvg_near A hm hmN hmu (by positivity) (by have : 0 ≤ 8 * ((slow : K) + fast + 2) * u * M := by positivity
                                                         linarith) ?_ hw).mono ?_
    · have := mul_le_mul_of_nonneg_left hd3 (by positivity : 0 ≤ 4 * ((m : K) + 1))
      linarith
    · have := mul_le_mul_of_nonneg_left hd3 (by positivity : 0 ≤ 7 * ((m : K) + 1) * u)
      linarith
  · refine recursiveAvgK_abs hm (ema_weight hm) (by linarith) fun x hx => ?_
    obtain ⟨z, hz, rfl⟩ := List.mem_map.1 hx
    exact (hw z hz).2

theorem macdHist_close {l : List (α × K)} (h : ∀ z ∈ l, val z.1 = fin z.2 ∧ |z.2| ≤ M) :
    Close (macdHist slow fast m (l.map Prod.fst) : α) (macdHistK slow fast m (l.map Prod.snd)) (25 * (m + 1) * u * M + 16 * (slow + fast + 2) * u * M) := by
  have hM : 0 ≤ M := A.c_nonneg.trans hcM
  have hu := A.u_nonneg
  have huM : 0 ≤ u * M := mul_nonneg hu hM
  have hm' : (1 : K) ≤ m := by exact_mod_cast hm
  obtain ⟨h1, h1'⟩ := macdLine_close A hcM hs hf hsN hfN hsu hfu hΩs hΩf h
  obtain ⟨h2, h2'⟩ := macdSignal_close A hcM hs hf hm hsN hfN hmN hsu hfu hmu hΩs hΩf hΩm h
  unfold macdHist macdHistK
  simp only [List.length_map]
  split
  · exact (Close.exact val_zero).mono (by positivity)
  · have h5 : 32 * (((slow : K) + 1) * (u * M)) ≤ M := by nlinarith
    have h6 : 32 * (((fast : K) + 1) * (u * M)) ≤ M := by nlinarith
    have h7 : 32 * (((m : K) + 1) * (u * M)) ≤ M := by nlinarith
    have h8 : u * M ≤ m * (u * M) := by nlinarith
    have h9 : M ≤ m * M := by nlinarith
    have h10 := abs_sub _ _ |>.trans (add_le_add h1' h2')
    rw [macdSignalK, List.length_map] at h2 h10
    refine (Close.sub A h1 h2 h10 (by linarith)).mono ?_
    have := mul_le_mul_of_nonneg_left (by linarith : 2 * M + 2 * M + (8 * (slow + fast + 2) * u * M + (21 * (m + 1) * u * M + 8 * (slow + fast + 2) * u * M)) + c ≤ 8 * M) hu
    linarith

omit A hcM hs hf hm hsN hfN hmN hsu hfu hmu hΩs hΩf hΩm in
/-- the five output series of MACD, scalars -/
abbrev vSBuf5 {β : Type} (l : List (β × β × β × β × β)) : Val β :=
  .tup [vSBuf (l.map (·.1)), vSBuf (l.map (·.2.1)), vSBuf (l.map (·.2.2.1)), vSBuf (l.map (·.2.2.2.1)), vSBuf (l.map (·.2.2.2.2))]

omit A hcM hs hf hm hsN hfN hmN hsu hfu hmu hΩs hΩf hΩm in
theorem macd_scalar {β : Type} [TFNum β] {slow fast m : Nat} (hs : 0 < slow) (hf : 0 < fast) (hm : 0 < m) :
    StreamsAs (MACD (slow : Int) fast m : Operator β) vSBuf vSBuf5 (macdAll slow fast m) := by
  have := (C31_macd (α := β) hs hf hm []).comap pt (fun b : β × β × β × β × β => (pt b.1, pt b.2.1, pt b.2.2.1, pt b.2.2.2.1, pt b.2.2.2.2))
    (y' := macdAll slow fast m) fun l _ => by
      simp only [macdAll, Prod.mk.injEq]
      refine ⟨expAvg_pt _ _, expAvg_pt _ _, ?_, ?_, ?_⟩ <;> funext c
      · rw [macdLine_apply, map_pt_apply]; rfl
      · rw [macdSignal_apply, map_pt_apply]; rfl
      · rw [macdHist_apply, map_pt_apply]; rfl
  have e : (fun l : List (β × β × β × β × β) => vBuf5 (s := []) (l.map fun b => (pt b.1, pt b.2.1, pt b.2.2.1, pt b.2.2.2.1, pt b.2.2.2.2))) = (vSBuf5 : _ → Val β) := by
    funext l
    simp only [vBuf5, vSBuf5, vBuf, vSBuf, List.map_map, Function.comp_def]
  rw [e] at this
  exact this

/-- **C70, MACD**: bounds for all five outputs. -/
theorem C70_macd : Approximates (MACD (slow : Int) fast m : Operator α) (MACD (slow : Int) fast m : Operator (XR K)) vSBuf finSeries vSBuf5
    (fun l : List (K × K × K × K × K) => vSBuf5 (l.map fun b => (fin b.1, fin b.2.1, fin b.2.2.1, fin b.2.2.2.1, fin b.2.2.2.2))) (Is M)
    (fun a (x : K × K × K × K × K) => Close a.1 x.1 (7 * (slow + 1) * u * M) ∧ Close a.2.1 x.2.1 (7 * (fast + 1) * u * M) ∧ Close a.2.2.1 x.2.2.1 (8 * (slow + fast + 2) * u * M) ∧
      Close a.2.2.2.1 x.2.2.2.1 (21 * (m + 1) * u * M + 8 * (slow + fast + 2) * u * M) ∧
      Close a.2.2.2.2 x.2.2.2.2 (25 * (m + 1) * u * M + 16 * (slow + fast + 2) * u * M)) := by
  refine (macd_scalar hs hf hm).approximates ((macd_scalar hs hf hm).comap XR.fin (fun b : K × K × K × K × K => (fin b.1, fin b.2.1, fin b.2.2.1, fin b.2.2.2.1, fin b.2.2.2.2))
    (y' := fun l => (recursiveAvgK slow (fun m x => m + 2 / ((slow : K) + 1) * (x - m)) l, recursiveAvgK fast (fun m x => m + 2 / ((fast : K) + 1) * (x - m)) l,
      macdLineK slow fast l, macdSignalK slow fast m l, macdHistK slow fast m l)) fun l _ => ?_) fun l _ h => ?_
  · simp only [macdAll, expAvg_fin hs, expAvg_fin hf, macdLine_fin hs hf, macdSignal_fin hs hf hm, macdHist_fin hs hf hm]
  · exact ⟨expAvg_close A hs hsN hsu hcM hΩs h, expAvg_close A hf hfN hfu hcM hΩf h, (macdLine_close A hcM hs hf hsN hfN hsu hfu hΩs hΩf h).1,
      (macdSignal_close A hcM hs hf hm hsN hfN hmN hsu hfu hmu hΩs hΩf hΩm h).1, macdHist_close A hcM hs hf hm hsN hfN hmN hsu hfu hmu hΩs hΩf hΩm h⟩
example := C70_macd (K := ℚ) (α := F32 ℚ) round32_accurate (M := 1000) (by norm_num) (slow := 26) (fast := 12) (m := 9) (by norm_num) (by norm_num) (by norm_num) (by norm_num) (by norm_num) (by norm_num)
  (by norm_num) (by norm_num) (by norm_num) (by norm_num) (by norm_num) (by norm_num)

end

/-! ### Binary32 -/

/-- **C70, binary32**: periods below 2^18, samples of size 2^-126 to 2^100.  For instance an exponential average with period 26 is wrong by at most
12 millionths of the largest sample, after any number of samples. -/
theorem C70_binary32 [SqrtNonneg K] {p : Nat} (hp : 0 < p) (hp' : p < 2 ^ 18) {M : K} (h1 : 2 ^ (-126 : Int) ≤ M) (h2 : M ≤ 2 ^ 100) :
    Approximates (SMA (p : Int) : Operator (F32 K)) (SMA (p : Int) : Operator (XR K)) vSBuf finSeries vSBuf finSeries (Is M)
      (fun a x => Close a x (4 * p * 2 ^ (-24 : Int) * M)) ∧
    Approximates (EMA (p : Int) : Operator (F32 K)) (EMA (p : Int) : Operator (XR K)) vSBuf finSeries vSBuf finSeries (Is M)
      (fun a x => Close a x (7 * (p + 1) * 2 ^ (-24 : Int) * M)) ∧
    Approximates (RMA (p : Int) : Operator (F32 K)) (RMA (p : Int) : Operator (XR K)) vSBuf finSeries vSBuf finSeries (Is M)
      (fun a x => Close a x (9 * p * 2 ^ (-24 : Int) * M)) := by
  have hpK : (p : K) + 1 ≤ 2 ^ 18 := by exact_mod_cast hp'
  have hN : p ≤ 2 ^ 23 := by omega
  have hu : 32 * ((p : K) + 1) * 2 ^ (-24 : Int) ≤ 1 := by
    rw [zpow_neg, mul_inv_le_iff₀ (two_zpow_pos _), one_mul]
    refine (mul_le_mul_of_nonneg_left hpK (by norm_num)).trans ?_
    norm_num
  have hΩ : 4 * ((p : K) + 1) * M ≤ 2 ^ 127 := by
    have hM : 0 ≤ M := (two_zpow_pos _).le.trans h1
    refine (mul_le_mul (mul_le_mul_of_nonneg_left hpK (by norm_num)) h2 hM (by norm_num)).trans ?_
    norm_num
  exact ⟨C70_sma (α := F32 K) round32_accurate hp hN hu h1 hΩ, C70_ema (α := F32 K) round32_accurate hp hN hu h1 hΩ,
    C70_rma (α := F32 K) round32_accurate hp hN hu h1 hΩ⟩

/-- a sample: 1.7 in binary32, and its exact value -/
example : Is 2 (F32.of (fin (17 / 10)) : F32 ℚ) (14260634 / 8388608) := ⟨by decide +kernel, by norm_num [abs_le]⟩

/-- There are errors: the exponential averages of 1.7, 1.6, 1.9, 1.3 in binary32 and the exact averages of these four binary32 numbers. -/
example : output (call (EMA 3) (series32 [17 / 10, 16 / 10, 19 / 10, 13 / 10]) none) = .ok (series32 [0, 0, 14540255 / 8388608, 6361361 / 4194304]) := by
  decide +kernel

example : output (call (EMA 3) (finSeries [(14260634 / 8388608 : ℚ), 13421773 / 8388608, 15938355 / 8388608, 10905190 / 8388608]) none) =
    .ok (finSeries [0, 0, 14540254 / 8388608, 6361361 / 4194304]) := by
  decide +kernel

end TS
