import Verif.Lemmas.Binary32
import Verif.Props.Drawdown
import Verif.Props.RSI
import Verif.Props.Returns
import Verif.Props.AveragesExact
import Verif.Props.Moments
/-
C69: bounds that hold in floating-point arithmetic.
-/
namespace TS
open PyVal XR FloatArith
set_option linter.unusedSectionVars false
variable {K : Type} [Field K] [LinearOrder K] [IsStrictOrderedRing K] {α : Type} [TFNum α] [F : FloatArith α K]

theorem mem_window {A : Type} {p : Nat} {h : List A} {x : A} (hx : x ∈ window p h) : x ∈ h :=
  List.mem_reverse.1 (List.mem_of_mem_take hx)

theorem apply_mem {ι : Type} {l : List (ι → α)} {c : ι} {P : α → Prop} (h : ∀ x ∈ l, P (x c)) : ∀ a ∈ l.map (· c), P a := by
  simp only [List.mem_map]
  rintro _ ⟨x, hx, rfl⟩
  exact h x hx

include F

theorem movingAvg_nn {p : Nat} (hp : 0 < p) {h : List α} (hD : ∀ x ∈ h, NotNeg x) : NotNeg (movingAvg p h) := by
  rw [movingAvg]
  split
  · exact .zero
  · exact .div (val_period hp).2 (.sum fun x hx => hD x (mem_window hx)) (val_period hp).1

theorem recursiveAvg_nn {p : Nat} (hp : 0 < p) {f : α → α → α} (hf : ∀ e x, NotNeg e → NotNeg x → NotNeg (f e x)) {h : List α} (hD : ∀ x ∈ h, NotNeg x) :
    NotNeg (recursiveAvg p f h) := by
  rw [recursiveAvg]
  have key : ∀ (l : List α) (e : α), NotNeg e → (∀ x ∈ l, NotNeg x) → NotNeg (l.foldl f e) := by
    intro l
    induction l with
    | nil => intro e he _; exact he
    | cons x l ih => intro e he hl; exact ih _ (hf _ _ he (hl x (by simp))) fun y hy => hl y (by simp [hy])
  exact key _ _ (movingAvg_nn hp fun x hx => hD x (List.mem_of_mem_take hx)) fun x hx => hD x (List.mem_of_mem_drop hx)

theorem rollStep_nn {p : Nat} (hp : 0 < p) (e x : α) (he : NotNeg e) (hx : NotNeg x) : NotNeg ((e * Arith.ofInt ((p : Int) - 1) + x) / Arith.ofInt p) :=
  .div (val_period hp).2 (.add (.mul he (.ofRat (by exact_mod_cast (by omega : (0 : Int) ≤ (p : Int) - 1)))) hx) (val_period hp).1

theorem rollAvg_nn {p : Nat} (hp : 0 < p) {h : List α} (hD : ∀ x ∈ h, NotNeg x) : NotNeg (rollAvg p h) :=
  recursiveAvg_nn hp (rollStep_nn hp) hD

theorem expAvg_nn {p : Nat} (hp : 0 < p) {h : List α} (hD : ∀ x ∈ h, NotNeg x) : NotNeg (expAvg p h) := by
  refine recursiveAvg_nn hp (fun e x he hx => .add (.mul hx (.ofRat (by positivity))) (.mul he (.ofRat ?_))) hD
  have : (1 : ℚ) ≤ p := by exact_mod_cast hp
  rw [sub_nonneg, div_le_one (by positivity)]
  linarith

/-- **C69 Signs.**  The averages of samples that are not negative are not negative: simple, -/
theorem C69_sma {p : Nat} (hp : 0 < p) (s : List Nat) : Within (SMA (p : Int) : Operator α) (vBuf (s := s)) (vBuf (s := s))
    (fun x => ∀ c, TFNum.lt (x c) Arith.zero = false) (fun o => ∀ c, TFNum.lt (o c) Arith.zero = false) := by
  refine (C25_sma hp s).within fun l _ hD c => ?_
  rw [movingAvg_apply]
  exact lt_zero_iff.2 (movingAvg_nn hp (apply_mem fun x hx => lt_zero_iff.1 (hD x hx c)))
example := C69_sma (K := ℚ) (α := XR ℚ) (p := 2) (by norm_num) [2]

/-- exponential -/
theorem C69_ema {p : Nat} (hp : 0 < p) (s : List Nat) : Within (EMA (p : Int) : Operator α) (vBuf (s := s)) (vBuf (s := s))
    (fun x => ∀ c, TFNum.lt (x c) Arith.zero = false) (fun o => ∀ c, TFNum.lt (o c) Arith.zero = false) := by
  refine (C26_ema hp s).within fun l _ hD c => ?_
  rw [expAvg_apply]
  exact lt_zero_iff.2 (expAvg_nn hp (apply_mem fun x hx => lt_zero_iff.1 (hD x hx c)))
example := C69_ema (K := ℚ) (α := XR ℚ) (p := 2) (by norm_num) [2]

/-- and rolling. -/
theorem C69_rma {p : Nat} (hp : 0 < p) (s : List Nat) : Within (RMA (p : Int) : Operator α) (vBuf (s := s)) (vBuf (s := s))
    (fun x => ∀ c, TFNum.lt (x c) Arith.zero = false) (fun o => ∀ c, TFNum.lt (o c) Arith.zero = false) := by
  refine (C27_rma hp s).within fun l _ hD c => ?_
  rw [rollAvg_apply]
  exact lt_zero_iff.2 (rollAvg_nn hp (apply_mem fun x hx => lt_zero_iff.1 (hD x hx c)))
example := C69_rma (K := ℚ) (α := XR ℚ) (p := 2) (by norm_num) [2]

/-- Standard deviations are never negative, whatever the samples. -/
theorem C69_msd {p : Nat} (hp : 0 < p) (s : List Nat) : Within (MSD (p : Int) : Operator α) (vBuf (s := s)) (vBuf (s := s))
    (fun _ => True) (fun o => ∀ c, TFNum.lt (o c) Arith.zero = false) := by
  refine (C29_msd_streams hp s).within fun l _ _ c => ?_
  rw [movingStd_apply, movingStd, lt_zero_iff]
  split
  · exact .zero
  · exact .sqrt _

/-- The Bollinger bands do not cross: lower, middle, upper. -/
theorem C69_bollinger {p : Nat} (hp : 0 < p) {k : ℚ} (hk : 0 ≤ k) (s : List Nat) : Within (BollingerBands (p : Int) k : Operator α) (vBuf (s := s)) (vBuf3 (s := s))
    (fun _ => True) (fun o => ∀ c, TFNum.lt (o.2.1 c) (o.1 c) = false ∧ TFNum.lt (o.2.2 c) (o.2.1 c) = false) := by
  refine (C30_bollinger_streams hp k s).within fun l _ _ c => ?_
  have hs : NotNeg (movingStd p l c * Arith.ofRat k) := by
    refine .mul ?_ (.ofRat hk)
    rw [movingStd_apply, movingStd]
    split
    · exact .zero
    · exact .sqrt _
  simp only [bands3]
  rw [FloatArith.lt_eq, FloatArith.lt_eq]
  constructor
  · change XR.lt _ (val (movingAvg p l c - movingStd p l c * Arith.ofRat k)) = false
    rw [FloatArith.sub_eq]
    exact (rounds (α := α)).le (val_rnd _) (XR.sub_le hs)
  · change XR.lt (val (movingAvg p l c + movingStd p l c * Arith.ofRat k)) _ = false
    rw [FloatArith.add_eq]
    exact (rounds (α := α)).ge (val_rnd _) (XR.add_ge hs)

theorem trueRange_nn {prev low high : α} (hp : IsFinite prev) (hl : IsFinite low) (hh : IsFinite high) : NotNeg (trueRangeOf prev low high) := by
  have hn : ∀ a ∈ [high - low, if TFNum.eq prev (Arith.ofRat 0) then Arith.zero else Arith.abs (high - prev),
      if TFNum.eq prev (Arith.ofRat 0) then Arith.zero else Arith.abs (low - prev)], val a ≠ .nan := by
    simp only [List.mem_cons, List.not_mem_nil, or_false]
    rintro a (rfl | rfl | rfl)
    · exact hh.sub hl
    · split
      · exact IsNum.ofRat 0
      · exact (hh.sub hp).abs
    · split
      · exact IsNum.ofRat 0
      · exact (hl.sub hp).abs
  rw [NotNeg, trueRangeOf, redMax_eq _ hn]
  have h2 := (foldr_max_le (l := List.map val [high - low, if TFNum.eq prev (Arith.ofRat 0) then Arith.zero else Arith.abs (high - prev),
      if TFNum.eq prev (Arith.ofRat 0) then Arith.zero else Arith.abs (low - prev)]) (by simpa using hn)).2 (val (if TFNum.eq prev (Arith.ofRat 0) then Arith.zero else Arith.abs (high - prev))) (by simp)
  refine lt_false_iff.2 (.inr (.inr (le_trans' ?_ h2)))
  split
  · rw [val_zero]; simp [XR.le]
  · exact (NonNeg.iff (α := α)).2 ⟨.abs _, (hh.sub hp).abs⟩

/-- The average true range of finite prices is never negative, even if `low` exceeds `high`. -/
theorem C69_atr {p : Nat} (hp : 0 < p) : Within (ATR (p : Int) : Operator α) candles vSBuf
    (fun x => IsFinite x.close ∧ IsFinite x.low ∧ IsFinite x.high) (fun o => TFNum.lt o Arith.zero = false) := by
  refine (C43_atr_streams hp).within fun l _ hD => ?_
  refine lt_zero_iff.2 (rollAvg_nn hp ?_)
  intro x hx
  obtain ⟨i, hi, rfl⟩ := List.getElem_of_mem hx
  simp only [trueRanges, List.getElem_zipWith]
  have hi' : i < l.length := by simp only [trueRanges, List.length_zipWith, List.length_cons, List.length_map] at hi; omega
  refine trueRange_nn ?_ (hD _ (List.getElem_mem hi')).2.1 (hD _ (List.getElem_mem hi')).2.2
  cases i with
  | zero => exact ⟨0, val_zero⟩
  | succ i =>
    simp only [List.getElem_cons_succ, List.getElem_map]
    exact (hD _ (List.getElem_mem (by omega))).1

theorem wilder_nn {p : Nat} (hp : 0 < p) {f : α → α} {d : List α} (h : ∀ x ∈ d, NotNeg (f x)) {g : α} (hg : NotNeg g) :
    NotNeg (d.foldl (fun g x => (g * Arith.ofInt ((p : Int) - 1) + f x) / Arith.ofInt p) g) := by
  induction d generalizing g with
  | nil => exact hg
  | cons x d ih => exact ih (fun y hy => h y (by simp [hy])) (rollStep_nn hp g (f x) hg (h x (by simp)))

theorem changes_num {h : List α} (hD : ∀ x ∈ h, IsFinite x) : ∀ x ∈ changes h, IsNum x := by
  intro x hx
  obtain ⟨i, hi, rfl⟩ := List.getElem_of_mem hx
  simp only [changes, List.getElem_zipWith]
  exact (hD _ (List.mem_of_mem_tail (List.getElem_mem _))).sub (hD _ (List.getElem_mem _))

theorem avgGain_nn {p : Nat} (hp : 0 < p) {d : List α} (hd : ∀ x ∈ d, IsNum x) (hl : d ≠ []) : NotNeg (avgGain p d) := by
  rw [avgGain, wilder]
  refine wilder_nn hp (fun x hx => ?_) (.mean ?_ ?_)
  · have hx := hd x (List.mem_of_mem_drop hx)
    rw [NotNeg, FloatArith.max_eq _ _ (IsNum.ofRat 0) hx]
    refine lt_false_iff.2 (.inr (.inr ?_))
    have := (max_spec (a := val (Arith.ofRat 0 : α)) (IsNum.ofRat 0) hx).2.1
    rwa [val_ofRat_zero] at this ⊢
  · simp only [List.mem_map]
    rintro _ ⟨x, -, rfl⟩
    split
    · rename_i h
      rw [FloatArith.lt_eq, val_ofRat_zero] at h
      rw [NotNeg]
      cases hv : val x <;> rw [hv] at h <;> simp_all [XR.lt]
      exact h.le
    · exact .zero
  · simp [hl]; omega

theorem avgLoss_nn {p : Nat} (hp : 0 < p) {d : List α} (hd : ∀ x ∈ d, IsNum x) (hl : d ≠ []) : NotNeg (avgLoss p d) := by
  rw [avgLoss]
  refine wilder_nn hp (f := fun x => - Arith.min (Arith.ofRat 0) x) (fun x hx => .neg ?_) (.neg ?_)
  · have hx := hd x (List.mem_of_mem_drop hx)
    rw [FloatArith.min_eq _ _ (IsNum.ofRat 0) hx]
    refine lt_false_iff.2 (.inr (.inr ?_))
    have := (min_spec (a := val (Arith.ofRat 0 : α)) (IsNum.ofRat 0) hx).2.1
    rwa [val_ofRat_zero] at this ⊢
  · have h1 : XR.lt (fin 0) (val (Arith.sum ((d.take p).reverse.map fun x => if TFNum.lt x (Arith.ofRat 0) then x else Arith.ofRat 0))) = false := by
      refine sum_np ?_
      simp only [List.mem_map]
      rintro _ ⟨x, -, rfl⟩
      split
      · rename_i h
        rw [FloatArith.lt_eq, val_ofRat_zero] at h
        cases hv : val x <;> rw [hv] at h <;> simp_all [XR.lt]
        exact h.le
      · rw [val_ofRat_zero]; simp [XR.lt]
    have hn : 0 < ((d.take p).reverse.map fun x => if TFNum.lt x (Arith.ofRat 0) then x else (Arith.ofRat 0 : α)).length := by
      simp [List.length_pos_iff, hl]; omega
    rw [Arith.mean, FloatArith.div_eq _ _ (val_period hn).2]
    refine (rounds (α := α)).le (rounds (α := α)).zero ?_
    exact div_np (val_period hn).2 h1 (val_period (α := α) hn).1

/-- **RSI stays between 0 and 100** (or is NaN) for finite prices, including the case of a zero average loss, whatever the sign of that zero. -/
theorem C69_rsi {p : Nat} (hp : 0 < p) : Within (RSI (p : Int) : Operator α) vSBuf vSBuf (fun x => IsFinite x)
    (fun o => TFNum.lt o (Arith.ofRat 0) = false ∧ TFNum.lt (Arith.ofRat 100) o = false) := by
  refine (C36_rsi_streams hp).within fun h _ hD => ?_
  have v1 : val (Arith.ofRat 1 : α) = fin (1 : K) := by simpa using val_ofInt (α := α) 1 (by decide)
  have v100 : val (Arith.ofRat 100 : α) = fin (100 : K) := by simpa using val_ofInt (α := α) 100 (by decide)
  simp only [FloatArith.lt_eq, val_ofRat_zero, v100, rsi]
  split
  · rw [val_ofRat_zero]; simp [XR.lt]
  · rename_i hlen
    have hc : changes h ≠ [] := by
      intro e
      have := congrArg List.length e
      simp [changes] at this
      omega
    have hg := avgGain_nn hp (changes_num hD) hc
    have hl := avgLoss_nn hp (changes_num hD) hc
    generalize avgGain p (changes h) = g at hg
    generalize avgLoss p (changes h) = l at hl
    have hr : val (g / l) = .nan ∨ (val (g / l) = .pinf ∨ val (g / l) = .ninf) ∨ NotNeg (g / l) := by
      by_cases h0 : val l = fin 0
      · by_cases h1 : val g = .nan ∨ val g = fin 0
        · exact .inl (zero_div_zero _ _ h0 h1)
        · exact .inr (.inl (div_zero _ _ h0 (fun e => h1 (.inl e)) fun e => h1 (.inr e)))
      · exact .inr (.inr (.div h0 hg hl))
    have hnan : ∀ {d : α}, val d = .nan → val (Arith.ofRat 100 - Arith.ofRat 100 / d : α) = .nan := by
      intro d hd
      have h1 : val (Arith.ofRat 100 / d : α) = .nan := by
        rw [FloatArith.div_eq _ _ (by rw [hd]; exact nofun), hd, (rounds (α := α)).nan, v100]; rfl
      rw [FloatArith.sub_eq, h1, (rounds (α := α)).nan, v100]; rfl
    have hinf : ∀ {d : α}, val d = .pinf ∨ val d = .ninf → val (Arith.ofRat 100 - Arith.ofRat 100 / d : α) = fin (100 : K) := by
      intro d hd
      have h1 : val (Arith.ofRat 100 / d : α) = fin (0 : K) := by
        rw [FloatArith.div_eq _ _ (by rcases hd with hd | hd <;> rw [hd] <;> exact nofun), v100]
        rcases hd with hd | hd <;> rw [hd] <;> exact (rounds (α := α)).zero
      rw [FloatArith.sub_eq, h1, v100]
      simpa [XR.add, XR.neg] using (rounds (α := α)).hundred
    rcases hr with hr | hr | hr
    · rw [hnan (by rw [FloatArith.add_eq, hr, (rounds (α := α)).nan, v1]; rfl)]
      exact ⟨rfl, rfl⟩
    · rw [hinf (by
        have h1 := val_rnd (g / l)
        rw [FloatArith.add_eq, v1]
        rcases hr with hr | hr <;> rw [hr] at h1 ⊢
        · exact .inl h1
        · exact .inr h1)]
      simp [XR.lt]
    · have hd : XR.lt (val (Arith.ofRat 1 + g / l)) (fin 1) = false := by
        rw [FloatArith.add_eq, v1]
        exact (rounds (α := α)).ge (rounds (α := α)).one (XR.add_ge hr)
      generalize (Arith.ofRat 1 + g / l) = d at hd
      have hd0 : val d ≠ fin 0 := by intro e; rw [e] at hd; simp [XR.lt] at hd
      have hdn : NotNeg d := by
        rw [NotNeg]
        cases hv : val d <;> rw [hv] at hd <;> simp_all [XR.lt]
        exact zero_le_one.trans hd
      have hq : NotNeg (Arith.ofRat 100 / d) := .div hd0 (.ofRat (by norm_num)) hdn
      have hq' : XR.lt (fin 100) (val (Arith.ofRat 100 / d : α)) = false := by
        rw [FloatArith.div_eq _ _ hd0, v100]
        refine (rounds (α := α)).le (rounds (α := α)).hundred ?_
        cases hv : val d <;> rw [hv] at hd hd0 <;> simp_all [XR.lt, XR.div]
        exact div_le_self (by norm_num) hd
      rw [FloatArith.sub_eq, v100]
      constructor
      · refine (rounds (α := α)).ge (rounds (α := α)).zero ?_
        cases hv : val (Arith.ofRat 100 / d : α) <;> rw [hv] at hq' <;> simp_all [XR.lt, XR.add, XR.neg]
      · exact (rounds (α := α)).le (rounds (α := α)).hundred (XR.sub_le hq)

theorem val_neg_one : val (Arith.ofRat (-1) : α) = fin (-1 : K) := by simpa using val_ofInt (α := α) (-1) (by decide)

/-- a quotient of prices less one: not below -1, and a number -/
theorem quotient_ge {x b : α} (hx : NonNeg x) (hb : IsFinite b) (hb' : NonNeg b) (h0 : val b ≠ fin 0) : XR.le (fin (-1)) (val (x / b - Arith.ofRat 1)) = true := by
  have v1 : val (Arith.ofRat 1 : α) = fin (1 : K) := by simpa using val_ofInt (α := α) 1 (by decide)
  have hq := NonNeg.div hx hb hb' h0
  rw [NonNeg] at hq
  have h := (rounds (α := α)).mono (fin (-1)) (XR.add (val (x / b)) (XR.neg (val (Arith.ofRat 1 : α)))) (by
    rw [v1]
    cases hv : val (x / b) <;> rw [hv] at hq <;> simp_all [XR.le, XR.add, XR.neg])
  have e : rnd (α := α) (fin (-1 : K)) = fin (-1) := by simpa using (rounds (α := α)).small (-1) (by decide)
  rwa [e, ← FloatArith.sub_eq] at h

/-- **Returns of prices that are not negative are not below -1.** -/
theorem C69_return (hz : TFNum.eq (Arith.zero : α) (Arith.ofRat 0) = true) {p : Nat} (hp : 0 < p) : Within (Return (p : Int) : Operator α) vSBuf vSBuf
    (fun x => IsFinite x ∧ TFNum.lt x Arith.zero = false) (fun o => TFNum.lt o (Arith.ofRat (-1)) = false) := by
  refine (C37_return_streams hz hp).within fun h hh hD => ?_
  have hD' : ∀ x ∈ h, IsFinite x ∧ NonNeg x := fun x hx => ⟨(hD x hx).1, NonNeg.iff.2 ⟨lt_zero_iff.1 (hD x hx).2, (hD x hx).1.isNum⟩⟩
  rw [FloatArith.lt_eq, val_neg_one, growth]
  split
  · rw [val_zero]; simp [XR.lt]
  · rename_i hc
    rw [not_or] at hc
    have hlag : lagged Arith.zero p h ∈ h := by
      rw [lagged, List.getElem?_eq_getElem (by simp; omega), Option.getD_some]
      exact List.mem_reverse.1 (List.getElem_mem _)
    have hlast : h.getLastD Arith.zero ∈ h := by
      rw [List.getLastD_eq_getLast?, List.getLast?_eq_some_getLast hh]
      exact List.getLast_mem hh
    have h0 : val (lagged Arith.zero p h) ≠ fin 0 := by
      intro e
      rw [FloatArith.eq_eq, e, val_ofRat_zero] at hc
      simp [XR.eq] at hc
    exact lt_false_iff.2 (.inr (.inr (quotient_ge (hD' _ hlast).2 (hD' _ hlag).1 (hD' _ hlag).2 h0)))

theorem IsFinite.max {a b : α} (ha : IsFinite a) (hb : IsFinite b) : IsFinite (Arith.max a b) := by
  obtain ⟨x, hx⟩ := ha
  obtain ⟨y, hy⟩ := hb
  refine ⟨if x < y then y else x, ?_⟩
  rw [FloatArith.max_eq _ _ (by rw [hx]; exact nofun) (by rw [hy]; exact nofun), hx, hy]
  by_cases h : x < y <;> simp [XR.max, XR.lt, h]

theorem peak_ok {l : List α} (h : ∀ x ∈ l, IsFinite x) : IsFinite (peakOf l) ∧ NonNeg (peakOf l) := by
  rw [peakOf]
  have key : ∀ (l : List α) (e : α), IsFinite e ∧ NonNeg e → (∀ x ∈ l, IsFinite x) → IsFinite (l.foldl (fun p v => Arith.max v p) e) ∧ NonNeg (l.foldl (fun p v => Arith.max v p) e) := by
    intro l
    induction l with
    | nil => intro e he _; exact he
    | cons x l ih =>
      intro e he hl
      have hx := hl x (by simp)
      refine ih _ ⟨hx.max he.1, ?_⟩ fun y hy => hl y (by simp [hy])
      rw [NonNeg, FloatArith.max_eq _ _ hx.isNum he.1.isNum]
      exact le_trans' he.2 (max_spec hx.isNum he.1.isNum).2.2
  refine key l _ ⟨⟨0, val_ofRat_zero⟩, ?_⟩ h
  rw [NonNeg, val_ofRat_zero]; simp [XR.le]

/-- **The drawdown of prices that are not negative is between -1 and 0**, provided that the constant 0.0001 is not rounded to zero. -/
theorem C69_drawdown (hε : TFNum.lt (Arith.ofRat 0 : α) (Arith.ofRat (1 / 10000)) = true) : Within (Drawdown : Operator α) vSBuf numInts
    (fun x => IsFinite x ∧ TFNum.lt x Arith.zero = false)
    (fun o => TFNum.le (Arith.ofRat (-1)) o.1 = true ∧ TFNum.le o.1 (Arith.ofRat 0) = true ∧ 0 ≤ o.2) := by
  refine C47_drawdown_streams.within fun h hh hD => ?_
  have hlast : h.getLastD Arith.zero ∈ h := by
    rw [List.getLastD_eq_getLast?, List.getLast?_eq_some_getLast hh]
    exact List.getLast_mem hh
  obtain ⟨hp1, hp2⟩ := peak_ok (l := h.dropLast) fun x hx => (hD x (List.mem_of_mem_dropLast hx)).1
  have hx := hD _ hlast
  refine ⟨?_, ?_, ?_⟩
  all_goals dsimp only
  · rw [FloatArith.le_eq, val_neg_one, drawdownOf]
    split
    · rw [val_ofRat_zero]; simp [XR.le]
    · rename_i hc
      have h0 : val (peakOf h.dropLast) ≠ fin 0 := by
        intro e
        rw [FloatArith.lt_eq, FloatArith.abs_eq, e] at hc
        rw [FloatArith.lt_eq, val_ofRat_zero] at hε
        simp only [XR.abs, abs_zero] at hc
        exact hc hε
      have hq := quotient_ge (NonNeg.iff.2 ⟨lt_zero_iff.1 hx.2, hx.1.isNum⟩) hp1 hp2 h0
      generalize h.getLastD Arith.zero / peakOf h.dropLast - Arith.ofRat 1 = q at hq
      rw [FloatArith.min_eq _ _ (IsNum.ofRat 0) (le_not_nan hq).2, val_ofRat_zero]
      rcases min_cases' (a := fin (0 : K)) (b := val q) nofun (le_not_nan hq).2 with e | e <;> rw [e]
      · simp [XR.le]
      · exact hq
  · rw [FloatArith.le_eq, val_ofRat_zero, drawdownOf]
    split
    · rw [val_ofRat_zero]; simp [XR.le]
    · rename_i hc
      have h0 : val (peakOf h.dropLast) ≠ fin 0 := by
        intro e
        rw [FloatArith.lt_eq, FloatArith.abs_eq, e] at hc
        rw [FloatArith.lt_eq, val_ofRat_zero] at hε
        simp only [XR.abs, abs_zero] at hc
        exact hc hε
      have hq := quotient_ge (NonNeg.iff.2 ⟨lt_zero_iff.1 hx.2, hx.1.isNum⟩) hp1 hp2 h0
      generalize h.getLastD Arith.zero / peakOf h.dropLast - Arith.ofRat 1 = q at hq
      rw [FloatArith.min_eq _ _ (IsNum.ofRat 0) (le_not_nan hq).2, ← val_ofRat_zero (α := α)]
      exact (min_spec (IsNum.ofRat 0) (le_not_nan hq).2).2.1
  · generalize h.reverse = l
    induction l with
    | nil => exact le_refl _
    | cons x l ih =>
      rw [daysSincePeak]
      split <;> omega

theorem val_pos {n : Nat} (hn : 0 < n) (hn' : (n : Int) ≤ 256) : val (Arith.ofRat n : α) = fin (n : K) := by
  simpa using val_ofInt (α := α) n (by rw [abs_of_nonneg (by omega)]; exact hn')

/-- **Heikin-Ashi candles are proper**: low ≤ open, close ≤ high, for proper candles of finite prices that are not negative. -/
theorem C69_heikin_ashi : Within (HeikinAshi : Operator α) candles4 candles4
    (fun x => (IsFinite x.opn ∧ IsFinite x.close ∧ IsFinite x.low ∧ IsFinite x.high) ∧ TFNum.lt x.low Arith.zero = false ∧
      (TFNum.le x.low x.opn = true ∧ TFNum.le x.low x.close = true) ∧ TFNum.le x.opn x.high = true ∧ TFNum.le x.close x.high = true)
    (fun o => (TFNum.le o.low o.opn = true ∧ TFNum.le o.low o.close = true) ∧ TFNum.le o.opn o.high = true ∧ TFNum.le o.close o.high = true) := by
  refine C46_heikinAshi_streams.within fun h hh hD => ?_
  have hlast : h.getLastD noCandle ∈ h := by
    rw [List.getLastD_eq_getLast?, List.getLast?_eq_some_getLast hh]
    exact List.getLast_mem hh
  have hprev : NonNeg (h.dropLast.getLastD noCandle).opn ∧ NonNeg (h.dropLast.getLastD noCandle).close := by
    rcases eq_or_ne h.dropLast [] with e | e
    · rw [e]
      have : NonNeg (Arith.zero : α) := by rw [NonNeg, val_zero]; simp [XR.le]
      exact ⟨this, this⟩
    · have hm : h.dropLast.getLastD noCandle ∈ h := by
        rw [List.getLastD_eq_getLast?, List.getLast?_eq_some_getLast e]
        exact List.mem_of_mem_dropLast (List.getLast_mem e)
      obtain ⟨-, h1, ⟨h2, h3⟩, -⟩ := hD _ hm
      rw [FloatArith.le_eq] at h2 h3
      have h4 := (NonNeg.iff (a := (h.dropLast.getLastD noCandle).low)).2 ⟨lt_zero_iff.1 h1, (le_not_nan h2).1⟩
      exact ⟨le_trans' h4 h2, le_trans' h4 h3⟩
  obtain ⟨-, h1, ⟨h2, h3⟩, h4, h5⟩ := hD _ hlast
  rw [haCandle]
  split
  · exact ⟨⟨h2, h3⟩, h4, h5⟩
  · rw [FloatArith.le_eq] at h2 h3 h4 h5
    have hl := (NonNeg.iff (a := (h.getLastD noCandle).low)).2 ⟨lt_zero_iff.1 h1, (le_not_nan h2).1⟩
    have ho : NonNeg (h.getLastD noCandle).opn := le_trans' hl h2
    have hc : NonNeg (h.getLastD noCandle).close := le_trans' hl h3
    have hhi : NonNeg (h.getLastD noCandle).high := le_trans' ho h4
    have hdiv : ∀ (n : Nat), 0 < n → (n : Int) ≤ 256 → ∀ a : α, NonNeg a → NonNeg (a / Arith.ofRat n) := by
      intro n hn hn' a ha
      refine ha.div ⟨n, val_pos hn hn'⟩ ?_ ?_
      · rw [NonNeg, val_pos hn hn']; simp [XR.le]
      · rw [val_pos hn hn']; simp; omega
    have hC := hdiv 4 (by decide) (by decide) _ (NonNeg.sum (l := [(h.getLastD noCandle).close, (h.getLastD noCandle).low, (h.getLastD noCandle).high, (h.getLastD noCandle).opn])
      (by simp only [List.mem_cons, List.not_mem_nil, or_false]; rintro a (rfl | rfl | rfl | rfl) <;> assumption))
    have hO := hdiv 2 (by decide) (by decide) _ (hprev.1.add hprev.2)
    dsimp only
    simp only [Nat.cast_ofNat] at hC hO
    generalize Arith.sum [(h.getLastD noCandle).close, (h.getLastD noCandle).low, (h.getLastD noCandle).high, (h.getLastD noCandle).opn] / Arith.ofRat 4 = c at hC
    generalize ((h.dropLast.getLastD noCandle).opn + (h.dropLast.getLastD noCandle).close) / Arith.ofRat 2 = o at hO
    have n1 : ∀ a ∈ [(h.getLastD noCandle).high, c, o], val a ≠ .nan := by
      simp only [List.mem_cons, List.not_mem_nil, or_false]
      rintro a (rfl | rfl | rfl)
      exacts [(NonNeg.iff.1 hhi).2, (NonNeg.iff.1 hC).2, (NonNeg.iff.1 hO).2]
    have n2 : ∀ a ∈ [(h.getLastD noCandle).low, c, o], val a ≠ .nan := by
      simp only [List.mem_cons, List.not_mem_nil, or_false]
      rintro a (rfl | rfl | rfl)
      exacts [(NonNeg.iff.1 hl).2, (NonNeg.iff.1 hC).2, (NonNeg.iff.1 hO).2]
    have m1 := (foldr_max_le (l := [(h.getLastD noCandle).high, c, o].map val) (by simpa using n1)).2
    have m2 := (foldr_min_le (l := [(h.getLastD noCandle).low, c, o].map val) (by simpa using n2)).2
    simp only [FloatArith.le_eq]
    rw [FloatArith.redMin_eq _ n2, FloatArith.redMax_eq _ n1]
    exact ⟨⟨m2 _ (by simp), m2 _ (by simp)⟩, m1 _ (by simp), m1 _ (by simp)⟩

/-! ### Order -/

/-- nowhere above, or not comparable -/
def NotAbove (a b : α) : Prop := XR.lt (val b) (val a) = false

theorem rnd_notAbove {x y : XR K} (h : XR.lt y x = false) : XR.lt (rnd (α := α) y) (rnd (α := α) x) = false := by
  have R := rounds (α := α)
  rcases lt_false_iff.1 h with rfl | rfl | h
  · rw [(R.nan _).2 rfl]; rfl
  · rw [(R.nan _).2 rfl]; cases rnd (α := α) y <;> rfl
  · exact lt_false_iff.2 (.inr (.inr (R.mono _ _ h)))

omit F [TFNum α] in
theorem xadd_mono {a b c d : XR K} (h : XR.lt c a = false) (h' : XR.lt d b = false) : XR.lt (XR.add c d) (XR.add a b) = false := by
  cases a <;> cases b <;> cases c <;> cases d <;> simp_all [XR.lt, XR.add]
  exact add_le_add h h'

omit F [TFNum α] in
theorem xmul_mono {a c w : XR K} (hw : XR.lt w (fin 0) = false) (h : XR.lt c a = false) : XR.lt (XR.mul c w) (XR.mul a w) = false := by
  have key : ∀ z : K, 0 ≤ z → infOf z = .pinf ∨ infOf z = .nan := fun z hz => by
    unfold infOf
    split
    · exact .inl rfl
    · rw [if_neg (not_lt.2 hz)]; exact .inr rfl
  have key' : ∀ z : K, 0 ≤ z → infOf (-z) = .ninf ∨ infOf (-z) = .nan := fun z hz => by
    unfold infOf
    rw [if_neg (by linarith)]
    split
    · exact .inl rfl
    · exact .inr rfl
  cases w with
  | fin z =>
    have hz : 0 ≤ z := by simpa [XR.lt] using hw
    cases a <;> cases c <;> simp_all only [XR.lt, XR.mul] <;>
      first
      | (simp only [decide_eq_false_iff_not, not_lt] at h ⊢; exact mul_le_mul_of_nonneg_right h hz)
      | (rcases key z hz with e | e <;> rcases key' z hz with e' | e' <;> simp_all [XR.lt])
  | pinf =>
    cases a <;> cases c <;> simp_all only [XR.lt, XR.mul, infOf] <;> first | rfl | (cases h) | (split_ifs <;> first | rfl | (simp_all [XR.lt]; done) | (simp at h; linarith))
  | ninf => simp [XR.lt] at hw
  | nan => cases a <;> cases c <;> rfl

omit F [TFNum α] in
theorem xdiv_mono {a c w : XR K} (hw : XR.lt w (fin 0) = false) (h0 : w ≠ fin 0) (h : XR.lt c a = false) : XR.lt (XR.div c w) (XR.div a w) = false := by
  cases w with
  | fin z =>
    have hz : 0 ≤ z := by simpa [XR.lt] using hw
    have hz0 : z ≠ 0 := fun e => h0 (by rw [e])
    cases a <;> cases c <;> simp_all [XR.lt, XR.div]
    exact div_le_div_of_nonneg_right h hz
  | pinf => cases a <;> cases c <;> simp_all [XR.lt, XR.div]
  | ninf => simp [XR.lt] at hw
  | nan => cases a <;> cases c <;> rfl

theorem NotAbove.add {a b c d : α} (h : NotAbove a c) (h' : NotAbove b d) : NotAbove (a + b) (c + d) := by
  rw [NotAbove, FloatArith.add_eq, FloatArith.add_eq]
  exact rnd_notAbove (xadd_mono h h')

theorem NotAbove.mul {a c w : α} (h : NotAbove a c) (hw : NotNeg w) : NotAbove (a * w) (c * w) := by
  rw [NotAbove, FloatArith.mul_eq, FloatArith.mul_eq]
  exact rnd_notAbove (xmul_mono hw h)

theorem NotAbove.div {a c w : α} (h : NotAbove a c) (hw : NotNeg w) (h0 : val w ≠ fin 0) : NotAbove (a / w) (c / w) := by
  rw [NotAbove, FloatArith.div_eq _ _ h0, FloatArith.div_eq _ _ h0]
  exact rnd_notAbove (xdiv_mono hw h0 h)

theorem NotAbove.sum {l : List (α × α)} (h : ∀ z ∈ l, NotAbove z.1 z.2) : NotAbove (Arith.sum (l.map Prod.fst)) (Arith.sum (l.map Prod.snd)) := by
  obtain ⟨t, -, ht⟩ := sum_eq (α := α) l.length
  rw [NotAbove, ht (l.map Prod.fst) (by simp), ht (l.map Prod.snd) (by simp)]
  clear ht
  induction t with
  | zero => simp [SumTree.eval, XR.lt]
  | elem i =>
    simp only [SumTree.eval, List.getElem?_map]
    rcases lt_or_ge i l.length with hi | hi
    · rw [List.getElem?_eq_getElem hi]; exact h _ (List.getElem_mem hi)
    · rw [List.getElem?_eq_none hi]; simp [XR.lt]
  | add a b iha ihb => exact rnd_notAbove (xadd_mono iha ihb)

theorem movingAvg_notAbove {p : Nat} (hp : 0 < p) {l : List (α × α)} (h : ∀ z ∈ l, NotAbove z.1 z.2) : NotAbove (movingAvg p (l.map Prod.fst)) (movingAvg p (l.map Prod.snd)) := by
  rw [movingAvg, movingAvg, List.length_map, List.length_map]
  split
  · rw [NotAbove, val_zero]; simp [XR.lt]
  · rw [window_map, window_map]
    exact .div (.sum fun z hz => h z (mem_window hz)) (val_period hp).1 (val_period hp).2

theorem recursiveAvg_notAbove {p : Nat} (hp : 0 < p) {f : α → α → α} (hf : ∀ e e' x x', NotAbove e e' → NotAbove x x' → NotAbove (f e x) (f e' x')) {l : List (α × α)}
    (h : ∀ z ∈ l, NotAbove z.1 z.2) : NotAbove (recursiveAvg p f (l.map Prod.fst)) (recursiveAvg p f (l.map Prod.snd)) := by
  rw [recursiveAvg, recursiveAvg, ← List.map_take, ← List.map_take, ← List.map_drop, ← List.map_drop]
  have key : ∀ (l : List (α × α)) (e e' : α), NotAbove e e' → (∀ z ∈ l, NotAbove z.1 z.2) → NotAbove ((l.map Prod.fst).foldl f e) ((l.map Prod.snd).foldl f e') := by
    intro l
    induction l with
    | nil => intro e e' he _; exact he
    | cons z l ih => intro e e' he hl; exact ih _ _ (hf _ _ _ _ he (hl z (by simp))) fun y hy => hl y (by simp [hy])
  exact key _ _ _ (movingAvg_notAbove hp fun z hz => h z (List.mem_of_mem_take hz)) fun z hz => h z (List.mem_of_mem_drop hz)

theorem StreamsAs.keepsOrder {op : Operator α} {y : List α → α} (h : StreamsAs op vSBuf vSBuf y)
    (e : ∀ l : List (α × α), (∀ z ∈ l, NotAbove z.1 z.2) → NotAbove (y (l.map Prod.fst)) (y (l.map Prod.snd))) : KeepsOrder op := by
  intro zs hz hD
  obtain ⟨sf, s0, h1⟩ := h.at' (xs := zs.map Prod.fst) (by simpa using hz)
  obtain ⟨sf', s0', h2⟩ := h.at' (xs := zs.map Prod.snd) (by simpa using hz)
  refine ⟨scan (fun l => (y (l.map Prod.fst), y (l.map Prod.snd))) [] zs, sf, s0, sf', s0', ?_, ?_, by simp, ?_⟩
  · rw [h1]; simp [scan, Function.comp_def, List.map_take]
  · rw [h2]; simp [scan, Function.comp_def, List.map_take]
  · intro o ho
    obtain ⟨i, hi, rfl⟩ := List.getElem_of_mem ho
    rw [scan_getElem, List.nil_append, FloatArith.lt_eq]
    exact e _ fun z hz => by
      have := hD z (List.mem_of_mem_take hz)
      rwa [FloatArith.lt_eq] at this

/-- **C69 Order.**  The averages keep the order of series in floating-point arithmetic: simple, -/
theorem C69_order_sma {p : Nat} (hp : 0 < p) : KeepsOrder (SMA (p : Int) : Operator α) :=
  ((C25_sma hp []).scalar fun k _ => by funext c; rw [movingAvg_apply]; simp [Function.comp_def, pt]).keepsOrder fun _ h => movingAvg_notAbove hp h
example := C69_order_sma (K := ℚ) (α := XR ℚ) (p := 2) (by norm_num)

theorem rollAvg_notAbove {p : Nat} (hp : 0 < p) {l : List (α × α)} (h : ∀ z ∈ l, NotAbove z.1 z.2) : NotAbove (rollAvg p (l.map Prod.fst)) (rollAvg p (l.map Prod.snd)) := by
  refine recursiveAvg_notAbove hp (fun _ _ _ _ he hx => .div (.add (.mul he (.ofRat ?_)) hx) (val_period hp).1 (val_period hp).2) h
  exact_mod_cast (by omega : (0 : Int) ≤ (p : Int) - 1)

theorem expAvg_notAbove {p : Nat} (hp : 0 < p) {l : List (α × α)} (h : ∀ z ∈ l, NotAbove z.1 z.2) : NotAbove (expAvg p (l.map Prod.fst)) (expAvg p (l.map Prod.snd)) := by
  refine recursiveAvg_notAbove hp (fun _ _ _ _ he hx => .add (.mul hx (.ofRat (by positivity))) (.mul he (.ofRat ?_))) h
  have : (1 : ℚ) ≤ p := by exact_mod_cast hp
  rw [sub_nonneg, div_le_one (by positivity)]
  linarith

/-- rolling -/
theorem C69_order_rma {p : Nat} (hp : 0 < p) : KeepsOrder (RMA (p : Int) : Operator α) :=
  ((C27_rma hp []).scalar (y' := rollAvg p) fun k _ => by funext c; rw [rollAvg_apply]; simp [Function.comp_def, pt]).keepsOrder fun _ h => rollAvg_notAbove hp h
example := C69_order_rma (K := ℚ) (α := XR ℚ) (p := 2) (by norm_num)

/-- and exponential. -/
theorem C69_order_ema {p : Nat} (hp : 0 < p) : KeepsOrder (EMA (p : Int) : Operator α) :=
  ((C26_ema hp []).scalar (y' := expAvg p) fun k _ => by funext c; rw [expAvg_apply]; simp [Function.comp_def, pt]).keepsOrder fun _ h => expAvg_notAbove hp h

/-! ### binary32 -/

omit F

/-- series of binary32 numbers -/
def series32 (l : List ℚ) : Val (F32 ℚ) := vSBuf (l.map fun q => F32.of (fin q))

/-- All of the above holds of binary32. -/
example {p : Nat} (hp : 0 < p) : Within (RSI (p : Int) : Operator (F32 ℚ)) vSBuf vSBuf (fun x => IsFinite x)
    (fun o => TFNum.lt o (Arith.ofRat 0) = false ∧ TFNum.lt (Arith.ofRat 100) o = false) := C69_rsi hp
example : KeepsOrder (EMA (9 : Nat) : Operator (F32 ℚ)) := C69_order_ema (by decide)
example : IsFinite (F32.of (fin (1 / 10)) : F32 ℚ) := ⟨13421773 / 134217728, (by decide +kernel : (F32.of (fin (1 / 10)) : F32 ℚ).val = fin (13421773 / 134217728))⟩
example : Within (MSD ((3 : Nat) : Int) : Operator (F32 ℚ)) (vBuf (s := [2])) (vBuf (s := [2])) (fun _ => True) (fun o => ∀ c, TFNum.lt (o c) Arith.zero = false) :=
  C69_msd (by decide) [2]
example := C69_bollinger (α := F32 ℚ) (p := 20) (k := 2) (by decide) (by decide) []
example := C69_atr (α := F32 ℚ) (p := 14) (by decide)
example := C69_drawdown (α := F32 ℚ) (by decide +kernel)
example := C69_return (α := F32 ℚ) (p := 1) (by decide +kernel) (by decide)
example := C69_heikin_ashi (α := F32 ℚ)
example : output (call (SMA 2) (series32 [1 / 10, 2 / 10, 3 / 10]) none) = .ok (series32 [0, 20132660 / 134217728, 33554432 / 134217728]) := by decide +kernel
/-- The hypothesis of `C69_drawdown`, -/
example : TFNum.lt (Arith.ofRat 0 : F32 ℚ) (Arith.ofRat (1 / 10000)) = true := by decide +kernel
/-- and that of `C69_return`. -/
example : TFNum.eq (Arith.zero : F32 ℚ) (Arith.ofRat 0) = true := by decide +kernel
/-- RSI of 1, 1.1, 1.3 in binary32: no loss, 100. -/
example : output (call (RSI 2) (series32 [1, 11 / 10, 13 / 10]) none) = .ok (series32 [0, 0, 100]) := by decide +kernel

/-- **What rounding does to the averages**: in binary32 the average of 1.7, 1.7 and 1.7 is the next larger number, so the bounds of C25 (an average lies between
the smallest and the largest sample) do not hold, -/
theorem C69_average_exceeds :
    output (call (SMA 3) (series32 [17 / 10, 17 / 10, 17 / 10]) none) = .ok (series32 [0, 0, 14260635 / 8388608]) ∧
      TFNum.lt (F32.of (fin (17 / 10)) : F32 ℚ) (F32.of (fin (14260635 / 8388608))) = true :=
  ⟨by decide +kernel, by decide +kernel⟩
example := C69_average_exceeds

/-- the standard deviation of a constant series is not zero, -/
theorem C69_constant_deviates : output (call (MSD 3) (series32 [17 / 10, 17 / 10, 17 / 10]) none) = .ok (series32 [0, 0, 1 / 8388608]) := by decide +kernel
example := C69_constant_deviates

/-- and the test for a zero deviation in SharpeRatio does not catch it: returns of constant 1.7 have a ratio of more than fourteen million, not zero (C39). -/
theorem C69_constant_sharpe :
    output (call (SharpeRatio 3) (.tup [series32 [17 / 10, 17 / 10, 17 / 10], series32 [0, 0, 0]]) none) = .ok (series32 [0, 0, 14260635]) := by decide +kernel
example := C69_constant_sharpe

end TS
