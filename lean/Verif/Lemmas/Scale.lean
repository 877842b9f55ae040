import Verif.Lemmas.Stats
import Verif.Lemmas.Exact
import Verif.Lemmas.History
import Verif.Spec.Common
import Verif.Spec.Market
import Verif.Spec.Signals
import Verif.Spec.Transform
/-
Functions that commute with multiplication by a number.
-/
namespace TS
set_option linter.unusedSectionVars false

/-- What multiplication by a non-zero number has in common with other linear maps. -/
structure Lin {E : Type} [Arith E] (φ : E → E) : Prop where
  zero : φ Arith.zero = Arith.zero
  add : ∀ x y, φ (x + y) = φ x + φ y
  sub : ∀ x y, φ (x - y) = φ x - φ y
  neg : ∀ x, φ (- x) = - φ x
  mulr : ∀ x y, φ (x * y) = φ x * y
  mull : ∀ x y, φ (x * y) = x * φ y
  div : ∀ x y, φ (x / y) = φ x / y
  sum : ∀ l, φ (Arith.sum l) = Arith.sum (l.map φ)

/-- What multiplication by a positive number has in addition. -/
structure Pos {α : Type} [TFNum α] (φ : α → α) : Prop extends Lin φ where
  lt : ∀ x y, TFNum.lt (φ x) (φ y) = TFNum.lt x y
  le : ∀ x y, TFNum.le (φ x) (φ y) = TFNum.le x y
  eq : ∀ x y, TFNum.eq (φ x) (φ y) = TFNum.eq x y
  sign : ∀ x, TFNum.sign (φ x) = TFNum.sign x
  abs : ∀ x, φ (Arith.abs x) = Arith.abs (φ x)
  max : ∀ x y, φ (Arith.max x y) = Arith.max (φ x) (φ y)
  min : ∀ x y, φ (Arith.min x y) = Arith.min (φ x) (φ y)
  redMax : ∀ l, φ (Arith.redMax l) = Arith.redMax (l.map φ)
  redMin : ∀ l, φ (Arith.redMin l) = Arith.redMin (l.map φ)
  ratio : ∀ x y, φ x / φ y = x / y
  pow : ∀ x n, Arith.pow (φ x) n = φ^[n] (Arith.pow x n)

namespace XR
variable {K : Type} [Field K] [LinearOrder K] [IsStrictOrderedRing K] [Transc K] [FloorRing K]

@[simp] theorem scale_fin (c a : K) : scale c (fin a) = fin (c * a) := rfl
@[simp] theorem scale_nan (c : K) : scale c nan = nan := rfl
theorem scale_pinf {c : K} (h : 0 < c) : scale c pinf = pinf := by show mul (fin c) pinf = _; simp [mul, infOf, h]
theorem scale_ninf {c : K} (h : 0 < c) : scale c ninf = ninf := by show mul (fin c) ninf = _; simp [mul, infOf, h, h.le]
theorem scale_pinf' {c : K} (h : c < 0) : scale c pinf = ninf := by show mul (fin c) pinf = _; simp [mul, infOf, h, h.le]
theorem scale_ninf' {c : K} (h : c < 0) : scale c ninf = pinf := by show mul (fin c) ninf = _; simp [mul, infOf, h]

theorem infOf_pos {a : K} (h : 0 < a) : infOf a = pinf := by simp [infOf, h]
theorem infOf_neg {a : K} (h : a < 0) : infOf a = ninf := by simp [infOf, h, h.le]
@[simp] theorem infOf_zero : infOf (0 : K) = nan := by simp [infOf]

theorem scale_infOf {c : K} (hc : c ≠ 0) (a : K) : scale c (infOf a) = infOf (c * a) := by
  rcases lt_or_gt_of_ne hc with h | h <;> rcases lt_trichotomy a 0 with g | rfl | g <;>
    simp [infOf_pos, infOf_neg, scale_pinf, scale_ninf, scale_pinf', scale_ninf', mul_pos_of_neg_of_neg, mul_neg_of_neg_of_pos, mul_neg_of_pos_of_neg, *]

theorem scale_add {c : K} (hc : c ≠ 0) (x y : XR K) : scale c (x + y) = scale c x + scale c y := by
  show scale c (add x y) = add (scale c x) (scale c y)
  rcases lt_or_gt_of_ne hc with h | h <;> rcases x with a | _ | _ | _ <;> rcases y with b | _ | _ | _ <;>
    simp [add, scale_pinf, scale_ninf, scale_pinf', scale_ninf', h, mul_add]

theorem scale_neg {c : K} (hc : c ≠ 0) (x : XR K) : scale c (- x) = - scale c x := by
  show scale c (neg x) = neg (scale c x)
  rcases lt_or_gt_of_ne hc with h | h <;> rcases x with a | _ | _ | _ <;> simp [neg, scale_pinf, scale_ninf, scale_pinf', scale_ninf', h]

theorem scale_mul {c : K} (hc : c ≠ 0) (x y : XR K) : scale c (x * y) = scale c x * y := by
  show scale c (mul x y) = mul (scale c x) y
  rcases x with a | _ | _ | _ <;> rcases y with b | _ | _ | _
  case fin.fin => simp [mul, mul_assoc]
  case fin.pinf => simp [mul, scale_infOf hc]
  case fin.ninf => simp [mul, scale_infOf hc]
  case pinf.fin =>
    simp only [mul, scale_infOf hc]
    rcases lt_or_gt_of_ne hc with h | h
    · rw [scale_pinf' h]; simp only [mul]
      rcases lt_trichotomy b 0 with g | rfl | g <;> simp [infOf_pos, infOf_neg, mul_pos_of_neg_of_neg, mul_neg_of_neg_of_pos, *]
    · rw [scale_pinf h]; simp only [mul]
      rcases lt_trichotomy b 0 with g | rfl | g <;> simp [infOf_pos, infOf_neg, mul_neg_of_pos_of_neg, *]
  case ninf.fin =>
    simp only [mul, scale_infOf hc]
    rcases lt_or_gt_of_ne hc with h | h
    · rw [scale_ninf' h]; simp only [mul]
      rcases lt_trichotomy b 0 with g | rfl | g <;> simp [infOf_pos, infOf_neg, mul_pos_of_neg_of_neg, mul_neg_of_neg_of_pos, *]
    · rw [scale_ninf h]; simp only [mul]
      rcases lt_trichotomy b 0 with g | rfl | g <;> simp [infOf_pos, infOf_neg, mul_neg_of_pos_of_neg, *]
  all_goals
    rcases lt_or_gt_of_ne hc with h | h <;>
      simp [mul, scale_pinf, scale_ninf, scale_pinf', scale_ninf', h, infOf] <;> (try split_ifs) <;> simp_all [scale_pinf, scale_ninf, scale_pinf', scale_ninf']

theorem mul_comm' (x y : XR K) : x * y = y * x := by
  show mul x y = mul y x
  rcases x with a | _ | _ | _ <;> rcases y with b | _ | _ | _ <;> simp [mul, mul_comm]

theorem scale_div {c : K} (hc : c ≠ 0) (x y : XR K) : scale c (x / y) = scale c x / y := by
  show scale c (div x y) = div (scale c x) y
  rcases x with a | _ | _ | _ <;> rcases y with b | _ | _ | _
  case fin.fin => simp only [div, scale_fin]; split_ifs <;> simp [scale_infOf hc, mul_div_assoc]
  all_goals
    rcases lt_or_gt_of_ne hc with h | h <;>
      simp [div, scale_pinf, scale_ninf, scale_pinf', scale_ninf', h] <;> (try split_ifs) <;> simp_all [scale_pinf, scale_ninf, scale_pinf', scale_ninf']

theorem scale_lin {c : K} (hc : c ≠ 0) : Lin (scale c) where
  zero := by simp
  add := scale_add hc
  sub x y := by
    show scale c (x + - y) = scale c x + - scale c y
    rw [scale_add hc, scale_neg hc]
  neg := scale_neg hc
  mulr := scale_mul hc
  mull x y := by rw [mul_comm', scale_mul hc, mul_comm']
  div := scale_div hc
  sum l := by
    show scale c (l.foldr add (fin 0)) = (l.map (scale c)).foldr add (fin 0)
    induction l with
    | nil => simp
    | cons x l ih => rw [List.map_cons, List.foldr_cons, List.foldr_cons, ← ih]; exact scale_add hc x _

theorem scale_lt {c : K} (hc : 0 < c) (x y : XR K) : lt (scale c x) (scale c y) = lt x y := by
  rcases x with a | _ | _ | _ <;> rcases y with b | _ | _ | _ <;> simp [lt, scale_pinf, scale_ninf, hc]

theorem scale_eq {c : K} (hc : 0 < c) (x y : XR K) : eq (scale c x) (scale c y) = eq x y := by
  rcases x with a | _ | _ | _ <;> rcases y with b | _ | _ | _ <;> simp [eq, scale_pinf, scale_ninf, hc, hc.ne']

theorem scale_max {c : K} (hc : 0 < c) (x y : XR K) : scale c (max x y) = max (scale c x) (scale c y) := by
  have hi : ∀ (q : Prop) [Decidable q] (a b : XR K), scale c (if q then a else b) = if q then scale c a else scale c b := fun q _ a b => by split_ifs <;> rfl
  rcases x with a | _ | _ | _ <;> rcases y with b | _ | _ | _ <;>
    simp [max, scale_pinf hc, scale_ninf hc, hi, lt, hc]

theorem scale_min {c : K} (hc : 0 < c) (x y : XR K) : scale c (min x y) = min (scale c x) (scale c y) := by
  have hi : ∀ (q : Prop) [Decidable q] (a b : XR K), scale c (if q then a else b) = if q then scale c a else scale c b := fun q _ a b => by split_ifs <;> rfl
  rcases x with a | _ | _ | _ <;> rcases y with b | _ | _ | _ <;>
    simp [min, scale_pinf hc, scale_ninf hc, hi, lt, hc]

theorem scale_ratio {c : K} (hc : 0 < c) (x y : XR K) : div (scale c x) (scale c y) = div x y := by
  rcases x with a | _ | _ | _ <;> rcases y with b | _ | _ | _ <;> simp only [div, scale_pinf hc, scale_ninf hc, scale_nan, scale_fin]
  · have : infOf (c * a) = infOf a := by
      rcases lt_trichotomy a 0 with g | rfl | g <;> simp [infOf_pos, infOf_neg, mul_neg_of_pos_of_neg, *]
    simp only [mul_eq_zero, hc.ne', false_or, this]
    split_ifs
    · rfl
    · rw [mul_div_mul_left _ _ hc.ne']
  · simp [mul_nonneg_iff_of_pos_left hc]
  · simp [mul_nonneg_iff_of_pos_left hc]

theorem scale_pos {c : K} (hc : 0 < c) : Pos (scale c) where
  __ := scale_lin hc.ne'
  lt := scale_lt hc
  le x y := by
    show le (scale c x) (scale c y) = le x y
    rcases x with a | _ | _ | _ <;> rcases y with b | _ | _ | _ <;> simp [le, scale_pinf, scale_ninf, hc]
  eq := scale_eq hc
  sign x := by
    show sign _ = sign _
    rcases x with a | _ | _ | _ <;> simp [sign, scale_pinf, scale_ninf, hc, mul_pos_iff_of_pos_left, mul_neg_iff, not_lt.2 hc.le]
  abs x := by
    show scale c (abs x) = abs _
    rcases x with a | _ | _ | _ <;> simp [abs, scale_pinf, scale_ninf, hc, abs_mul, abs_of_pos]
  max := scale_max hc
  min := scale_min hc
  redMax l := by
    show scale c (l.foldr max ninf) = (l.map (scale c)).foldr max ninf
    induction l with
    | nil => simp [scale_ninf hc]
    | cons x l ih => rw [List.map_cons, List.foldr_cons, List.foldr_cons, ← ih, scale_max hc]
  redMin l := by
    show scale c (l.foldr min pinf) = (l.map (scale c)).foldr min pinf
    induction l with
    | nil => simp [scale_pinf hc]
    | cons x l ih => rw [List.map_cons, List.foldr_cons, List.foldr_cons, ← ih, scale_min hc]
  ratio := scale_ratio hc
  pow x n := by
    show pow _ n = (scale c)^[n] (pow x n)
    induction n with
    | zero => rfl
    | succ n ih =>
      rw [pow, pow, ih, Function.iterate_succ_apply']
      have h1 : ∀ y : XR K, mul y (scale c x) = scale c (mul y x) := fun y => ((scale_lin hc.ne').mull y x).symm
      have h2 : ∀ (k : Nat) (y z : XR K), mul ((scale c)^[k] y) z = (scale c)^[k] (mul y z) := fun k => by
        induction k with
        | zero => intros; rfl
        | succ k ihk =>
          intro y z
          rw [Function.iterate_succ_apply', Function.iterate_succ_apply', ← ihk]
          exact ((scale_lin hc.ne').mulr _ _).symm
      rw [h1, h2]

theorem scale_sqrt {c : ℝ} (hc : 0 < c) (x : XR ℝ) : Arith.sqrt (scale c (scale c x)) = scale c (Arith.sqrt x) := by
  show sqrt _ = scale c (sqrt x)
  rcases x with a | _ | _ | _ <;> simp only [scale_pinf hc, scale_ninf hc, scale_nan, scale_fin, sqrt]
  have h : c * (c * a) < 0 ↔ a < 0 := by simp [mul_neg_iff, hc, not_lt.2 hc.le]
  simp only [h]
  split_ifs with g
  · rfl
  · rw [scale_fin, ← mul_assoc]
    show fin (Real.sqrt _) = fin (c * Real.sqrt _)
    rw [Real.sqrt_mul (by positivity), Real.sqrt_mul_self hc.le]

end XR

/-- the same in each coordinate -/
theorem Lin.pointwise {α ι : Type} [Arith α] {φ : α → α} (h : Lin φ) : Lin (E := ι → α) (fun t i => φ (t i)) where
  zero := funext fun _ => h.zero
  add _ _ := funext fun _ => h.add _ _
  sub _ _ := funext fun _ => h.sub _ _
  neg _ := funext fun _ => h.neg _
  mulr _ _ := funext fun _ => h.mulr _ _
  mull _ _ := funext fun _ => h.mull _ _
  div _ _ := funext fun _ => h.div _ _
  sum l := funext fun i => by
    show φ (Arith.sum (l.map (· i))) = Arith.sum ((l.map fun t i => φ (t i)).map (· i))
    rw [h.sum, List.map_map, List.map_map]; rfl


section
variable {E : Type} [Arith E] {φ : E → E}

theorem window_of_map {A B : Type} (f : A → B) (p : Nat) (l : List A) : window p (l.map f) = (window p l).map f := by
  rw [window, window, ← List.map_reverse, List.map_take]

theorem lagged_of_map {A B : Type} (f : A → B) (z : A) (p : Nat) (l : List A) : lagged (f z) p (l.map f) = f (lagged z p l) := by
  rw [lagged, lagged, ← List.map_reverse, List.getElem?_map]; cases l.reverse[p]? <;> rfl

theorem getLastD_of_map {A B : Type} (f : A → B) (z : A) (l : List A) : (l.map f).getLastD (f z) = f (l.getLastD z) := by
  rw [List.getLastD_eq_getLast?, List.getLastD_eq_getLast?, List.getLast?_map]; cases l.getLast? <;> rfl

theorem Lin.zero' (h : Lin φ) : φ (Arith.ofRat 0) = Arith.ofRat 0 := h.zero

theorem Lin.mean (h : Lin φ) (l : List E) : Arith.mean (l.map φ) = φ (Arith.mean l) := by
  rw [Arith.mean, Arith.mean, h.div, h.sum, List.length_map]

theorem Lin.square (h : Lin φ) (x : E) : φ x * φ x = φ (φ (x * x)) := by rw [← h.mulr, ← h.mull]

theorem Lin.moments (h : Lin φ) (l : List E) : Arith.moments (l.map φ) = (φ (Arith.moments l).1, φ (φ (Arith.moments l).2)) := by
  have e : (l.map φ).map (fun x => (x - φ (Arith.mean l)) * (x - φ (Arith.mean l))) = ((l.map fun x => (x - Arith.mean l) * (x - Arith.mean l)).map φ).map φ := by
    simp only [List.map_map]
    refine List.map_congr_left fun x _ => ?_
    simp only [Function.comp_apply]
    rw [← h.sub, h.square]
  simp only [Arith.moments, h.mean, e]

theorem Lin.movingAvg (h : Lin φ) (p : Nat) (l : List E) : movingAvg p (l.map φ) = φ (movingAvg p l) := by
  simp only [TS.movingAvg, List.length_map]
  split_ifs
  · rw [h.zero]
  · rw [window_of_map, h.div, h.sum]

theorem Lin.recursiveAvg (h : Lin φ) (p : Nat) {f : E → E → E} (hf : ∀ a b, f (φ a) (φ b) = φ (f a b)) (l : List E) :
    recursiveAvg p f (l.map φ) = φ (recursiveAvg p f l) := by
  simp only [TS.recursiveAvg, ← List.map_take, ← List.map_drop, h.movingAvg]
  generalize TS.movingAvg p (l.take p) = a
  generalize l.drop p = l
  induction l generalizing a with
  | nil => rfl
  | cons x l ih => rw [List.map_cons, List.foldl_cons, List.foldl_cons, hf, ih]

theorem Lin.expAvg (h : Lin φ) (p : Nat) (l : List E) : expAvg p (l.map φ) = φ (expAvg p l) :=
  h.recursiveAvg p (fun a b => by rw [← h.mulr, ← h.mulr, ← h.add]) l

theorem Lin.rollAvg (h : Lin φ) (p : Nat) (l : List E) : rollAvg p (l.map φ) = φ (rollAvg p l) :=
  h.recursiveAvg p (fun a b => by rw [← h.mulr, ← h.add, ← h.div]) l

theorem Lin.macdLine (h : Lin φ) (slow fast : Nat) (l : List E) : macdLine slow fast (l.map φ) = φ (macdLine slow fast l) := by
  simp only [TS.macdLine, List.length_map]
  split_ifs
  · rw [h.zero]
  · rw [h.expAvg, h.expAvg, h.sub]

theorem scan_of_map' {A B : Type} {f : A → A} {g : B → B} {y : List A → B} (h : ∀ l, y (l.map f) = g (y l)) (l : List A) :
    scan y [] (l.map f) = (scan y [] l).map g := by
  rw [scan_map]
  unfold scan
  rw [List.length_map]
  refine List.map_congr_left fun i _ => ?_
  rw [List.nil_append, List.nil_append, ← List.map_take, h]

theorem Lin.macdHistory (h : Lin φ) (slow fast : Nat) (l : List E) : macdHistory slow fast (l.map φ) = (macdHistory slow fast l).map φ := by
  rw [TS.macdHistory, TS.macdHistory, scan_of_map' (h.macdLine slow fast), List.map_drop]

theorem Lin.macdSignal (h : Lin φ) (slow fast m : Nat) (l : List E) : macdSignal slow fast m (l.map φ) = φ (macdSignal slow fast m l) := by
  simp only [TS.macdSignal, List.length_map]
  split_ifs
  · rw [h.zero]
  · rw [h.macdHistory, h.expAvg]

theorem Lin.macdHist (h : Lin φ) (slow fast m : Nat) (l : List E) : macdHist slow fast m (l.map φ) = φ (macdHist slow fast m l) := by
  simp only [TS.macdHist, List.length_map]
  split_ifs
  · rw [h.zero]
  · rw [h.macdLine, h.macdSignal, h.sub]

theorem Lin.smaDiff (h : Lin φ) (slow fast : Nat) (l : List E) : smaDiff slow fast (l.map φ) = φ (smaDiff slow fast l) := by
  simp only [TS.smaDiff, List.length_map, h.sub, h.movingAvg]
  split_ifs
  · rw [h.zero]
  · rfl

theorem Lin.lagged (h : Lin φ) (p : Nat) (l : List E) : lagged Arith.zero p (l.map φ) = φ (lagged Arith.zero p l) := by
  conv_lhs => rw [← h.zero]
  exact lagged_of_map φ _ p l

theorem Lin.getLastD (h : Lin φ) (l : List E) : (l.map φ).getLastD Arith.zero = φ (l.getLastD Arith.zero) := by
  conv_lhs => rw [← h.zero]
  exact getLastD_of_map φ _ l

theorem Lin.momentum (h : Lin φ) (p : Nat) (l : List E) : momentum p (l.map φ) = φ (momentum p l) := by
  simp only [TS.momentum, List.length_map]
  split_ifs
  · rw [h.zero]
  · rw [h.getLastD, h.lagged, h.sub]

theorem Lin.movingStd (h : Lin φ) (hs : ∀ x, Arith.sqrt (φ (φ x)) = φ (Arith.sqrt x)) (p : Nat) (l : List E) : movingStd p (l.map φ) = φ (movingStd p l) := by
  simp only [TS.movingStd, List.length_map]
  split_ifs
  · rw [h.zero]
  · rw [window_of_map, h.moments, hs]

end

section
variable {α : Type} [TFNum α] {φ : α → α}

theorem Pos.if {q : Prop} [Decidable q] (a b : α) : φ (if q then a else b) = if q then φ a else φ b := by split_ifs <;> rfl

theorem Pos.runMin (h : Pos φ) (l : List α) : runMin (l.map φ) = φ (runMin l) := by
  cases l with
  | nil => exact h.zero.symm
  | cons x l =>
    simp only [TS.runMin, List.map_cons]
    induction l generalizing x with
    | nil => rfl
    | cons y l ih => rw [List.map_cons, List.foldl_cons, List.foldl_cons, h.lt, ← Pos.if, ih]

theorem Pos.runMax (h : Pos φ) (l : List α) : runMax (l.map φ) = φ (runMax l) := by
  cases l with
  | nil => exact h.zero.symm
  | cons x l =>
    simp only [TS.runMax, List.map_cons]
    induction l generalizing x with
    | nil => rfl
    | cons y l ih => rw [List.map_cons, List.foldl_cons, List.foldl_cons, h.lt, ← Pos.if, ih]

theorem Pos.growth (h : Pos φ) {f : α → α → α} (hf : ∀ a b, f (φ a) (φ b) = f a b) (p : Nat) (l : List α) : growth f p (l.map φ) = growth f p l := by
  simp only [TS.growth, List.length_map, h.lagged, h.getLastD, hf]
  have e : TFNum.eq (φ (TS.lagged Arith.zero p l)) (Arith.ofRat 0) = TFNum.eq (TS.lagged Arith.zero p l) (Arith.ofRat 0) := by
    conv_lhs => rw [← h.zero']
    exact h.eq _ _
  rw [e]

theorem Pos.eq0 (h : Pos φ) (x : α) : TFNum.eq (φ x) (Arith.ofRat 0) = TFNum.eq x (Arith.ofRat 0) := by
  conv_lhs => rw [← h.zero']
  exact h.eq _ _

theorem Pos.lt0 (h : Pos φ) (x : α) : TFNum.lt (φ x) (Arith.ofRat 0) = TFNum.lt x (Arith.ofRat 0) := by
  conv_lhs => rw [← h.zero']
  exact h.lt _ _

theorem Pos.gt0 (h : Pos φ) (x : α) : TFNum.lt (Arith.ofRat 0) (φ x) = TFNum.lt (Arith.ofRat 0) x := by
  conv_lhs => rw [← h.zero']
  exact h.lt _ _

theorem Pos.changes (h : Pos φ) (l : List α) : changes (l.map φ) = (changes l).map φ := by
  simp only [TS.changes, ← List.map_tail, List.zipWith_map, List.map_zipWith, h.sub]

theorem Pos.avgGain (h : Pos φ) (p : Nat) (d : List α) : avgGain p (d.map φ) = φ (avgGain p d) := by
  simp only [TS.avgGain, TS.wilder, ← List.map_take, ← List.map_drop, ← List.map_reverse, List.map_map]
  have e : (d.take p).reverse.map ((fun x => if TFNum.lt (Arith.ofRat 0) x then x else Arith.ofRat 0) ∘ φ) =
      ((d.take p).reverse.map (fun x => if TFNum.lt (Arith.ofRat 0) x then x else Arith.ofRat 0)).map φ := by
    rw [List.map_map]
    refine List.map_congr_left fun x _ => ?_
    simp only [Function.comp_apply, h.gt0, Pos.if, h.zero']
  rw [e, h.mean]
  generalize Arith.mean (E := α) _ = a
  generalize d.drop p = l
  induction l generalizing a with
  | nil => rfl
  | cons x l ih =>
    rw [List.map_cons, List.foldl_cons, List.foldl_cons, ← ih]
    congr 1
    rw [h.div, h.add, h.mulr, h.max, h.zero']

theorem Pos.avgLoss (h : Pos φ) (p : Nat) (d : List α) : avgLoss p (d.map φ) = φ (avgLoss p d) := by
  simp only [TS.avgLoss, ← List.map_take, ← List.map_drop, ← List.map_reverse, List.map_map]
  have e : (d.take p).reverse.map ((fun x => if TFNum.lt x (Arith.ofRat 0) then x else Arith.ofRat 0) ∘ φ) =
      ((d.take p).reverse.map (fun x => if TFNum.lt x (Arith.ofRat 0) then x else Arith.ofRat 0)).map φ := by
    rw [List.map_map]
    refine List.map_congr_left fun x _ => ?_
    simp only [Function.comp_apply, h.lt0, Pos.if, h.zero']
  rw [e, h.mean, ← h.neg]
  generalize (- Arith.mean _ : α) = a
  generalize d.drop p = l
  induction l generalizing a with
  | nil => rfl
  | cons x l ih =>
    rw [List.map_cons, List.foldl_cons, List.foldl_cons, ← ih]
    congr 1
    rw [h.div, h.add, h.mulr, h.neg, h.min, h.zero']

theorem Pos.rsi (h : Pos φ) (p : Nat) (l : List α) : rsi p (l.map φ) = rsi p l := by
  simp only [TS.rsi, List.length_map, h.changes, h.avgGain, h.avgLoss, h.ratio]

theorem Pos.sharpe (h : Pos φ) (hs : ∀ x, Arith.sqrt (φ (φ x)) = φ (Arith.sqrt x)) (l : List α) : sharpe (l.map φ) = sharpe l := by
  simp only [TS.sharpe, h.moments, h.mean, hs, h.eq0, h.ratio]

theorem Pos.volatility (h : Pos φ) (m r : Nat) (l : List α) : volatility m r (l.map φ) = volatility m r l := by
  simp only [TS.volatility, List.length_map]
  rw [scan_of_map' (g := id) (h.growth (fun a b => by rw [h.ratio]) r), List.map_id]

theorem Pos.trueRangeOf (h : Pos φ) (a b c : α) : trueRangeOf (φ a) (φ b) (φ c) = φ (trueRangeOf a b c) := by
  simp only [TS.trueRangeOf, h.eq0, h.redMax, List.map_cons, List.map_nil, h.sub, Pos.if, h.zero, h.abs]

theorem Pos.trueRanges (h : Pos φ) (l : List (CLH α)) : trueRanges (l.map (CLH.map φ)) = (trueRanges l).map φ := by
  have e : (Arith.zero : α) :: (l.map (CLH.map φ)).map CLH.close = (Arith.zero :: l.map CLH.close).map φ := by
    simp only [List.map_cons, h.zero, List.map_map]; rfl
  simp only [TS.trueRanges, e, List.zipWith_map, List.map_zipWith, CLH.map, h.trueRangeOf]

theorem Pos.max3 (h : Pos φ) (a b c : α) : φ (Arith.redMax [a, b, c]) = Arith.redMax [φ a, φ b, φ c] := h.redMax _
theorem Pos.min3 (h : Pos φ) (a b c : α) : φ (Arith.redMin [a, b, c]) = Arith.redMin [φ a, φ b, φ c] := h.redMin _

theorem Pos.haCandle (h : Pos φ) (a b : OHLC α) : haCandle (a.map φ) (b.map φ) = (haCandle a b).map φ := by
  simp only [TS.haCandle, OHLC.map, h.eq0]
  split_ifs
  · rfl
  · simp only [h.max3, h.min3, h.div, h.add, h.sum, List.map_cons, List.map_nil]

theorem Pos.bandsStep (h : Pos φ) (factor : ℚ) (b : Bands α) (prev atr : α) (x : CLH α) :
    bandsStep factor (b.map φ) (φ prev) (φ atr) (x.map φ) = (bandsStep factor b prev atr x).map (Bands.map φ) := by
  have e1 : (φ x.high + φ x.low) / Arith.ofRat 2 - Arith.ofRat factor * φ atr = φ ((x.high + x.low) / Arith.ofRat 2 - Arith.ofRat factor * atr) := by
    rw [h.sub, h.div, h.add, h.mull]
  have e2 : (φ x.high + φ x.low) / Arith.ofRat 2 + Arith.ofRat factor * φ atr = φ ((x.high + x.low) / Arith.ofRat 2 + Arith.ofRat factor * atr) := by
    rw [h.add, h.div, h.add, h.mull]
  simp only [TS.bandsStep, Bands.map, CLH.map, h.eq0, e1, e2, h.lt, ← h.max, ← h.min, ← Pos.if]
  by_cases h0 : TFNum.eq atr (Arith.ofRat 0) = true
  · simp [h0, noBands, Bands.map, h.zero']
  · rw [if_neg h0, if_neg h0]
    cases TFNum.lt b.upper x.close <;> cases TFNum.lt x.close b.lower <;> rfl

theorem Pos.bandsOf (h : Pos φ) (p : Nat) (factor : ℚ) (l : List (CLH α)) : bandsOf p factor (l.map (CLH.map φ)) = (bandsOf p factor l).map (Bands.map φ) := by
  rw [TS.bandsOf, TS.bandsOf, ← List.map_reverse]
  generalize l.reverse = l
  induction l with
  | nil => simp [bandsRev, noBands, Bands.map, h.zero']
  | cons x l ih =>
    have e : lastClose (l.map (CLH.map φ)).reverse = φ (lastClose l.reverse) := by
      rw [lastClose, lastClose, ← h.getLastD, List.map_reverse, List.map_reverse, List.map_reverse, List.map_map, List.map_map]; rfl
    rw [List.map_cons, bandsRev, bandsRev, ih, e, ← List.map_cons, ← List.map_reverse, h.trueRanges, h.rollAvg]
    cases bandsRev p factor l with
    | none => rfl
    | some b => simp only [Option.map_some, Option.bind_some, h.bandsStep]

theorem Pos.pearson {ψ : α → α} (h : Pos φ) (g : Pos ψ) (hs : ∀ x, Arith.sqrt (φ (φ x)) = φ (Arith.sqrt x)) (gs : ∀ x, Arith.sqrt (ψ (ψ x)) = ψ (Arith.sqrt x))
    (xs ys : List α) : pearson (xs.map φ) (ys.map ψ) = pearson xs ys := by
  have e1 : List.zipWith (fun a b => (a - φ (Arith.mean xs)) * (b - ψ (Arith.mean ys))) (xs.map φ) (ys.map ψ) =
      ((List.zipWith (fun a b => (a - Arith.mean xs) * (b - Arith.mean ys)) xs ys).map ψ).map φ := by
    simp only [List.zipWith_map, List.map_zipWith, h.mulr, g.mull, h.sub, g.sub]
  have e2 : ∀ {χ : α → α} (_ : Pos χ) (l : List α), (l.map χ).map (fun x => (x - χ (Arith.mean l)) * (x - χ (Arith.mean l))) =
      ((l.map fun x => (x - Arith.mean l) * (x - Arith.mean l)).map χ).map χ := fun k l => by
    simp only [List.map_map]
    refine List.map_congr_left fun x _ => ?_
    simp only [Function.comp_apply]
    rw [← k.sub, k.square]
  simp only [TS.pearson, h.mean, g.mean, e1, e2 h, e2 g, hs, gs]
  rw [← h.mulr, ← g.mull, h.ratio, g.ratio]

theorem Pos.corrOf {ψ : α → α} (h : Pos φ) (g : Pos ψ) (hs : ∀ x, Arith.sqrt (φ (φ x)) = φ (Arith.sqrt x)) (gs : ∀ x, Arith.sqrt (ψ (ψ x)) = ψ (Arith.sqrt x))
    (p : Nat) (l : List (α × α)) : corrOf p (l.map (Prod.map φ ψ)) = corrOf p l := by
  have e1 : (l.map (Prod.map φ ψ)).map Prod.fst = (l.map Prod.fst).map φ := by simp [Function.comp_def]
  have e2 : (l.map (Prod.map φ ψ)).map Prod.snd = (l.map Prod.snd).map ψ := by simp [Function.comp_def]
  simp only [TS.corrOf, List.length_map, e1, e2, window_of_map, h.pearson g hs gs]

theorem lagPairs_of_map {E : Type} [Arith E] {φ ψ : E → E} (lag : Nat) (l : List (E × E)) : lagPairs lag (l.map (Prod.map φ ψ)) = (lagPairs lag l).map (Prod.map φ ψ) := by
  have e1 : (l.map (Prod.map φ ψ)).map Prod.fst = (l.map Prod.fst).map φ := by simp [Function.comp_def]
  have e2 : (l.map (Prod.map φ ψ)).map Prod.snd = (l.map Prod.snd).map ψ := by simp [Function.comp_def]
  rw [lagPairs, lagPairs, e1, e2, ← List.map_drop, List.zip_map]

theorem Pos.orientation (h : Pos φ) (x : α) : orientation (φ x) = orientation x := by
  simp only [TS.orientation, h.sign]

theorem Pos.against (h : Pos φ) (d x : α) : against d (φ x) = against d x := by
  simp only [TS.against, ← h.mulr, h.orientation]
  rw [show TFNum.eq (φ x) Arith.zero = TFNum.eq x Arith.zero from h.eq0 x]

theorem Pos.direction (h : Pos φ) (l : List α) : direction (l.map φ) = direction l := by
  cases l with
  | nil => rfl
  | cons x l =>
    simp only [TS.direction, List.map_cons, h.orientation]
    generalize TS.orientation x = d
    induction l generalizing d with
    | nil => rfl
    | cons y l ih => rw [List.map_cons, List.foldl_cons, List.foldl_cons, h.against, ih]

theorem Pos.crossing (h : Pos φ) (l : List α) : crossing (l.map φ) = crossing l := by
  simp only [TS.crossing, List.getLast?_map, ← List.map_dropLast, h.direction, List.isEmpty_map]
  cases l.getLast? with
  | none => rfl
  | some x => simp only [Option.map_some, h.against]

end
end TS
