import Verif.Spec.MovingAverage
import Verif.Spec.Common
/-
The specifications act on every coordinate separately.
-/
namespace TS
variable {E ι : Type} [Arith E]

theorem zero_apply (c : ι) : (Arith.zero : ι → E) c = Arith.zero := rfl
theorem sum_apply' (l : List (ι → E)) (c : ι) : Arith.sum l c = Arith.sum (l.map (· c)) := rfl
theorem ofInt_apply' (n : Int) (c : ι) : (Arith.ofInt n : ι → E) c = Arith.ofInt n := rfl
theorem div_apply' (a b : ι → E) (c : ι) : (a / b) c = a c / b c := rfl
theorem add_apply' (a b : ι → E) (c : ι) : (a + b) c = a c + b c := rfl
theorem sub_apply' (a b : ι → E) (c : ι) : (a - b) c = a c - b c := rfl
theorem mul_apply' (a b : ι → E) (c : ι) : (a * b) c = a c * b c := rfl
theorem sqrt_apply' (a : ι → E) (c : ι) : Arith.sqrt a c = Arith.sqrt (a c) := rfl
theorem ofRat_apply' (q : ℚ) (c : ι) : (Arith.ofRat q : ι → E) c = Arith.ofRat q := rfl

theorem mean_apply (l : List (ι → E)) (c : ι) : Arith.mean l c = Arith.mean (l.map (· c)) := by
  simp [Arith.mean, div_apply', sum_apply', ofInt_apply']

theorem var_apply (l : List (ι → E)) (c : ι) : (Arith.moments l).2 c = (Arith.moments (l.map (· c))).2 := by
  simp only [Arith.moments, mean_apply, List.map_map]
  congr 1
  apply List.map_congr_left
  intro x _
  simp [mul_apply', sub_apply', mean_apply]

theorem window_map {A B : Type} (f : A → B) (p : Nat) (h : List A) : window p (h.map f) = (window p h).map f := by
  simp [window]

theorem movingAvg_apply (p : Nat) (h : List (ι → E)) (c : ι) : movingAvg p h c = movingAvg p (h.map (· c)) := by
  unfold movingAvg
  split <;> simp_all [zero_apply, div_apply', sum_apply', ofInt_apply', window_map]

theorem movingStd_apply (p : Nat) (h : List (ι → E)) (c : ι) : movingStd p h c = movingStd p (h.map (· c)) := by
  unfold movingStd
  split <;> simp_all [zero_apply, sqrt_apply', var_apply, window_map]

theorem recursiveAvg_apply (p : Nat) (f : (ι → E) → (ι → E) → (ι → E)) (g : E → E → E) (hf : ∀ a b c, f a b c = g (a c) (b c))
    (h : List (ι → E)) (c : ι) : recursiveAvg p f h c = recursiveAvg p g (h.map (· c)) := by
  unfold recursiveAvg
  rw [← List.map_drop, ← List.map_take, ← movingAvg_apply]
  generalize movingAvg p (h.take p) = a
  generalize h.drop p = l
  induction l generalizing a with
  | nil => rfl
  | cons x l ih => simp only [List.foldl_cons, List.map_cons, ih, hf]

theorem expAvg_apply (p : Nat) (h : List (ι → E)) (c : ι) : expAvg p h c = expAvg p (h.map (· c)) := by
  unfold expAvg; apply recursiveAvg_apply; intros; rfl

theorem rollAvg_apply (p : Nat) (h : List (ι → E)) (c : ι) : rollAvg p h c = rollAvg p (h.map (· c)) := by
  unfold rollAvg; apply recursiveAvg_apply; intros; rfl

theorem macdLine_apply (slow fast : Nat) (h : List (ι → E)) (c : ι) : macdLine slow fast h c = macdLine slow fast (h.map (· c)) := by
  unfold macdLine
  split <;> simp_all [zero_apply, sub_apply', expAvg_apply]

theorem macdHistory_apply (slow fast : Nat) (h : List (ι → E)) (c : ι) :
    (macdHistory slow fast h).map (· c) = macdHistory slow fast (h.map (· c)) := by
  simp [macdHistory, scan, List.map_drop, macdLine_apply, Function.comp_def, ← List.map_take]

theorem macdSignal_apply (slow fast m : Nat) (h : List (ι → E)) (c : ι) : macdSignal slow fast m h c = macdSignal slow fast m (h.map (· c)) := by
  unfold macdSignal
  split <;> simp_all [zero_apply, expAvg_apply, macdHistory_apply]

theorem macdHist_apply (slow fast m : Nat) (h : List (ι → E)) (c : ι) : macdHist slow fast m h c = macdHist slow fast m (h.map (· c)) := by
  unfold macdHist
  split <;> simp_all [zero_apply, sub_apply', macdLine_apply, macdSignal_apply]

theorem zipWith_map_apply (f : (ι → E) → (ι → E) → (ι → E)) (g : E → E → E) (c : ι) (hf : ∀ a b, f a b c = g (a c) (b c)) (xs ys : List (ι → E)) :
    (List.zipWith f xs ys).map (· c) = List.zipWith g (xs.map (· c)) (ys.map (· c)) := by
  induction xs generalizing ys with
  | nil => simp
  | cons a xs ih => cases ys <;> simp_all

theorem pearson_apply (xs ys : List (ι → E)) (c : ι) : pearson xs ys c = pearson (xs.map (· c)) (ys.map (· c)) := by
  unfold pearson
  simp only [div_apply', mul_apply', sqrt_apply', mean_apply, List.map_map]
  congr 2
  · exact zipWith_map_apply _ _ _ (fun a b => by simp [mul_apply', sub_apply', mean_apply]) _ _
  · congr 2
    exact List.map_congr_left fun x _ => by simp [mul_apply', sub_apply', mean_apply]
  · congr 2
    exact List.map_congr_left fun x _ => by simp [mul_apply', sub_apply', mean_apply]

theorem corrOf_apply (p : Nat) (h : List ((ι → E) × (ι → E))) (c : ι) : corrOf p h c = corrOf p (h.map fun x => (x.1 c, x.2 c)) := by
  unfold corrOf
  split <;> simp_all [zero_apply, pearson_apply, ← window_map, Function.comp_def]

theorem lagPairs_apply (lag : Nat) (h : List ((ι → E) × (ι → E))) (c : ι) :
    (lagPairs lag h).map (fun x => (x.1 c, x.2 c)) = lagPairs lag (h.map fun x => (x.1 c, x.2 c)) := by
  have : (fun x : (ι → E) × (ι → E) => (x.1 c, x.2 c)) = Prod.map (· c) (· c) := rfl
  rw [lagPairs, this, ← List.zip_map]
  simp [lagPairs, List.map_drop, Function.comp_def]

theorem lagged_apply (p : Nat) (h : List (ι → E)) (c : ι) : lagged Arith.zero p h c = lagged Arith.zero p (h.map (· c)) := by
  simp only [lagged, ← List.map_reverse, List.getElem?_map]
  cases h.reverse[p]? <;> rfl

end TS
