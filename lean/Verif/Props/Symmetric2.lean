import Verif.Props.Symmetric
import Verif.Props.Accuracy5
/-
C78 for the Sharpe ratio.
-/
namespace TS
open PyVal XR

/-- **C78, Sharpe ratio**: the pairs of a return and a risk-free rate may come in any order. -/
theorem C78_sharpe {p : Nat} (hp : 0 < p) : Unordered (SharpeRatio (p : Int)) finPairs (finSeries (K := ℝ)) p := by
  refine StreamsAs.unordered_window (p := p)
    (f := fun _ w => if stdDev (w.map fun z : ℝ × ℝ => z.1 - z.2) = 0 then 0 else avg (w.map fun z => z.1 - z.2) / stdDev (w.map fun z => z.1 - z.2))
    ((sharpe_reals hp).congr fun l _ => ?_) fun n w w' h => ?_
  · simp only [sharpeR, window_of_map]
  · simp only [stdDev_perm (h.map fun z => z.1 - z.2), avg_perm (h.map fun z => z.1 - z.2)]
example := C78_sharpe (p := 2) (by norm_num) [(5, 6)] [(1, 2), (3, 4)] [(3, 4), (1, 2)] (by simpa using (List.perm_append_comm (l₁ := [((1 : ℝ), (2 : ℝ))]) (l₂ := [(3, 4)]))) (by simp) (by simp)

end TS
