import Verif.Props.Future6
/-
C104: moving average convergence divergence.
-/
namespace TS
variable {K : Type} [Field K] [LinearOrder K] [IsStrictOrderedRing K] [Transc K] [FloorRing K]

/-- **C104 MovingAverageConvergenceDivergence**, `1 < fast ≤ slow`: all samples so far, once the fast average is there. -/
theorem C104_macd {slow fast m : Nat} (hf : 1 < fast) (hm : 0 < m) (hfs : fast ≤ slow) (i j : Nat) :
    Depends (MACD (slow : Int) fast m : Operator (XR K)) numbers finSeries5 i j ↔ fast ≤ j + 1 ∧ i ≤ j := by
  rw [show (numbers : List K → Val (XR K)) = finSeries from rfl, (macd_reals (by omega) (by omega) hm).depends_iff fun _ _ => finSeries5_inj2]
  constructor
  · rintro ⟨hij, l, a, hl, hne⟩
    refine ⟨?_, hij⟩
    by_contra hc
    have h0 : ∀ l : List K, l.length = j + 1 → macdAllK slow fast m l = (0, 0, 0, 0, 0) := by
      intro l hl
      rw [macdAllK, recursiveAvgK_short (by omega), recursiveAvgK_short (by omega), macdLineK, if_pos (by omega), macdSignalK, if_pos (by omega), macdHistK, if_pos (by omega)]
    exact hne (by rw [h0 _ (by simpa using hl), h0 _ hl])
  · rintro ⟨hj, hij⟩
    have := (C104_ema (K := K) (p := fast) (by omega) i j).2 ⟨hj, hij, fun h => by omega⟩
    rw [show (numbers : List K → Val (XR K)) = finSeries from rfl, (ema_reals (by omega)).depends_iff fun _ _ => finSeries_inj] at this
    obtain ⟨h1, l, a, h2, h3⟩ := this
    exact ⟨h1, l, a, h2, fun e => h3 (Prod.mk.inj (Prod.mk.inj e).2).1⟩

example : Depends (MACD 5 3 2 : Operator (XR ℚ)) numbers finSeries5 0 2 ∧ ¬ Depends (MACD 5 3 2 : Operator (XR ℚ)) numbers finSeries5 0 1 :=
  ⟨(C104_macd (slow := 5) (fast := 3) (m := 2) (by decide) (by decide) (by decide) 0 2).2 (by decide),
    fun h => absurd ((C104_macd (slow := 5) (fast := 3) (m := 2) (by decide) (by decide) (by decide) 0 1).1 h) (by decide)⟩
end TS
