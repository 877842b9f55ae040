import Verif.Props.Future
/-
C105: moving average convergence divergence.
-/
namespace TS

section
variable {α A B : Type}

/-- the last outputs of two calls are equal -/
theorem StreamsAs.same_last_iff {op : Operator α} {ser : List A → Val α} {outs : List B → Val α} {y : List A → B} (h : StreamsAs op ser outs y)
    (hinj : ∀ l m, outs l = outs m → l = m) {a b : List A} (ha : a ≠ []) (hb : b ≠ []) :
    (∃ os os' o sf s0 sf' s0', call op (ser a) none = .ok (outs (os ++ [o]), sf, s0) ∧ call op (ser b) none = .ok (outs (os' ++ [o]), sf', s0')) ↔ y a = y b := by
  obtain ⟨st, h, -⟩ := h
  have e : ∀ a : List A, a ≠ [] → ∃ us, scan y [] a = us ++ [y a] := by
    intro a ha
    obtain ⟨k, x, rfl⟩ : ∃ k x, a = k ++ [x] := ⟨_, _, (List.dropLast_append_getLast ha).symm⟩
    exact ⟨_, scan_snoc y k x⟩
  obtain ⟨us, hu⟩ := e a ha
  obtain ⟨vs, hv⟩ := e b hb
  have h1 := h a ha
  have h2 := h b hb
  rw [hu] at h1
  rw [hv] at h2
  constructor
  · rintro ⟨os, os', o, sf, s0, sf', s0', k1, k2⟩
    rw [h1] at k1
    rw [h2] at k2
    have e1 := congrArg (·.getLast?) (hinj _ _ (Prod.mk.inj (Except.ok.inj k1)).1)
    have e2 := congrArg (·.getLast?) (hinj _ _ (Prod.mk.inj (Except.ok.inj k2)).1)
    simp at e1 e2
    rw [e1, e2]
  · intro hy
    exact ⟨_, _, _, _, _, _, _, h1, hy ▸ h2⟩
end

variable {K : Type} [Field K] [LinearOrder K] [IsStrictOrderedRing K] [Transc K] [FloorRing K]

theorem finSeries5_inj2 {l m : List (K × K × K × K × K)} (h : finSeries5 l = finSeries5 m) : l = m := by
  simp only [finSeries5, PyVal.tup, PyVal.node.injEq, true_and, List.cons.injEq, and_true] at h
  obtain ⟨h1, h2, h3, h4, h5⟩ := h
  have h1 := finSeries_inj h1
  have h2 := finSeries_inj h2
  have h3 := finSeries_inj h3
  have h4 := finSeries_inj h4
  have h5 := finSeries_inj h5
  have hl : l.length = m.length := by simpa using congrArg List.length h1
  refine List.ext_getElem hl fun i hi hi' => ?_
  have e1 := List.getElem_of_eq h1 (i := i) (by simpa using hi)
  have e2 := List.getElem_of_eq h2 (i := i) (by simpa using hi)
  have e3 := List.getElem_of_eq h3 (i := i) (by simpa using hi)
  have e4 := List.getElem_of_eq h4 (i := i) (by simpa using hi)
  have e5 := List.getElem_of_eq h5 (i := i) (by simpa using hi)
  simp only [List.getElem_map] at e1 e2 e3 e4 e5
  exact Prod.ext e1 (Prod.ext e2 (Prod.ext e3 (Prod.ext e4 e5)))

/-- one more sample, by the outputs so far -/
def macdNext (ws wf wm : K) (o : K × K × K × K × K) (x : K) : K × K × K × K × K :=
  let s := o.1 + ws * (x - o.1)
  let f := o.2.1 + wf * (x - o.2.1)
  let g := o.2.2.2.1 + wm * (f - s - o.2.2.2.1)
  (s, f, f - s, g, f - s - g)

omit [LinearOrder K] [IsStrictOrderedRing K] [Transc K] [FloorRing K] in
theorem macd_snoc {slow fast m : Nat} (hs : 0 < slow) (hm : 0 < m) (hfs : fast ≤ slow) {l : List K} (hl : slow + m ≤ l.length + 1) (x : K) :
    macdAllK slow fast m (l ++ [x]) = macdNext (2 / ((slow : K) + 1)) (2 / ((fast : K) + 1)) (2 / ((m : K) + 1)) (macdAllK slow fast m l) x := by
  have e1 := rec_snoc (fun m x => m + 2 / ((slow : K) + 1) * (x - m)) (h := l) (show slow ≤ l.length by omega) x
  have e2 := rec_snoc (fun m x => m + 2 / ((fast : K) + 1) * (x - m)) (h := l) (show fast ≤ l.length by omega) x
  have e3 : macdLineK slow fast (l ++ [x]) = (macdNext (2 / ((slow : K) + 1)) (2 / ((fast : K) + 1)) (2 / ((m : K) + 1)) (macdAllK slow fast m l) x).2.2.1 := by
    rw [macdLineK, if_neg (by simp; omega), e1, e2]; rfl
  have e4 : macdSignalK slow fast m (l ++ [x]) = macdSignalK slow fast m l + 2 / ((m : K) + 1) * (macdLineK slow fast (l ++ [x]) - macdSignalK slow fast m l) := by
    rw [macdSignalK, if_neg (by simp; omega), scan_snoc, List.drop_append_of_le_length (by simp; omega), rec_snoc _ (by simp; omega), macdSignalK, if_neg (by omega)]
  have e5 : macdHistK slow fast m (l ++ [x]) = macdLineK slow fast (l ++ [x]) - macdSignalK slow fast m (l ++ [x]) := by
    rw [macdHistK, if_neg (by simp; omega), macdSignalK]
  rw [macdAllK, e5, e4, e3, e1, e2]; rfl

omit [LinearOrder K] [IsStrictOrderedRing K] [Transc K] [FloorRing K] in
theorem macd_parts {slow fast m : Nat} (hm : 0 < m) {l : List K} (hl : slow + m ≤ l.length + 1) :
    (macdAllK slow fast m l).2.2.1 = (macdAllK slow fast m l).2.1 - (macdAllK slow fast m l).1 ∧
      (macdAllK slow fast m l).2.2.2.2 = (macdAllK slow fast m l).2.2.1 - (macdAllK slow fast m l).2.2.2.1 := by
  simp only [macdAllK]
  refine ⟨by rw [macdLineK, if_neg (by omega)], by rw [macdHistK, if_neg (by omega), macdSignalK]⟩

omit [LinearOrder K] [IsStrictOrderedRing K] [Transc K] [FloorRing K] in
theorem macd_future {slow fast m : Nat} (hs : 0 < slow) (hm : 0 < m) (hfs : fast ≤ slow) : ∀ (xs : List K) {a b : List K}, slow + m ≤ a.length + 1 → slow + m ≤ b.length + 1 →
    macdAllK slow fast m a = macdAllK slow fast m b → macdAllK slow fast m (a ++ xs) = macdAllK slow fast m (b ++ xs)
  | [], _, _, _, _, h => by simpa using h
  | x :: xs, a, b, ha, hb, h => by
    rw [List.append_cons a, List.append_cons b]
    exact macd_future hs hm hfs xs (by simp; omega) (by simp; omega) (by rw [macd_snoc hs hm hfs ha, macd_snoc hs hm hfs hb, h])

omit [Transc K] [FloorRing K] in
theorem step_inj {p : Nat} (hp : 1 < p) {r s : K} (h : r + 2 / ((p : K) + 1) * (0 - r) = s + 2 / ((p : K) + 1) * (0 - s)) : r = s := by
  have hp' : (1 : K) < p := by exact_mod_cast hp
  have : (1 - 2 / ((p : K) + 1)) ≠ 0 := by
    have : 2 / ((p : K) + 1) < 1 := by rw [div_lt_one (by linarith)]; linarith
    linarith
  exact mul_left_cancel₀ this (by linarith)

/-- **C105 MovingAverageConvergenceDivergence**, periods above 1, the fast one at most the slow one, histories from the first histogram on: the last outputs agree. -/
theorem C105_macd {slow fast m : Nat} (hf : 1 < fast) (hm : 1 < m) (hfs : fast ≤ slow) {a b : List K} (ha : slow + m ≤ a.length + 1) (hb : slow + m ≤ b.length + 1) :
    SameFuture (MACD (slow : Int) fast m : Operator (XR K)) numbers a b ↔
      ∃ os os' o sf s0 sf' s0', call (MACD (slow : Int) fast m) (numbers a) none = .ok (finSeries5 (os ++ [o]), sf, s0) ∧
        call (MACD (slow : Int) fast m) (numbers b) none = .ok (finSeries5 (os' ++ [o]), sf', s0') := by
  have na : a ≠ [] := by rintro rfl; simp at ha; omega
  have nb : b ≠ [] := by rintro rfl; simp at hb; omega
  rw [show (numbers : List K → Val (XR K)) = finSeries from rfl, (macd_reals (by omega) (by omega) (by omega)).same_last_iff (fun _ _ => finSeries5_inj2) na nb,
    (macd_reals (by omega) (by omega) (by omega)).sameFuture_iff (fun _ _ => finSeries5_inj2) na nb]
  constructor
  · intro h
    have := h [0] (by simp)
    rw [macd_snoc (by omega) (by omega) hfs ha, macd_snoc (by omega) (by omega) hfs hb] at this
    obtain ⟨p1, p2⟩ := macd_parts (K := K) (slow := slow) (fast := fast) (m := m) (by omega) ha
    obtain ⟨q1, q2⟩ := macd_parts (K := K) (slow := slow) (fast := fast) (m := m) (by omega) hb
    simp only [macdNext, Prod.mk.injEq] at this
    obtain ⟨h1, h2, h3, h4, -⟩ := this
    have e1 := step_inj (by omega) h1
    have e2 := step_inj (by omega) h2
    rw [h1, h2] at h4
    have e3 := step_inj hm (r := (macdAllK slow fast m a).2.2.2.1) (s := (macdAllK slow fast m b).2.2.2.1) (by linarith)
    have e4 : (macdAllK slow fast m a).2.2.1 = (macdAllK slow fast m b).2.2.1 := by rw [p1, q1, e1, e2]
    exact Prod.ext e1 (Prod.ext e2 (Prod.ext e4 (Prod.ext e3 (by rw [p2, q2, e3, e4]))))
  · intro h xs _
    exact macd_future (by omega) (by omega) hfs xs ha hb h

example : SameFuture (MACD 3 2 2 : Operator (XR ℚ)) numbers [1, 1, 1, 1] [1, 1, 1, 1, 1] ∧ ¬ SameFuture (MACD 3 2 2 : Operator (XR ℚ)) numbers [1, 1, 1, 1] [1, 1, 1, 2] := by
  have H := macd_reals (K := ℚ) (slow := 3) (fast := 2) (m := 2) (by decide) (by decide) (by decide)
  refine ⟨(C105_macd (slow := 3) (fast := 2) (m := 2) (by decide) (by decide) (by decide) (by simp) (by simp)).2 ?_, fun h => ?_⟩
  · exact (H.same_last_iff (fun _ _ => finSeries5_inj2) (by simp) (by simp)).2 (by decide +kernel)
  · have := (H.same_last_iff (fun _ _ => finSeries5_inj2) (by simp) (by simp)).1 ((C105_macd (slow := 3) (fast := 2) (m := 2) (by decide) (by decide) (by decide) (by simp) (by simp)).1 h)
    revert this
    decide +kernel
end TS
