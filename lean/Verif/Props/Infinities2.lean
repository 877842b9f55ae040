import Verif.Props.Infinities
import Verif.Props.Accuracy5
/-
C88: infinite samples in MACD and the Sharpe ratio.
-/
namespace TS
open PyVal XR
set_option linter.unusedSectionVars false
variable {K : Type} [Field K] [LinearOrder K] [IsStrictOrderedRing K] [Transc K] [FloorRing K]

/-- a number if all of them are, NaN otherwise -/
def spoiled (h : List Sort4) : Sort4 := if ∀ a ∈ h, a = .number then .number else .undefined

theorem combined_number {h : List Sort4} : combined h = .number ↔ ∀ a ∈ h, a = .number := by
  constructor
  · intro e a ha
    unfold combined at e
    split at e
    · simp at e
    · split at e
      · simp at e
      · split at e
        · simp at e
        · cases a <;> simp_all
  · intro e
    unfold combined
    rw [if_neg, if_neg, if_neg]
    · intro h; simpa using e _ h
    · intro h; simpa using e _ h
    · rintro (h | ⟨h, -⟩) <;> simpa using e _ h

theorem add_neg_self (s : Sort4) : s.add s.neg = if s = .number then .number else .undefined := by cases s <;> decide

theorem sort_expAvg {p : Nat} (hp : 2 ≤ p) (l : List (XR K)) : (expAvg p l).sort = if l.length < p then .number else combined (l.map XR.sort) := by
  have hp' : (2 : ℚ) ≤ p := by exact_mod_cast hp
  rw [expAvg, sort_recursiveAvg (by omega)]
  intro e x
  rw [sort_add, ofRat_eq, ofRat_eq, sort_mul_pos, sort_mul_pos]
  · have : (0 : ℚ) < 1 - 2 / ((p : ℚ) + 1) := by rw [sub_pos, div_lt_one (by linarith)]; linarith
    exact_mod_cast this
  · have : (0 : ℚ) < 2 / ((p : ℚ) + 1) := by positivity
    exact_mod_cast this

/-- the average of numbers and NaNs, also of one sample -/
theorem sort_expAvg_spoiled {p : Nat} (hp : 0 < p) {l : List (XR K)} (hl : ∀ x ∈ l, x.sort = .number ∨ x.sort = .undefined) :
    (expAvg p l).sort = if l.length < p then .number else spoiled (l.map XR.sort) := by
  rcases Nat.lt_or_ge 1 p with h | h
  · rw [sort_expAvg h]
    split
    · rfl
    · rw [spoiled]
      split
      · next e => exact combined_number.2 e
      · next e =>
        push Not at e
        obtain ⟨a, ha, ha'⟩ := e
        apply combined_undefined
        obtain ⟨x, hx, rfl⟩ := List.mem_map.1 ha
        rcases hl x hx with e | e
        · exact absurd e ha'
        · rwa [e] at ha
  · obtain rfl : p = 1 := by omega
    rcases eq_or_ne l [] with rfl | h0
    · simp [expAvg, recursiveAvg, movingAvg, XR.sort]
    · rw [expAvg, sort_recursiveAvg_one ?_ h0, if_neg (by have := List.length_pos_iff.2 h0; omega)]
      · obtain ⟨k, a, rfl⟩ : ∃ k a, l = k ++ [a] := by
          rcases List.eq_nil_or_concat l with rfl | ⟨k, a, e⟩
          · exact absurd rfl h0
          · exact ⟨k, a, by simpa using e⟩
        simp only [onlyLast, spoiled, List.map_append, List.map_cons, List.map_nil, List.dropLast_concat, List.getLastD_concat, List.mem_append, List.mem_singleton, or_imp, forall_and, forall_eq]
        rcases hl a (by simp) with e | e <;> rw [e] <;> simp
      · intro e x
        have e1 : (2 / (((1 : Nat) : ℚ) + 1)) = 1 := by norm_num
        rw [e1, sub_self, ofRat_eq, ofRat_eq, Rat.cast_one, Rat.cast_zero, sort_add, sort_mul_pos _ one_pos, sort_mul_zero]

theorem sort_macdLine {slow fast : Nat} (hf : 2 ≤ fast) (h : fast ≤ slow) (l : List (XR K)) :
    (macdLine slow fast l).sort = if l.length < slow then .number else spoiled (l.map XR.sort) := by
  rw [macdLine]
  split
  · rw [zero_eq]; rfl
  · rw [sort_sub, sort_expAvg hf, sort_expAvg (by omega), if_neg (by omega), if_neg (by omega), add_neg_self, spoiled]
    simp only [combined_number]

theorem macdHistory_sorts {slow fast : Nat} (hf : 2 ≤ fast) (h : fast ≤ slow) {l : List (XR K)} (hl : slow ≤ l.length) :
    (∀ x ∈ macdHistory slow fast l, x.sort = .number ∨ x.sort = .undefined) ∧ spoiled ((macdHistory slow fast l).map XR.sort) = spoiled (l.map XR.sort) ∧
    (macdHistory slow fast l).length = l.length - (slow - 1) := by
  have hlen : (macdHistory slow fast l).length = l.length - (slow - 1) := by simp [macdHistory]
  have hs : ∀ i (hi : i < (macdHistory slow fast l).length), (macdHistory slow fast l)[i].sort = spoiled ((l.take (slow - 1 + i + 1)).map XR.sort) := fun i hi => by
    rw [hlen] at hi
    simp only [macdHistory, List.getElem_drop, scan_getElem, List.nil_append]
    rw [sort_macdLine hf h, if_neg (by simp; omega)]
  refine ⟨fun x hx => ?_, ?_, hlen⟩
  · obtain ⟨i, hi, rfl⟩ := List.getElem_of_mem hx
    rw [hs i hi, spoiled]
    split <;> simp
  · simp only [spoiled]
    congr 1
    refine propext ⟨fun e a ha => ?_, fun e a ha => ?_⟩
    · have h1 := e _ (List.mem_map.2 ⟨_, List.getElem_mem (show l.length - slow < _ by rw [hlen]; omega), rfl⟩)
      rw [hs _ (by rw [hlen]; omega), List.take_of_length_le (by omega), spoiled] at h1
      by_contra hne
      rw [if_neg (fun e' => hne (e' a ha))] at h1
      simp at h1
    · obtain ⟨x, hx, rfl⟩ := List.mem_map.1 ha
      obtain ⟨i, hi, rfl⟩ := List.getElem_of_mem hx
      rw [hs i hi, spoiled, if_pos]
      intro a ha
      rw [List.map_take] at ha
      exact e a (List.mem_of_mem_take ha)

/-- **C88, MACD**: the two averages are as in `C88_ema`; the macd line, the signal and the histogram are, after their warm-ups, NaN for ever once there was an infinity or NaN. -/
theorem C88_macd {slow fast m : Nat} (hf : 2 ≤ fast) (h : fast ≤ slow) (hm : 0 < m) {xs : List (XR K)} (hx : xs ≠ []) :
    ∃ os sf s0, call (MACD (slow : Int) fast m) (vSBuf xs) none = .ok (vSBuf5 os, sf, s0) ∧ ∃ hl : os.length = xs.length, ∀ i (hi : i < xs.length),
      let h := (xs.take (i + 1)).map XR.sort
      let line := if ∀ a ∈ h, a = .number then Sort4.number else .undefined
      os[i].1.sort = (if i + 1 < slow then .number else combined h) ∧ os[i].2.1.sort = (if i + 1 < fast then .number else combined h) ∧
      os[i].2.2.1.sort = (if i + 1 < slow then .number else line) ∧ os[i].2.2.2.1.sort = (if i + 2 < slow + m then .number else line) ∧
      os[i].2.2.2.2.sort = (if i + 2 < slow + m then .number else line) := by
  obtain ⟨sf, s0, h1⟩ := (macd_scalar (β := XR K) (slow := slow) (fast := fast) (m := m) (by omega) (by omega) hm).at' hx
  refine ⟨_, sf, s0, h1, by simp, fun i hi => ?_⟩
  have hl : (xs.take (i + 1)).length = i + 1 := by simp; omega
  rw [scan_getElem, List.nil_append]
  simp only [macdAll]
  generalize xs.take (i + 1) = l at hl
  have hsig : (macdSignal slow fast m l).sort = if i + 2 < slow + m then .number else spoiled (l.map XR.sort) := by
    rw [macdSignal]
    split
    · next e => rw [if_pos (by omega), zero_eq]; rfl
    · next e =>
      obtain ⟨a1, a2, a3⟩ := macdHistory_sorts hf h (l := l) (by omega)
      rw [sort_expAvg_spoiled hm a1, a2, a3, hl]
      refine if_congr (by omega) rfl rfl
  refine ⟨by rw [sort_expAvg (by omega), hl], by rw [sort_expAvg hf, hl], by rw [sort_macdLine hf h, hl]; rfl, hsig, ?_⟩
  rw [macdHist, hl]
  split
  · next e => rw [zero_eq]; rfl
  · next e =>
    rw [sort_sub, hsig, if_neg (by omega), sort_macdLine hf h, if_neg (by omega), add_neg_self]
    show _ = spoiled _
    rw [spoiled]
    split <;> rfl
example := C88_macd (K := ℚ) (slow := 3) (fast := 2) (m := 2) (by norm_num) (by norm_num) (by norm_num) (xs := [fin 1, pinf, fin 2, fin 3]) (by simp)

/-- **C88, Sharpe ratio** (real numbers): NaN while an infinity or NaN is among the last `p` returns or risk-free rates, a number otherwise. -/
theorem C88_sharpe {p : Nat} (hp : 0 < p) {xs : List (XR ℝ × XR ℝ)} (hx : xs ≠ []) :
    ∃ os sf s0, call (SharpeRatio (p : Int)) (vSBuf2 xs) none = .ok (vSBuf os, sf, s0) ∧ ∃ hl : os.length = xs.length, ∀ i (hi : i < xs.length),
      ((∀ z ∈ window p (xs.take (i + 1)), z.1.sort = .number ∧ z.2.sort = .number) → os[i].sort = .number) ∧
      ((∃ z ∈ window p (xs.take (i + 1)), z.1.sort ≠ .number ∨ z.2.sort ≠ .number) → os[i] = nan) := by
  obtain ⟨sf, s0, h1⟩ := (C39_sharpe_streams (α := XR ℝ) hp).at' hx
  refine ⟨_, sf, s0, h1, by simp, fun i hi => ?_⟩
  rw [scan_getElem, List.nil_append]
  have h0 : xs.take (i + 1) ≠ [] := by simpa using hx
  generalize xs.take (i + 1) = l at h0
  have hw := window_ne_nil hp h0
  simp only [window_map]
  generalize window p l = w at hw
  have hd := sort_std (l := w.map fun z => z.1 - z.2) (by simpa using hw)
  have hc : (∀ a ∈ (w.map fun z => z.1 - z.2).map XR.sort, a = .number) ↔ ∀ z ∈ w, z.1.sort = .number ∧ z.2.sort = .number := by
    simp only [List.mem_map, List.map_map, forall_exists_index, and_imp, forall_apply_eq_imp_iff₂, Function.comp, sort_sub]
    exact forall₂_congr fun z _ => by cases z.1.sort <;> cases z.2.sort <;> decide
  refine ⟨fun e => ?_, fun e => ?_⟩
  · obtain ⟨k, hk⟩ := fins_of_numbers (l := w.map fun z => z.1 - z.2) fun x hx => hc.2 e _ (List.mem_map.2 ⟨x, hx, rfl⟩)
    rw [hk, sharpe_fin (by rintro rfl; simp at hk; exact hw hk)]
    rfl
  · rw [if_neg (fun e' => by
      obtain ⟨z, hz, h⟩ := e
      have := hc.1 e' z hz
      simp [this.1, this.2] at h)] at hd
    have := sort_undefined hd
    rw [sharpe, this, if_neg (by simp [TFNum.eq, XR.eq])]
    cases Arith.mean (w.map fun z => z.1 - z.2) <;> rfl
example := C88_sharpe (p := 2) (by norm_num) (xs := [(fin 1, fin 0), (pinf, fin 0), (fin 2, fin 1)]) (by simp)

end TS
