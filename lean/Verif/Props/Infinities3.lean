import Verif.Props.Infinities2
import Verif.Props.RSI
/-
C88: one infinite sample in the relative strength index.
-/
namespace TS
open XR

section
variable {α : Type} [TFNum α] {p : Nat}

theorem avgGain_snoc {d : List α} (h : p ≤ d.length) (x : α) :
    avgGain p (d ++ [x]) = (avgGain p d * Arith.ofInt ((p : Int) - 1) + Arith.max (Arith.ofRat 0) x) / Arith.ofInt p := by
  simp only [avgGain, wilder, List.drop_append_of_le_length h, List.take_append_of_le_length h, List.foldl_append, List.foldl_cons, List.foldl_nil]

end

variable {K : Type} [Field K] [LinearOrder K] [IsStrictOrderedRing K] [Transc K] [FloorRing K] {p : Nat}

/-- smoothing an infinity -/
theorem smooth_inf (hp : 2 ≤ p) {g x : XR K} (hg : g = pinf ∧ x ≠ nan ∧ x ≠ ninf ∨ x = pinf ∧ g ≠ nan ∧ g ≠ ninf) :
    ((g * Arith.ofInt ((p : Int) - 1) + x) / Arith.ofInt p : XR K) = pinf := by
  have h1 : (0 : K) < ((p : Int) - 1 : Int) := by
    have : (2 : K) ≤ p := by exact_mod_cast hp
    push_cast; linarith
  have h2 : (0 : K) ≤ ((p : Int) : K) := by push_cast; positivity
  rw [ofInt_eq, ofInt_eq]
  change XR.div (XR.add (XR.mul _ _) _) _ = _
  rcases hg with ⟨rfl, h3, h4⟩ | ⟨rfl, h3, h4⟩
  · cases x <;> simp_all [XR.mul, XR.add, XR.div, XR.infOf]
  · cases g <;> simp_all [XR.mul, XR.add, XR.div, XR.infOf]

/-- smoothing numbers -/
theorem smooth_fin (hp : 2 ≤ p) (g x : K) : ((fin g * Arith.ofInt ((p : Int) - 1) + fin x) / Arith.ofInt p : XR K) = fin ((g * (p - 1) + x) / p) := by
  have : (p : K) ≠ 0 := by have : (2 : K) ≤ p := by exact_mod_cast hp
                           linarith
  rw [ofInt_eq, ofInt_eq, fin_mul, fin_add, fin_div _ _ (by simpa using this)]
  push_cast; rfl

/-- both averages before the infinity -/
theorem rsi_before (hp : 2 ≤ p) {xs : List K} (hx : p < xs.length) :
    ∃ g e : K, 0 ≤ g ∧ 0 ≤ e ∧ avgGain p (changes (xs.map fin)) = fin g ∧ avgLoss p (changes (xs.map fin)) = fin e := by
  have := changes_fin (xs := xs) (i := xs.length - 1) (by omega)
  rw [List.take_of_length_le (by simp; omega)] at this
  have hm : p ≤ (moves xs (xs.length - 1)).length := by simp [moves]; omega
  have h0 : 0 < p := by omega
  exact ⟨_, _, gainAt_nonneg h0 xs (xs.length - 1), lossAt_nonneg h0 xs (xs.length - 1), by rw [this, avgGain_fin h0 hm]; rfl,
    by rw [this, avgLoss_fin h0 hm]; rfl⟩

omit [IsStrictOrderedRing K] in
theorem rsi_max_zero (x : XR K) (h : x ≠ nan) : Arith.max (Arith.ofRat 0) x ≠ (nan : XR K) ∧ Arith.max (Arith.ofRat 0) x ≠ (ninf : XR K) := by
  rw [ofRat_eq]
  change XR.max _ _ ≠ _ ∧ XR.max _ _ ≠ _
  cases x <;> simp_all [XR.max, XR.lt]
  · split <;> simp

omit [IsStrictOrderedRing K] in
theorem rsi_min_zero (x : XR K) (h : x ≠ nan) : -Arith.min (Arith.ofRat 0) x ≠ (nan : XR K) ∧ -Arith.min (Arith.ofRat 0) x ≠ (ninf : XR K) := by
  rw [ofRat_eq]
  change XR.neg (XR.min _ _) ≠ _ ∧ XR.neg (XR.min _ _) ≠ _
  rcases x with a | _ | _ | _
  · by_cases h : a < 0 <;> simp [XR.min, XR.lt, XR.neg, h]
  all_goals simp_all [XR.min, XR.lt, XR.neg]

omit [IsStrictOrderedRing K] in
/-- one more sample -/
theorem rsi_more {h : List (XR K)} (hh : p < h.length) {y : XR K} {a : XR K} (ha : h.getLast? = some a) {g e : XR K}
    (hg : avgGain p (changes h) = g) (he : avgLoss p (changes h) = e) :
    avgGain p (changes (h ++ [y])) = (g * Arith.ofInt ((p : Int) - 1) + Arith.max (Arith.ofRat 0) (y - a)) / Arith.ofInt p ∧
    avgLoss p (changes (h ++ [y])) = (e * Arith.ofInt ((p : Int) - 1) + -Arith.min (Arith.ofRat 0) (y - a)) / Arith.ofInt p := by
  have hn : h ≠ [] := by rintro rfl; simp at hh
  have : h.getLast hn = a := by rw [List.getLast?_eq_some_getLast hn] at ha; exact Option.some.inj ha
  rw [changes_snoc hn, this, avgGain_snoc (by simp; omega), avgLoss_snoc (by simp; omega), hg, he]
  exact ⟨rfl, rfl⟩

/-- at the infinity -/
theorem rsi_at_inf (hp : 2 ≤ p) {xs : List K} (hx : p < xs.length) :
    (∃ e, 0 ≤ e ∧ avgGain p (changes (xs.map fin ++ [pinf])) = (pinf : XR K) ∧ avgLoss p (changes (xs.map fin ++ [pinf])) = (fin e : XR K)) ∧
    ∃ e, 0 ≤ e ∧ avgGain p (changes (xs.map fin ++ [ninf])) = (fin e : XR K) ∧ avgLoss p (changes (xs.map fin ++ [ninf])) = (pinf : XR K) := by
  obtain ⟨g, e, hg, he, h1, h2⟩ := rsi_before hp hx
  have hn : xs ≠ [] := by rintro rfl; simp at hx
  have ha : (xs.map (fin (K := K))).getLast? = some (fin (xs.getLast hn)) := by rw [List.getLast?_map, List.getLast?_eq_some_getLast hn]; rfl
  have hp' : (2 : K) ≤ p := by exact_mod_cast hp
  have key : ∀ c : K, 0 ≤ c → 0 ≤ (c * (p - 1) + 0) / p := fun c hc => div_nonneg (by nlinarith) (by linarith)
  have e1 : (pinf - fin (xs.getLast hn) : XR K) = pinf := rfl
  have e2 : (ninf - fin (xs.getLast hn) : XR K) = ninf := rfl
  constructor
  · obtain ⟨a, b⟩ := rsi_more (by simpa using hx) (y := pinf) ha h1 h2
    rw [e1] at a b
    refine ⟨_, key e he, a.trans (smooth_inf hp (.inr ⟨by simp [ofRat_eq]; rfl, by simp⟩)), b.trans ?_⟩
    rw [← smooth_fin hp]
    congr 2
    rw [ofRat_eq, Rat.cast_zero]
    change XR.neg (fin 0) = _
    simp [XR.neg]
  · obtain ⟨a, b⟩ := rsi_more (by simpa using hx) (y := ninf) ha h1 h2
    rw [e2] at a b
    refine ⟨_, key g hg, a.trans ?_, b.trans (smooth_inf hp (.inr ⟨by rw [ofRat_eq]; rfl, by simp⟩))⟩
    rw [← smooth_fin hp]
    congr 2
    rw [ofRat_eq, Rat.cast_zero]
    rfl

/-- after it -/
theorem rsi_after_inf (hp : 2 ≤ p) {xs : List K} (hx : p < xs.length) {ys : List K} (hy : ys ≠ []) {v : XR K} (hv : v = pinf ∨ v = ninf) :
    avgGain p (changes (xs.map fin ++ [v] ++ ys.map fin)) = (pinf : XR K) ∧ avgLoss p (changes (xs.map fin ++ [v] ++ ys.map fin)) = (pinf : XR K) := by
  induction ys using List.reverseRecOn with
  | nil => exact absurd rfl hy
  | append_singleton ys y ih =>
    by_cases hn : ys = []
    · subst hn
      obtain ⟨⟨e, he, h1, h2⟩, e', he', h1', h2'⟩ := rsi_at_inf hp hx
      rcases hv with rfl | rfl
      · obtain ⟨a, b⟩ := rsi_more (h := xs.map fin ++ [pinf]) (by simp; omega) (y := fin y) (a := pinf) (by simp) h1 h2
        refine ⟨a.trans (smooth_inf hp (.inl ⟨rfl, rsi_max_zero _ (by rintro ⟨⟩)⟩)), b.trans (smooth_inf hp (.inr ⟨by rw [ofRat_eq]; rfl, by simp⟩))⟩
      · obtain ⟨a, b⟩ := rsi_more (h := xs.map fin ++ [ninf]) (by simp; omega) (y := fin y) (a := ninf) (by simp) h1' h2'
        refine ⟨a.trans (smooth_inf hp (.inr ⟨by rw [ofRat_eq]; rfl, by simp⟩)), b.trans (smooth_inf hp (.inl ⟨rfl, rsi_min_zero _ (by rintro ⟨⟩)⟩))⟩
    · obtain ⟨h1, h2⟩ := ih hn
      obtain ⟨a, b⟩ := rsi_more (h := xs.map fin ++ [v] ++ ys.map fin) (by simp; omega) (y := fin y) (a := fin (ys.getLast hn))
        (by rw [List.getLast?_append_of_ne_nil _ (by simpa using hn), List.getLast?_map, List.getLast?_eq_some_getLast hn]; rfl) h1 h2
      rw [List.map_append, ← List.append_assoc]
      exact ⟨a.trans (smooth_inf hp (.inl ⟨rfl, rsi_max_zero _ (by rintro ⟨⟩)⟩)), b.trans (smooth_inf hp (.inl ⟨rfl, rsi_min_zero _ (by rintro ⟨⟩)⟩))⟩

/-- **C88 RSI**: an infinite sample after the warm-up gives 100 (or 0 for −∞), and then NaN for ever, though all other samples are numbers. -/
theorem C88_rsi (hp : 2 ≤ p) {xs ys : List K} (hx : p < xs.length) {v : XR K} (hv : v = pinf ∨ v = ninf) :
    ∃ os sf s0, call (RSI (p : Int)) (vSBuf (xs.map fin ++ [v] ++ ys.map fin)) none = .ok (vSBuf os, sf, s0) ∧
      ∃ hl : os.length = xs.length + 1 + ys.length, os[xs.length] = fin (if v = pinf then 100 else 0) ∧ ∀ i (hi : i < os.length), xs.length < i → os[i] = nan := by
  obtain ⟨os, sf, s0, h1, hl, h2⟩ := (C36_rsi_streams (α := XR K) (p := p) (by omega)).at (xs := xs.map fin ++ [v] ++ ys.map fin) (by simp)
  have hl' : os.length = xs.length + 1 + ys.length := by rw [hl]; simp; omega
  refine ⟨os, sf, s0, h1, hl', ?_, fun i hi hxi => ?_⟩
  · rw [h2 _ (by simp), List.take_append_of_le_length (by simp), List.take_of_length_le (by simp), rsi, if_neg (by simp; omega)]
    obtain ⟨⟨e, he, g1, g2⟩, e', he', g1', g2'⟩ := rsi_at_inf hp hx
    rcases hv with rfl | rfl
    · rw [g1, g2, if_pos rfl]
      simp only [ofRat_eq]
      change XR.add _ (XR.neg (XR.div _ (XR.add _ (XR.div pinf (fin e))))) = _
      simp [XR.add, XR.neg, XR.div, he]
    · rw [g1', g2', if_neg (by simp)]
      simp only [ofRat_eq]
      change XR.add _ (XR.neg (XR.div _ (XR.add _ (XR.div (fin e') pinf)))) = _
      simp [XR.add, XR.neg, XR.div]
  · obtain ⟨k, rfl⟩ : ∃ k, i = xs.length + 1 + k := ⟨i - xs.length - 1, by omega⟩
    have hk : k < ys.length := by omega
    have e : (xs.map fin ++ [v] ++ ys.map fin).take (xs.length + 1 + k + 1) = xs.map fin ++ [v] ++ (ys.take (k + 1)).map fin := by
      rw [List.take_append, List.take_of_length_le (by simp; omega), List.map_take]
      congr 2; simp; omega
    have hne : ys.take (k + 1) ≠ [] := by rw [← List.length_pos_iff, List.length_take]; omega
    obtain ⟨g1, g2⟩ := rsi_after_inf hp hx hne hv
    rw [h2 _ (by simp; omega), e, rsi, if_neg (by simp; omega), g1, g2]
    rfl
example := C88_rsi (K := ℚ) (p := 2) (by norm_num) (xs := [1, 3, 2]) (ys := [5, 4]) (by simp) (v := pinf) (.inl rfl)
example : output (call (RSI 2) (vSBuf [fin (1 : ℚ), fin 3, fin 2, pinf, fin 5, fin 4]) none) = .ok (vSBuf [fin 0, fin 0, fin (200 / 3), fin 100, nan, nan]) := by decide +kernel

end TS
