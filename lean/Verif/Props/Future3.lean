import Verif.Props.Future
/-
C105: the relative strength index.
-/
namespace TS
variable {K : Type} [Field K] [LinearOrder K] [IsStrictOrderedRing K] [Transc K] [FloorRing K]

omit [LinearOrder K] [IsStrictOrderedRing K] [Transc K] [FloorRing K] in
theorem moves_snoc2 (a : List K) (c x : K) : moves (a ++ [c] ++ [x]) (a.length + 1) = moves (a ++ [c]) a.length ++ [x - c] := by
  rw [moves, List.range_succ, List.map_append, List.map_singleton, moves]
  congr 1
  · refine List.map_congr_left fun k hk => ?_
    rw [List.mem_range] at hk
    have e : ∀ j ≤ a.length, (a ++ [c] ++ [x]).getD j 0 = (a ++ [c]).getD j 0 := by
      intro j hj
      rw [List.getD_eq_getElem?_getD, List.getElem?_append_left (by rw [List.length_append, List.length_singleton]; omega), List.getD_eq_getElem?_getD]
    rw [e _ (by omega), e _ (by omega)]
  · congr 2
    · rw [List.getD_eq_getElem?_getD, List.getElem?_append_right (by simp)]; simp
    · rw [List.getD_eq_getElem?_getD, List.getElem?_append_left (by simp), List.getElem?_append_right (by simp)]; simp

omit [LinearOrder K] [IsStrictOrderedRing K] [Transc K] [FloorRing K] in
theorem wilder_snoc2 {p : Nat} {l : List K} (h : p ≤ l.length) (x : K) : wilderAvg p (l ++ [x]) = (wilderAvg p l * (p - 1) + x) / p := by
  rw [wilderAvg, List.drop_append_of_le_length h, List.take_append_of_le_length h, List.foldl_append, ← wilderAvg]
  rfl

omit [IsStrictOrderedRing K] [Transc K] [FloorRing K] in
theorem gain_snoc {p : Nat} {a : List K} (h : p ≤ a.length) (c x : K) : gainAt p (a ++ [c] ++ [x]) (a.length + 1) = (gainAt p (a ++ [c]) a.length * (p - 1) + max 0 (x - c)) / p := by
  rw [gainAt, moves_snoc2, List.map_append, List.map_singleton, wilder_snoc2 (by simpa [moves] using h), gainAt]

omit [IsStrictOrderedRing K] [Transc K] [FloorRing K] in
theorem loss_snoc {p : Nat} {a : List K} (h : p ≤ a.length) (c x : K) : lossAt p (a ++ [c] ++ [x]) (a.length + 1) = (lossAt p (a ++ [c]) a.length * (p - 1) + max 0 (c - x)) / p := by
  rw [lossAt, moves_snoc2, List.map_append, List.map_singleton, wilder_snoc2 (by simpa [moves] using h), lossAt, neg_sub]

theorem rsi_snoc {p : Nat} (hp : 0 < p) {a : List K} (h : p ≤ a.length) (c x : K) : rsi p ((a ++ [c] ++ [x]).map XR.fin) =
    share (gainAt p (a ++ [c]) a.length * (p - 1) + max 0 (x - c)) (lossAt p (a ++ [c]) a.length * (p - 1) + max 0 (c - x)) := by
  have hp' : (p : K) ≠ 0 := by exact_mod_cast hp.ne'
  rw [rsi_share hp (i := a.length + 1) (by simp) (by omega), gain_snoc h, loss_snoc h]
  generalize gainAt p (a ++ [c]) a.length * (p - 1) + max 0 (x - c) = u
  generalize lossAt p (a ++ [c]) a.length * (p - 1) + max 0 (c - x) = v
  rw [share, share, ← add_div]
  by_cases huv : u + v = 0
  · rw [if_pos huv, if_pos (by rw [huv, zero_div])]
  · rw [if_neg huv, if_neg (div_ne_zero huv hp')]
    congr 1
    field_simp

omit [Transc K] [FloorRing K] in
/-- two hyperbolas that agree at two points -/
theorem hyperbolas {u v s t : K} (hs : 0 < s) (ht : 0 < t) (h0 : u / s = v / t) (h1 : u / (s + 1) = v / (t + 1)) : u = v ∧ (u = 0 ∨ s = t) := by
  rw [div_eq_div_iff hs.ne' ht.ne'] at h0
  rw [div_eq_div_iff (by positivity) (by positivity)] at h1
  have : u = v := by linarith
  subst this
  refine ⟨rfl, ?_⟩
  by_cases hu : u = 0
  · exact .inl hu
  · exact .inr (mul_left_cancel₀ hu (by linarith)).symm

omit [Transc K] [FloorRing K] in
theorem share_parts {g l g' l' : K} (h0 : 0 < g + l) (h0' : 0 < g' + l') (h : share g l = share g' l') : g / (g + l) = g' / (g' + l') ∧ l / (g + l) = l' / (g' + l') := by
  rw [share, share, if_neg h0.ne', if_neg h0'.ne', XR.fin.injEq, mul_div_assoc, mul_div_assoc] at h
  have h1 : g / (g + l) = g' / (g' + l') := by linarith
  refine ⟨h1, ?_⟩
  have e : ∀ g l : K, 0 < g + l → l / (g + l) = 1 - g / (g + l) := by
    intro g l h
    rw [eq_sub_iff_add_eq, ← add_div, add_comm l, div_self h.ne']
  rw [e _ _ h0, e _ _ h0', h1]

omit [Transc K] [FloorRing K] in
theorem rsi_told {G L G' L' c c' : K} (hG : 0 ≤ G) (hL : 0 ≤ L) (hG' : 0 ≤ G') (hL' : 0 ≤ L')
    (h : ∀ x, share (G + max 0 (x - c)) (L + max 0 (c - x)) = share (G' + max 0 (x - c')) (L' + max 0 (c' - x))) : c = c' ∧ G = G' ∧ L = L' := by
  have up : ∀ x, c < x → c' < x → L / (G + L + (x - c)) = L' / (G' + L' + (x - c')) := by
    intro x hx hx'
    have := h x
    rw [max_eq_right (by linarith), max_eq_left (by linarith), max_eq_right (by linarith), max_eq_left (by linarith)] at this
    have := (share_parts (by linarith) (by linarith) this).2
    rwa [add_zero, add_zero, show G + (x - c) + L = G + L + (x - c) by ring, show G' + (x - c') + L' = G' + L' + (x - c') by ring] at this
  have down : ∀ x, x < c → x < c' → G / (G + L + (c - x)) = G' / (G' + L' + (c' - x)) := by
    intro x hx hx'
    have := h x
    rw [max_eq_left (by linarith), max_eq_right (by linarith), max_eq_left (by linarith), max_eq_right (by linarith)] at this
    have := (share_parts (by linarith) (by linarith) this).1
    rwa [add_zero, add_zero, ← add_assoc, ← add_assoc] at this
  have m1 := le_max_left c c'
  have m2 := le_max_right c c'
  have n1 := min_le_left c c'
  have n2 := min_le_right c c'
  have hu : L = L' ∧ (L = 0 ∨ G + L + (max c c' + 1 - c) = G' + L' + (max c c' + 1 - c')) := by
    refine hyperbolas (by linarith) (by linarith) (up (max c c' + 1) (by linarith) (by linarith)) ?_
    have := up (max c c' + 1 + 1) (by linarith) (by linarith)
    rwa [show G + L + (max c c' + 1 + 1 - c) = G + L + (max c c' + 1 - c) + 1 by ring, show G' + L' + (max c c' + 1 + 1 - c') = G' + L' + (max c c' + 1 - c') + 1 by ring] at this
  have hd : G = G' ∧ (G = 0 ∨ G + L + (c - (min c c' - 1)) = G' + L' + (c' - (min c c' - 1))) := by
    refine hyperbolas (by linarith) (by linarith) (down (min c c' - 1) (by linarith) (by linarith)) ?_
    have := down (min c c' - 1 - 1) (by linarith) (by linarith)
    rwa [show G + L + (c - (min c c' - 1 - 1)) = G + L + (c - (min c c' - 1)) + 1 by ring, show G' + L' + (c' - (min c c' - 1 - 1)) = G' + L' + (c' - (min c c' - 1)) + 1 by ring] at this
  obtain ⟨eL, h1⟩ := hu
  obtain ⟨eG, h2⟩ := hd
  refine ⟨?_, eG, eL⟩
  rcases h1 with h1 | h1
  · rcases h2 with h2 | h2
    · by_contra hc
      have := h c
      rw [← eL, ← eG, h1, h2, share, share, if_pos (by simp), if_neg] at this
      · cases this
      · intro h0
        have a1 := le_max_right (0 : K) (c - c')
        have a2 := le_max_right (0 : K) (c' - c)
        have a3 := le_max_left (0 : K) (c - c')
        have a4 := le_max_left (0 : K) (c' - c)
        exact hc (by linarith)
    · linarith
  · linarith

omit [IsStrictOrderedRing K] [Transc K] [FloorRing K] in
theorem gains_after {p : Nat} {a b : List K} {c d : K} (ha : p ≤ a.length) (hb : p ≤ b.length)
    (h : c = d ∧ (p = 1 ∨ gainAt p (a ++ [c]) a.length = gainAt p (b ++ [d]) b.length ∧ lossAt p (a ++ [c]) a.length = lossAt p (b ++ [d]) b.length)) (x : K) :
    gainAt p (a ++ [c] ++ [x]) (a.length + 1) = gainAt p (b ++ [d] ++ [x]) (b.length + 1) ∧ lossAt p (a ++ [c] ++ [x]) (a.length + 1) = lossAt p (b ++ [d] ++ [x]) (b.length + 1) := by
  obtain ⟨rfl, h⟩ := h
  rw [gain_snoc ha, gain_snoc hb, loss_snoc ha, loss_snoc hb]
  rcases h with rfl | ⟨h1, h2⟩
  · simp
  · rw [h1, h2]; exact ⟨rfl, rfl⟩

theorem rsi_future {p : Nat} (hp : 0 < p) : ∀ (xs : List K) {a b : List K} {c d : K} (_ : p ≤ a.length) (_ : p ≤ b.length)
    (_ : c = d ∧ (p = 1 ∨ gainAt p (a ++ [c]) a.length = gainAt p (b ++ [d]) b.length ∧ lossAt p (a ++ [c]) a.length = lossAt p (b ++ [d]) b.length)), xs ≠ [] →
    rsi p ((a ++ [c] ++ xs).map XR.fin) = rsi p ((b ++ [d] ++ xs).map XR.fin)
  | [], _, _, _, _, _, _, _, hx => absurd rfl hx
  | [x], a, b, c, d, ha, hb, h, _ => by
    have hg := gains_after ha hb h x
    rw [rsi_share hp (i := a.length + 1) (by simp) (by omega), rsi_share hp (i := b.length + 1) (by simp) (by omega), hg.1, hg.2]
  | x :: y :: xs, a, b, c, d, ha, hb, h, _ => by
    have hg := gains_after ha hb h x
    have := rsi_future hp (y :: xs) (a := a ++ [c]) (b := b ++ [d]) (c := x) (d := x) (by simp; omega) (by simp; omega) ⟨rfl, .inr (by simpa using hg)⟩ (by simp)
    rwa [List.append_cons (a ++ [c]), List.append_cons (b ++ [d])]

/-- **C105 RelativeStrengthIndex**, histories longer than the period: the same last price, and, unless the period is 1, the same average gain and loss. -/
theorem C105_rsi {p : Nat} (hp : 0 < p) {a b : List K} (c d : K) (ha : p ≤ a.length) (hb : p ≤ b.length) :
    SameFuture (RSI (p : Int) : Operator (XR K)) numbers (a ++ [c]) (b ++ [d]) ↔
      c = d ∧ (p = 1 ∨ gainAt p (a ++ [c]) a.length = gainAt p (b ++ [d]) b.length ∧ lossAt p (a ++ [c]) a.length = lossAt p (b ++ [d]) b.length) := by
  rw [show (numbers : List K → Val (XR K)) = finSeries from rfl, (rsi_reals hp).sameFuture_iff (fun _ _ => vSBuf_inj) (by simp) (by simp)]
  constructor
  · intro h
    have hp1 : (0 : K) ≤ (p : K) - 1 := by
      have : (1 : K) ≤ p := by exact_mod_cast hp
      linarith
    obtain ⟨h1, h2, h3⟩ := rsi_told (mul_nonneg (gainAt_nonneg hp (a ++ [c]) a.length) hp1) (mul_nonneg (lossAt_nonneg hp (a ++ [c]) a.length) hp1)
      (mul_nonneg (gainAt_nonneg hp (b ++ [d]) b.length) hp1) (mul_nonneg (lossAt_nonneg hp (b ++ [d]) b.length) hp1)
      (c := c) (c' := d) fun x => by rw [← rsi_snoc hp ha, ← rsi_snoc hp hb]; exact h [x] (by simp)
    refine ⟨h1, ?_⟩
    by_cases hp2 : p = 1
    · exact .inl hp2
    · have : (p : K) - 1 ≠ 0 := by
        rw [sub_ne_zero]; exact_mod_cast hp2
      exact .inr ⟨mul_right_cancel₀ this h2, mul_right_cancel₀ this h3⟩
  · intro h xs hx
    exact rsi_future hp xs ha hb h hx

example : SameFuture (RSI 2 : Operator (XR ℚ)) numbers ([1, 3] ++ [2]) ([1, 0] ++ [2]) ∧ ¬ SameFuture (RSI 2 : Operator (XR ℚ)) numbers ([1, 3] ++ [2]) ([1, 3] ++ [3]) :=
  ⟨(C105_rsi (p := 2) (by decide) 2 2 (by simp) (by simp)).2 ⟨rfl, .inr ⟨by decide +kernel, by decide +kernel⟩⟩,
    fun h => absurd ((C105_rsi (p := 2) (by decide) 2 3 (by simp) (by simp)).1 h).1 (by norm_num)⟩
end TS
