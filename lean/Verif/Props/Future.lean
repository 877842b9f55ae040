import Verif.Props.Depends2
/-
C105: exactly when two histories cannot be told apart by what follows.
-/
namespace TS

section
variable {α A B : Type}

theorem StreamsAs.sameFuture_iff {op : Operator α} {ser : List A → Val α} {outs : List B → Val α} {y : List A → B} (h : StreamsAs op ser outs y)
    (hinj : ∀ l m, outs l = outs m → l = m) {a b : List A} (ha : a ≠ []) (hb : b ≠ []) : SameFuture op ser a b ↔ ∀ xs, xs ≠ [] → y (a ++ xs) = y (b ++ xs) := by
  obtain ⟨st, h, h'⟩ := h
  constructor
  · rintro ⟨o, s, i, o', s', i', h1, h2, h3⟩ xs hx
    rw [h a ha] at h1
    rw [h b hb] at h2
    simp only [Except.ok.injEq, Prod.mk.injEq] at h1 h2
    obtain ⟨out, sf, si, sf', si', h4, h5⟩ := h3 xs hx
    rw [← h1.2.1, h' a xs hx] at h4
    rw [← h2.2.1, h' b xs hx] at h5
    simp only [Except.ok.injEq, Prod.mk.injEq] at h4 h5
    have e := hinj _ _ (h4.1.trans h5.1.symm)
    have hl : 0 < xs.length := List.length_pos_iff.2 hx
    have := List.getElem_of_eq e (i := xs.length - 1) (by simp; omega)
    rwa [scan_getElem, scan_getElem, List.take_of_length_le (by omega)] at this
  · intro H
    refine ⟨_, _, _, _, _, _, h a ha, h b hb, fun xs hx => ?_⟩
    have : scan y b xs = scan y a xs := by
      refine List.ext_getElem (by simp) fun i h1 h2 => ?_
      rw [scan_getElem, scan_getElem]
      refine (H _ ?_).symm
      rw [← List.length_pos_iff, List.length_take]
      simp at h1; omega
    exact ⟨_, _, _, _, _, h' a xs hx, this ▸ h' b xs hx⟩

theorem lagged_append {z : A} {p : Nat} (a xs : List A) : lagged z p (a ++ xs) = if p < xs.length then lagged z p xs else a.reverse[p - xs.length]?.getD z := by
  rw [lagged, lagged, List.reverse_append]
  split
  · rw [List.getElem?_append_left (by simpa)]
  · rw [List.getElem?_append_right (by simp; omega), List.length_reverse]

theorem window_append {p : Nat} (a xs : List A) (h : xs.length ≤ p) : window p (a ++ xs) = xs.reverse ++ window (p - xs.length) a := by
  rw [window, List.reverse_append, List.take_append, List.take_of_length_le (by simpa using h), List.length_reverse, window]

theorem window_append_long {p : Nat} (a xs : List A) (h : p ≤ xs.length) : window p (a ++ xs) = window p xs := by
  rw [window, List.reverse_append, List.take_append_of_le_length (by simpa using h), window]

theorem window_window {k q : Nat} (h : k ≤ q) (a : List A) : window k a = (window q a).take k := by
  rw [window, window, List.take_take, min_eq_left h]

theorem getLastD_append' {z : A} (a : List A) {xs : List A} (hx : xs ≠ []) : (a ++ xs).getLastD z = xs.getLastD z := by
  induction xs using List.reverseRecOn with
  | nil => exact absurd rfl hx
  | append_singleton xs x _ => simp [← List.append_assoc]
end

section
variable {K : Type} [Field K] [LinearOrder K] [IsStrictOrderedRing K] [Transc K] [FloorRing K]

/-- **C105 Lag**: the last `p` samples, missing ones counted as zero, agree. -/
theorem C105_lag {p : Nat} (hp : 0 < p) {a b : List K} (ha : a ≠ []) (hb : b ≠ []) :
    SameFuture (Lag (p : Int) : Operator (XR K)) numbers a b ↔ ∀ k < p, a.reverse[k]?.getD 0 = b.reverse[k]?.getD 0 := by
  rw [show (numbers : List K → Val (XR K)) = finSeries from rfl, (lag_reals hp).sameFuture_iff (fun _ _ => finSeries_inj) ha hb]
  constructor
  · intro h k hk
    have := h (List.replicate (p - k) 0) (by simp; omega)
    rwa [lagged_append, lagged_append, List.length_replicate, if_neg (by omega), if_neg (by omega), show p - (p - k) = k by omega] at this
  · intro h xs hx
    have := List.length_pos_iff.2 hx
    rw [lagged_append, lagged_append]
    split
    · rfl
    · exact h _ (by omega)

example : SameFuture (Lag 2 : Operator (XR ℚ)) numbers [1, 0, 3] [0, 3] ∧ ¬ SameFuture (Lag 2 : Operator (XR ℚ)) numbers [1, 3] [2, 3] :=
  ⟨(C105_lag (p := 2) (by decide) (by simp) (by simp)).2 (by decide), fun h => absurd ((C105_lag (p := 2) (by decide) (by simp) (by simp)).1 h) (by decide)⟩

/-- **C105 Return**: the same as for `Lag`. -/
theorem C105_return {p : Nat} (hp : 0 < p) {a b : List K} (ha : a ≠ []) (hb : b ≠ []) :
    SameFuture (Return (p : Int) : Operator (XR K)) numbers a b ↔ ∀ k < p, a.reverse[k]?.getD 0 = b.reverse[k]?.getD 0 := by
  rw [show (numbers : List K → Val (XR K)) = finSeries from rfl, (return_reals hp).sameFuture_iff (fun _ _ => finSeries_inj) ha hb]
  have e : ∀ l : List K, returnK p l = if lagged 0 p l = 0 then 0 else l.getLastD 0 / lagged 0 p l - 1 := by
    intro l
    rw [returnK]
    by_cases hl : l.length ≤ p
    · rw [if_pos (.inl hl), if_pos]
      rw [lagged, List.getElem?_eq_none (by simpa using hl)]; rfl
    · simp [hl]
  constructor
  · intro h k hk
    have key : ∀ t : K, (if a.reverse[k]?.getD 0 = 0 then 0 else t / a.reverse[k]?.getD 0 - 1) = if b.reverse[k]?.getD 0 = 0 then 0 else t / b.reverse[k]?.getD 0 - 1 := by
      intro t
      have := h (List.replicate (p - k) t) (by simp; omega)
      have hg : ∀ a : List K, lagged 0 p (a ++ List.replicate (p - k) t) = a.reverse[k]?.getD 0 := by
        intro a
        rw [lagged_append, List.length_replicate, if_neg (by omega), show p - (p - k) = k by omega]
      rw [e, e, getLastD_append' _ (by simp; omega), getLastD_append' _ (by simp; omega), hg, hg] at this
      obtain ⟨n, hn⟩ : ∃ n, p - k = n + 1 := ⟨p - k - 1, by omega⟩
      have hl : (List.replicate (p - k) t).getLastD 0 = t := by rw [hn, List.replicate_succ']; simp
      rwa [hl] at this
    generalize a.reverse[k]?.getD 0 = u at key ⊢
    generalize b.reverse[k]?.getD 0 = v at key ⊢
    by_cases hu : u = 0 <;> by_cases hv : v = 0
    · rw [hu, hv]
    · have := key (2 * v)
      rw [if_pos hu, if_neg hv, mul_div_cancel_right₀ _ hv] at this
      norm_num at this
    · have := key (2 * u)
      rw [if_pos hv, if_neg hu, mul_div_cancel_right₀ _ hu] at this
      norm_num at this
    · have := key u
      rw [if_neg hv, if_neg hu, div_self hu, sub_self, eq_comm, sub_eq_zero, div_eq_one_iff_eq hv] at this
      exact this
  · intro h xs hx
    have := List.length_pos_iff.2 hx
    have hl : lagged 0 p (a ++ xs) = lagged 0 p (b ++ xs) := by
      rw [lagged_append, lagged_append]
      split
      · rfl
      · exact h _ (by omega)
    rw [e, e, hl, getLastD_append' _ hx, getLastD_append' _ hx]

example : SameFuture (Return 2 : Operator (XR ℚ)) numbers [3] [0, 3] ∧ ¬ SameFuture (Return 2 : Operator (XR ℚ)) numbers [1, 3] [2, 3] :=
  ⟨(C105_return (p := 2) (by decide) (by simp) (by simp)).2 (by decide), fun h => absurd ((C105_return (p := 2) (by decide) (by simp) (by simp)).1 h) (by decide)⟩

/-- **C105 Momentum**: the last `p` samples agree and are equally many. -/
theorem C105_momentum {p : Nat} (hp : 0 < p) {a b : List K} (ha : a ≠ []) (hb : b ≠ []) :
    SameFuture (Momentum (p : Int) : Operator (XR K)) numbers a b ↔ a.reverse.take p = b.reverse.take p := by
  rw [show (numbers : List K → Val (XR K)) = finSeries from rfl, (momentum_reals hp).sameFuture_iff (fun _ _ => finSeries_inj) ha hb]
  constructor
  · intro h
    have len : ∀ a b : List K, (∀ xs, xs ≠ [] → momentumK p (a ++ xs) = momentumK p (b ++ xs)) → min p b.length ≤ min p a.length := by
      intro a b h
      by_contra hc
      have := h (List.replicate (p - a.length) (1 + b.reverse[a.length]?.getD 0)) (by simp; omega)
      obtain ⟨n, hn⟩ : ∃ n, p - a.length = n + 1 := ⟨p - a.length - 1, by omega⟩
      have hl : ∀ t : K, (List.replicate (p - a.length) t).getLastD 0 = t := by intro t; rw [hn, List.replicate_succ']; simp
      rw [momentumK, if_pos (by simp; omega), momentumK, if_neg (by simp; omega), getLastD_append' _ (by simp; omega), hl, lagged_append, List.length_replicate, if_neg (by omega), show p - (p - a.length) = a.length by omega] at this
      simp at this
    have hl : min p a.length = min p b.length := le_antisymm (len b a fun xs hx => (h xs hx).symm) (len a b h)
    refine List.ext_getElem (by simpa using hl) fun k h1 h2 => ?_
    simp at h1 h2
    have := h (List.replicate (p - k) 0) (by simp; omega)
    rw [momentumK, momentumK, if_neg (by simp; omega), if_neg (by simp; omega), getLastD_append' _ (by simp; omega), getLastD_append' _ (by simp; omega), lagged_append, lagged_append, List.length_replicate,
      if_neg (by omega), if_neg (by omega), show p - (p - k) = k by omega, sub_right_inj, List.getElem?_eq_getElem (by simp; omega), List.getElem?_eq_getElem (by simp; omega)] at this
    simpa using this
  · intro h xs hx
    have := List.length_pos_iff.2 hx
    have hl := congrArg List.length h
    simp at hl
    have hk : ∀ k < p, a.reverse[k]? = b.reverse[k]? := fun k hk => by
      have := congrArg (·[k]?) h
      simpa [List.getElem?_take, hk] using this
    have hg : lagged 0 p (a ++ xs) = lagged 0 p (b ++ xs) := by
      rw [lagged_append, lagged_append]
      split
      · rfl
      · rw [hk _ (by omega)]
    rw [momentumK, momentumK, hg, getLastD_append' _ hx, getLastD_append' _ hx]
    by_cases hs : (a ++ xs).length ≤ p
    · rw [if_pos hs, if_pos]; simp at hs ⊢; omega
    · rw [if_neg hs, if_neg]; simp at hs ⊢; omega

example : SameFuture (Momentum 2 : Operator (XR ℚ)) numbers [5, 0, 3] [0, 3] ∧ ¬ SameFuture (Momentum 2 : Operator (XR ℚ)) numbers [3] [0, 3] :=
  ⟨(C105_momentum (p := 2) (by decide) (by simp) (by simp)).2 (by decide), fun h => absurd ((C105_momentum (p := 2) (by decide) (by simp) (by simp)).1 h) (by decide)⟩

/-- **C105 SimpleMovingAverage**: the last `p - 1` samples agree and are equally many. -/
theorem C105_sma {p : Nat} (hp : 0 < p) {a b : List K} (ha : a ≠ []) (hb : b ≠ []) :
    SameFuture (SMA (p : Int) : Operator (XR K)) numbers a b ↔ a.reverse.take (p - 1) = b.reverse.take (p - 1) := by
  rw [show (numbers : List K → Val (XR K)) = finSeries from rfl, (sma_reals hp).sameFuture_iff (fun _ _ => finSeries_inj) ha hb]
  have hp' : (p : K) ≠ 0 := by exact_mod_cast hp.ne'
  have val : ∀ (a xs : List K), xs.length ≤ p → p ≤ a.length + xs.length → movingAvgK p (a ++ xs) = (xs.sum + (window (p - xs.length) a).sum) / p := by
    intro a xs h1 h2
    rw [movingAvgK, if_neg (by simp; omega), avg, window_length, List.length_append, min_eq_left h2, window_append _ _ h1, List.sum_append, List.sum_reverse]
  constructor
  · intro h
    have len : ∀ a b : List K, (∀ xs, xs ≠ [] → movingAvgK p (a ++ xs) = movingAvgK p (b ++ xs)) → min (p - 1) b.length ≤ min (p - 1) a.length := by
      intro a b h
      by_contra hc
      set n := min (p - 1) b.length with hn
      have := h ((1 - (window n b).sum) :: List.replicate (p - n - 1) 0) (by simp)
      rw [movingAvgK, if_pos (by simp; omega), val b _ (by simp; omega) (by simp; omega), List.length_cons, List.length_replicate, show p - (p - n - 1 + 1) = n by omega] at this
      simp at this
      exact hp' this.symm
    have hl : min (p - 1) a.length = min (p - 1) b.length := le_antisymm (len b a fun xs hx => (h xs hx).symm) (len a b h)
    have hs : ∀ k ≤ min (p - 1) a.length, (window k a).sum = (window k b).sum := by
      intro k hk
      have := h (List.replicate (p - k) 0) (by simp; omega)
      rw [val a _ (by simp) (by simp; omega), val b _ (by simp) (by simp; omega), List.length_replicate, show p - (p - k) = k by omega, div_left_inj' hp'] at this
      simpa using this
    refine List.ext_getElem (by simpa using hl) fun k h1 h2 => ?_
    simp at h1 h2
    have e1 := hs k (by omega)
    have e2 := hs (k + 1) (by omega)
    rw [window, window] at e1 e2
    rw [List.take_succ_eq_append_getElem (by simp; omega), List.take_succ_eq_append_getElem (by simp; omega), List.sum_append, List.sum_append, e1, add_right_inj] at e2
    simpa using e2
  · intro h xs hx
    have := List.length_pos_iff.2 hx
    have hl := congrArg List.length h
    simp at hl
    by_cases hxs : p ≤ xs.length
    · rw [movingAvgK, movingAvgK, window_append_long _ _ hxs, window_append_long _ _ hxs, if_neg (by simp; omega), if_neg (by simp; omega)]
    · rw [movingAvgK, movingAvgK, window_append _ _ (by omega), window_append _ _ (by omega), window_window (q := p - 1) (by omega) a, window_window (q := p - 1) (by omega) b, show window (p - 1) a = window (p - 1) b from h]
      by_cases hs : (a ++ xs).length < p
      · rw [if_pos hs, if_pos]; simp at hs ⊢; omega
      · rw [if_neg hs, if_neg]; simp at hs ⊢; omega

example : SameFuture (SMA 3 : Operator (XR ℚ)) numbers [5, 0, 3] [0, 3] ∧ ¬ SameFuture (SMA 3 : Operator (XR ℚ)) numbers [0, 3] [1, 2] :=
  ⟨(C105_sma (p := 3) (by decide) (by simp) (by simp)).2 (by decide), fun h => absurd ((C105_sma (p := 3) (by decide) (by simp) (by simp)).1 h) (by decide)⟩

/-- **C105 ZeroCrossoverSignal**: the same direction. -/
theorem C105_zero_crossover {a b : List K} (ha : a ≠ []) (hb : b ≠ []) : SameFuture (ZeroCrossoverSignal : Operator (XR K)) numbers a b ↔ lastSign a = lastSign b := by
  rw [show (numbers : List K → Val (XR K)) = finSeries from rfl, zc_reals.sameFuture_iff (fun _ _ => vIBuf_inj) ha hb]
  have hta : ∀ (a k : List K) (x : K), a ≠ [] → turnAt (a ++ (k ++ [x])) ((a ++ (k ++ [x])).length - 1) = if x = 0 ∨ sgn x = lastSign (a ++ k) then 0 else sgn x := by
    intro a k x ha
    have := List.length_pos_iff.2 ha
    rw [← List.append_assoc, show (a ++ k ++ [x]).length - 1 = (a ++ k).length by simp, turnAt]
    have h0 : (a ++ k).length ≠ 0 := by rw [List.length_append]; omega
    have e1 : (a ++ k ++ [x]).getD (a ++ k).length 0 = x := by rw [List.getD_eq_getElem?_getD, List.getElem?_concat_length]; rfl
    have e2 : (a ++ k ++ [x]).take (a ++ k).length = a ++ k := List.take_left
    rw [e1, e2]
    simp only [h0, false_or]
  have hsa : ∀ (k a b : List K), lastSign a = lastSign b → lastSign (a ++ k) = lastSign (b ++ k) := by
    intro k a b h
    rw [lastSign, lastSign, List.foldl_append, List.foldl_append]
    exact congrArg (fun d => k.foldl _ d) h
  constructor
  · intro h
    have h1 := h ([] ++ [1]) (by simp)
    rw [hta a _ _ ha, hta b _ _ hb] at h1
    simp [sgn] at h1
    rcases lastSign_mem a with h2 | h2 <;> rcases lastSign_mem b with h3 | h3 <;> simp [h2, h3] at h1 ⊢
  · intro h xs hx
    obtain ⟨k, x, rfl⟩ : ∃ k x, xs = k ++ [x] := ⟨_, _, (List.dropLast_append_getLast hx).symm⟩
    rw [hta a _ _ ha, hta b _ _ hb, hsa k a b h]

example : SameFuture (ZeroCrossoverSignal : Operator (XR ℚ)) numbers [5, -1] [-2, 0] ∧ ¬ SameFuture (ZeroCrossoverSignal : Operator (XR ℚ)) numbers [5, -1] [0] :=
  ⟨(C105_zero_crossover (by simp) (by simp)).2 (by decide +kernel), fun h => absurd ((C105_zero_crossover (by simp) (by simp)).1 h) (by decide +kernel)⟩

theorem greatest_join {a b c d xs : List K} (hc : ∀ x, x ∈ c ↔ x ∈ xs ∨ x ∈ a) (hd : ∀ x, x ∈ d ↔ x ∈ xs ∨ x ∈ b) (h : ∃ m, IsGreatestOf m a ∧ IsGreatestOf m b) : greatestK c = greatestK d := by
  obtain ⟨m, ha, hb⟩ := h
  have hcn : c ≠ [] := List.ne_nil_of_mem ((hc m).2 (.inr ha.1))
  have hdn : d ≠ [] := List.ne_nil_of_mem ((hd m).2 (.inr hb.1))
  have g := greatestK_greatest hcn
  have g' := greatestK_greatest hdn
  refine le_antisymm ?_ ?_
  · rcases (hc _).1 g.1 with h | h
    · exact g'.2 _ ((hd _).2 (.inl h))
    · exact (ha.2 _ h).trans (g'.2 _ ((hd _).2 (.inr hb.1)))
  · rcases (hd _).1 g'.1 with h | h
    · exact g.2 _ ((hc _).2 (.inl h))
    · exact (hb.2 _ h).trans (g.2 _ ((hc _).2 (.inr ha.1)))

theorem greatest_below {a c : List K} (ha : a ≠ []) {x : K} (hx : x ≤ greatestK a) (hc : ∀ y, y ∈ c ↔ y = x ∨ y ∈ a) : greatestK c = greatestK a := by
  have g := greatestK_greatest ha
  have g' := greatestK_greatest (l := c) (List.ne_nil_of_mem ((hc x).2 (.inl rfl)))
  refine le_antisymm ?_ (g'.2 _ ((hc _).2 (.inr g.1)))
  rcases (hc _).1 g'.1 with h | h
  · rw [h]; exact hx
  · exact g.2 _ h

/-- **C105 GlobalMaximum**: the same maximum. -/
theorem C105_global_max {a b : List K} (ha : a ≠ []) (hb : b ≠ []) : SameFuture (GlobalMaximum : Operator (XR K)) numbers a b ↔ ∃ m, IsGreatestOf m a ∧ IsGreatestOf m b := by
  rw [show (numbers : List K → Val (XR K)) = finSeries from rfl, globalMax_reals.sameFuture_iff (fun _ _ => finSeries_inj) ha hb]
  constructor
  · intro h
    have := h [min (greatestK a) (greatestK b)] (by simp)
    rw [greatest_below (c := a ++ [min (greatestK a) (greatestK b)]) ha (min_le_left _ (greatestK b)) (by simp [or_comm]),
      greatest_below (c := b ++ [min (greatestK a) (greatestK b)]) hb (min_le_right (greatestK a) _) (by simp [or_comm])] at this
    exact ⟨greatestK a, greatestK_greatest ha, this ▸ greatestK_greatest hb⟩
  · intro h xs hx
    exact greatest_join (xs := xs) (by simp [or_comm]) (by simp [or_comm]) h

example : SameFuture (GlobalMaximum : Operator (XR ℚ)) numbers [5, 1] [2, 5, 3] :=
  (C105_global_max (by simp) (by simp)).2 ⟨5, by norm_num [IsGreatestOf], by norm_num [IsGreatestOf]⟩

/-- **C105 LocalMaximum**: the last `k` samples have the same maximum, for each `k` below the period. -/
theorem C105_local_max {p : Nat} (hp : 0 < p) {a b : List K} (ha : a ≠ []) (hb : b ≠ []) :
    SameFuture (LocalMaximum (p : Int) : Operator (XR K)) numbers a b ↔ ∀ k, 0 < k → k < p → ∃ m, IsGreatestOf m (a.reverse.take k) ∧ IsGreatestOf m (b.reverse.take k) := by
  rw [show (numbers : List K → Val (XR K)) = finSeries from rfl, (localMax_reals hp).sameFuture_iff (fun _ _ => finSeries_inj) ha hb]
  constructor
  · intro h k hk hkp
    have na : window k a ≠ [] := window_ne_nil hk ha
    have nb : window k b ≠ [] := window_ne_nil hk hb
    have := h (List.replicate (p - k) (min (greatestK (window k a)) (greatestK (window k b)))) (by simp; omega)
    have hm : ∀ (l : List K) (x y : K), y ∈ List.replicate (p - k) x ++ l ↔ y = x ∨ y ∈ l := by
      intro l x y
      rw [List.mem_append, List.mem_replicate, and_iff_right (by omega : p - k ≠ 0)]
    rw [window_append _ _ (by simp), window_append _ _ (by simp), List.length_replicate, show p - (p - k) = k by omega, List.reverse_replicate,
      greatest_below na (min_le_left _ _) (hm (window k a) (min (greatestK (window k a)) (greatestK (window k b)))),
      greatest_below nb (min_le_right _ _) (hm (window k b) (min (greatestK (window k a)) (greatestK (window k b))))] at this
    exact ⟨_, greatestK_greatest na, this ▸ greatestK_greatest nb⟩
  · intro h xs hx
    have hl := List.length_pos_iff.2 hx
    by_cases hxs : p ≤ xs.length
    · rw [window_append_long _ _ hxs, window_append_long _ _ hxs]
    · rw [window_append _ _ (by omega), window_append _ _ (by omega)]
      exact greatest_join (xs := xs) (by simp [window]) (by simp [window]) (h (p - xs.length) (by omega) (by omega))

example : SameFuture (LocalMaximum 3 : Operator (XR ℚ)) numbers [9, 1, 4] [2, 4] :=
  (C105_local_max (p := 3) (by decide) (by simp) (by simp)).2 fun k h1 h2 => by
    rcases (by omega : k = 1 ∨ k = 2) with rfl | rfl <;> exact ⟨4, by norm_num [IsGreatestOf], by norm_num [IsGreatestOf]⟩

theorem least_join {a b c d xs : List K} (hc : ∀ x, x ∈ c ↔ x ∈ xs ∨ x ∈ a) (hd : ∀ x, x ∈ d ↔ x ∈ xs ∨ x ∈ b) (h : ∃ m, IsLeastOf m a ∧ IsLeastOf m b) : leastK c = leastK d := by
  obtain ⟨m, ha, hb⟩ := h
  have hcn : c ≠ [] := List.ne_nil_of_mem ((hc m).2 (.inr ha.1))
  have hdn : d ≠ [] := List.ne_nil_of_mem ((hd m).2 (.inr hb.1))
  have g := leastK_least hcn
  have g' := leastK_least hdn
  refine le_antisymm ?_ ?_
  · rcases (hd _).1 g'.1 with h | h
    · exact g.2 _ ((hc _).2 (.inl h))
    · exact (g.2 _ ((hc _).2 (.inr ha.1))).trans (hb.2 _ h)
  · rcases (hc _).1 g.1 with h | h
    · exact g'.2 _ ((hd _).2 (.inl h))
    · exact (g'.2 _ ((hd _).2 (.inr hb.1))).trans (ha.2 _ h)

theorem least_above {a c : List K} (ha : a ≠ []) {x : K} (hx : leastK a ≤ x) (hc : ∀ y, y ∈ c ↔ y = x ∨ y ∈ a) : leastK c = leastK a := by
  have g := leastK_least ha
  have g' := leastK_least (l := c) (List.ne_nil_of_mem ((hc x).2 (.inl rfl)))
  refine le_antisymm (g'.2 _ ((hc _).2 (.inr g.1))) ?_
  rcases (hc _).1 g'.1 with h | h
  · rw [h]; exact hx
  · exact g.2 _ h

/-- **C105 GlobalMinimum**: the same minimum. -/
theorem C105_global_min {a b : List K} (ha : a ≠ []) (hb : b ≠ []) : SameFuture (GlobalMinimum : Operator (XR K)) numbers a b ↔ ∃ m, IsLeastOf m a ∧ IsLeastOf m b := by
  rw [show (numbers : List K → Val (XR K)) = finSeries from rfl, globalMin_reals.sameFuture_iff (fun _ _ => finSeries_inj) ha hb]
  constructor
  · intro h
    have := h [max (leastK a) (leastK b)] (by simp)
    rw [least_above (c := a ++ [max (leastK a) (leastK b)]) ha (le_max_left _ (leastK b)) (by simp [or_comm]),
      least_above (c := b ++ [max (leastK a) (leastK b)]) hb (le_max_right (leastK a) _) (by simp [or_comm])] at this
    exact ⟨leastK a, leastK_least ha, this ▸ leastK_least hb⟩
  · intro h xs hx
    exact least_join (xs := xs) (by simp [or_comm]) (by simp [or_comm]) h

example : SameFuture (GlobalMinimum : Operator (XR ℚ)) numbers [5, 1] [1, 5, 3] :=
  (C105_global_min (by simp) (by simp)).2 ⟨1, ⟨by simp, by simp⟩, ⟨by simp, by simp⟩⟩

/-- **C105 LocalMinimum**: the last `k` samples have the same minimum, for each `k` below the period. -/
theorem C105_local_min {p : Nat} (hp : 0 < p) {a b : List K} (ha : a ≠ []) (hb : b ≠ []) :
    SameFuture (LocalMinimum (p : Int) : Operator (XR K)) numbers a b ↔ ∀ k, 0 < k → k < p → ∃ m, IsLeastOf m (a.reverse.take k) ∧ IsLeastOf m (b.reverse.take k) := by
  rw [show (numbers : List K → Val (XR K)) = finSeries from rfl, (localMin_reals hp).sameFuture_iff (fun _ _ => finSeries_inj) ha hb]
  constructor
  · intro h k hk hkp
    have na : window k a ≠ [] := window_ne_nil hk ha
    have nb : window k b ≠ [] := window_ne_nil hk hb
    have := h (List.replicate (p - k) (max (leastK (window k a)) (leastK (window k b)))) (by simp; omega)
    have hm : ∀ (l : List K) (x y : K), y ∈ List.replicate (p - k) x ++ l ↔ y = x ∨ y ∈ l := by
      intro l x y
      rw [List.mem_append, List.mem_replicate, and_iff_right (by omega : p - k ≠ 0)]
    rw [window_append _ _ (by simp), window_append _ _ (by simp), List.length_replicate, show p - (p - k) = k by omega, List.reverse_replicate,
      least_above na (le_max_left _ _) (hm (window k a) (max (leastK (window k a)) (leastK (window k b)))),
      least_above nb (le_max_right _ _) (hm (window k b) (max (leastK (window k a)) (leastK (window k b))))] at this
    exact ⟨_, leastK_least na, this ▸ leastK_least nb⟩
  · intro h xs hx
    have hl := List.length_pos_iff.2 hx
    by_cases hxs : p ≤ xs.length
    · rw [window_append_long _ _ hxs, window_append_long _ _ hxs]
    · rw [window_append _ _ (by omega), window_append _ _ (by omega)]
      exact least_join (xs := xs) (by simp [window]) (by simp [window]) (h (p - xs.length) (by omega) (by omega))

example : SameFuture (LocalMinimum 3 : Operator (XR ℚ)) numbers [0, 7, 4] [6, 4] :=
  (C105_local_min (p := 3) (by decide) (by simp) (by simp)).2 fun k h1 h2 => by
    rcases (by omega : k = 1 ∨ k = 2) with rfl | rfl <;> exact ⟨4, by norm_num [IsLeastOf], by norm_num [IsLeastOf]⟩


omit [LinearOrder K] [IsStrictOrderedRing K] [Transc K] [FloorRing K] in
theorem rec_short {p : Nat} (f : K → K → K) {l : List K} (h : l.length < p) : recursiveAvgK p f l = 0 := by
  rw [rec_full f h.le, movingAvgK, if_pos h]

omit [LinearOrder K] [IsStrictOrderedRing K] [Transc K] [FloorRing K] in
theorem rec_at {p : Nat} (f : K → K → K) {l : List K} (h : l.length = p) : recursiveAvgK p f l = l.sum / p := by
  rw [rec_full f h.le, movingAvgK, if_neg (by omega), avg, window_length, h, min_self, window, List.take_of_length_le (by simp; omega), List.sum_reverse]

theorem rec_same {p : Nat} (f : K → K → K) {a b : List K} (ha : p ≤ a.length) (hb : p ≤ b.length) (h : recursiveAvgK p f a = recursiveAvgK p f b) (xs : List K) :
    recursiveAvgK p f (a ++ xs) = recursiveAvgK p f (b ++ xs) := by
  rw [recursiveAvgK_append ha, recursiveAvgK_append hb, h]

theorem rec_same_short {p : Nat} (f : K → K → K) {a b : List K} (hl : a.length = b.length) (ha : a.length < p) (h : a.sum = b.sum) (xs : List K) :
    recursiveAvgK p f (a ++ xs) = recursiveAvgK p f (b ++ xs) := by
  by_cases hx : (a ++ xs).length < p
  · rw [rec_short f hx, rec_short f (by simp at hx ⊢; omega)]
  · simp at hx
    rw [← List.take_append_drop (p - a.length) xs, ← List.append_assoc, ← List.append_assoc]
    have la : (a ++ xs.take (p - a.length)).length = p := by simp; omega
    have lb : (b ++ xs.take (p - a.length)).length = p := by simp; omega
    refine rec_same f la.ge lb.ge ?_ _
    rw [rec_at f la, rec_at f lb, List.sum_append, List.sum_append, h]

omit [Transc K] [FloorRing K] in
/-- while fewer than `p` samples came, the future tells their number -/
theorem rec_number {p : Nat} {f : K → K → K} {a b : List K} (hb : b.length < p) (h : ∀ xs, xs ≠ [] → recursiveAvgK p f (a ++ xs) = recursiveAvgK p f (b ++ xs)) : b.length ≤ a.length := by
  by_contra hc
  have hp' : (p : K) ≠ 0 := by exact_mod_cast (by omega : p ≠ 0)
  have := h ((1 - b.sum) :: List.replicate (p - b.length - 1) 0) (by simp)
  rw [rec_short f (by simp; omega), rec_at f (by simp; omega)] at this
  simp at this
  exact hp' this.symm

theorem last_output {op : Operator (XR K)} {y : List K → K} (h : StreamsAs op finSeries finSeries y) {a : List K} (ha : a ≠ []) (o : K) : (∃ os, Outputs op (numbers a) (os ++ [o])) ↔ o = y a := by
  obtain ⟨st, h, -⟩ := h
  obtain ⟨k, x, rfl⟩ : ∃ k x, a = k ++ [x] := ⟨_, _, (List.dropLast_append_getLast ha).symm⟩
  have e : scan y [] (k ++ [x]) = scan y [] k ++ [y (k ++ [x])] := by rw [scan_snoc]
  have h := h _ ha
  rw [e] at h
  constructor
  · rintro ⟨os, sf, s0, h1⟩
    rw [show numbers (k ++ [x]) = finSeries (k ++ [x]) from rfl, h] at h1
    have e1 := finSeries_inj (Prod.mk.inj (Except.ok.inj h1)).1
    have := congrArg (·.getLast?) e1
    simpa using this.symm
  · rintro rfl
    exact ⟨_, _, _, h⟩

theorem same_last {op : Operator (XR K)} {y : List K → K} (h : StreamsAs op finSeries finSeries y) {a b : List K} (ha : a ≠ []) (hb : b ≠ []) :
    (∃ os os' o, Outputs op (numbers a) (os ++ [o]) ∧ Outputs op (numbers b) (os' ++ [o])) ↔ y a = y b := by
  constructor
  · rintro ⟨os, os', o, h1, h2⟩
    rw [← (last_output h ha o).1 ⟨os, h1⟩, ← (last_output h hb o).1 ⟨os', h2⟩]
  · intro e
    obtain ⟨os, h1⟩ := (last_output h ha _).2 rfl
    obtain ⟨os', h2⟩ := (last_output h hb _).2 rfl
    exact ⟨os, os', _, h1, e ▸ h2⟩

omit [Transc K] [FloorRing K] in
/-- a long and a short history -/
theorem rec_mixed {p : Nat} {w : K} (hw : 0 < w) {a b : List K} (ha : p ≤ a.length) (hb : b.length < p)
    (h : ∀ xs, xs ≠ [] → recursiveAvgK p (fun m x => m + w * (x - m)) (a ++ xs) = recursiveAvgK p (fun m x => m + w * (x - m)) (b ++ xs)) :
    b.length + 1 = p ∧ w = 1 / p ∧ b.sum = (p - 1) * recursiveAvgK p (fun m x => m + w * (x - m)) a := by
  have hp' : (p : K) ≠ 0 := by exact_mod_cast (by omega : p ≠ 0)
  have key : ∀ x, recursiveAvgK p (fun m x => m + w * (x - m)) a + w * (x - recursiveAvgK p (fun m x => m + w * (x - m)) a) = recursiveAvgK p (fun m x => m + w * (x - m)) (b ++ [x]) := by
    intro x
    rw [← h [x] (by simp), rec_snoc _ ha]
  generalize recursiveAvgK p (fun m x => m + w * (x - m)) a = r at key ⊢
  have hl : b.length + 1 = p := by
    by_contra hc
    have := key (r + (1 - r) / w)
    rw [rec_short _ (by simp; omega)] at this
    have e : w * (r + (1 - r) / w - r) = 1 - r := by field_simp; ring
    rw [e] at this
    linarith
  have h0 := key 0
  have h1 := key 1
  rw [rec_at _ (by simpa using hl), List.sum_append, List.sum_singleton] at h0 h1
  have hw1 : w = 1 / p := by
    have : (b.sum + 1) / p - (b.sum + 0) / p = 1 / (p : K) := by field_simp; ring
    linarith
  refine ⟨hl, hw1, ?_⟩
  rw [hw1] at h0
  field_simp at h0
  linarith

theorem rec_future {p : Nat} (hp : 0 < p) {w : K} (hw : 0 < w) (h1 : p = 1 → w = 1) (h2 : p ≠ 1 → w < 1) {a b : List K} (ha : a ≠ []) (hb : b ≠ []) :
    (∀ xs, xs ≠ [] → recursiveAvgK p (fun m x => m + w * (x - m)) (a ++ xs) = recursiveAvgK p (fun m x => m + w * (x - m)) (b ++ xs)) ↔ p = 1 ∨
      (p ≤ a.length ∧ p ≤ b.length ∧ recursiveAvgK p (fun m x => m + w * (x - m)) a = recursiveAvgK p (fun m x => m + w * (x - m)) b) ∨
      (a.length < p ∧ a.length = b.length ∧ a.sum = b.sum) ∨
      (w = 1 / p ∧ p ≤ a.length ∧ b.length + 1 = p ∧ b.sum = (p - 1) * recursiveAvgK p (fun m x => m + w * (x - m)) a) ∨
      (w = 1 / p ∧ p ≤ b.length ∧ a.length + 1 = p ∧ a.sum = (p - 1) * recursiveAvgK p (fun m x => m + w * (x - m)) b) := by
  have hp' : (p : K) ≠ 0 := by exact_mod_cast hp.ne'
  have mixed : ∀ {a b : List K}, w = 1 / p → p ≤ a.length → b.length + 1 = p → b.sum = (p - 1) * recursiveAvgK p (fun m x => m + w * (x - m)) a →
      ∀ xs, xs ≠ [] → recursiveAvgK p (fun m x => m + w * (x - m)) (a ++ xs) = recursiveAvgK p (fun m x => m + w * (x - m)) (b ++ xs) := by
    intro a b hw1 hla hlb hs xs hx
    obtain ⟨x, xs, rfl⟩ := List.exists_cons_of_ne_nil hx
    rw [List.append_cons a, List.append_cons b]
    refine rec_same _ (by simp; omega) (by simp; omega) ?_ _
    rw [rec_snoc _ hla, rec_at _ (l := b ++ [x]) (by simpa using hlb), List.sum_append, List.sum_singleton, hs]
    generalize recursiveAvgK p (fun m x => m + w * (x - m)) a = r
    rw [hw1]
    field_simp
    ring
  constructor
  · intro h
    by_cases hp1 : p = 1
    · exact .inl hp1
    right
    by_cases hla : p ≤ a.length <;> by_cases hlb : p ≤ b.length
    · left
      refine ⟨hla, hlb, ?_⟩
      have := h [0] (by simp)
      rw [rec_snoc _ hla, rec_snoc _ hlb] at this
      generalize recursiveAvgK p (fun m x => m + w * (x - m)) a = r at this ⊢
      generalize recursiveAvgK p (fun m x => m + w * (x - m)) b = s at this ⊢
      have e : (1 - w) * (r - s) = 0 := by linarith
      rcases mul_eq_zero.1 e with h3 | h3
      · have := h2 hp1; linarith
      · linarith
    · obtain ⟨e1, e2, e3⟩ := rec_mixed hw hla (by omega) h
      exact .inr (.inr (.inl ⟨e2, hla, e1, e3⟩))
    · obtain ⟨e1, e2, e3⟩ := rec_mixed hw hlb (by omega) fun xs hx => (h xs hx).symm
      exact .inr (.inr (.inr ⟨e2, hlb, e1, e3⟩))
    · have hl : a.length = b.length := le_antisymm (rec_number (by omega) fun xs hx => (h xs hx).symm) (rec_number (by omega) h)
      have := h (List.replicate (p - a.length) 0) (by simp; omega)
      rw [rec_at _ (by simp; omega), rec_at _ (by simp; omega), div_left_inj' hp'] at this
      exact .inr (.inl ⟨by omega, hl, by simpa using this⟩)
  · rintro (rfl | ⟨e1, e2, e3⟩ | ⟨e1, e2, e3⟩ | ⟨e1, e2, e3, e4⟩ | ⟨e1, e2, e3, e4⟩) xs hx
    · obtain ⟨k, x, rfl⟩ : ∃ k x, xs = k ++ [x] := ⟨_, _, (List.dropLast_append_getLast hx).symm⟩
      have := List.length_pos_iff.2 ha
      have := List.length_pos_iff.2 hb
      rw [← List.append_assoc, ← List.append_assoc, rec_snoc _ (by rw [List.length_append]; omega), rec_snoc _ (by rw [List.length_append]; omega), h1 rfl]
      ring
    · exact rec_same _ e1 e2 e3 xs
    · exact rec_same_short _ e2 e1 e3 xs
    · exact mixed e1 e2 e3 e4 xs hx
    · exact (mixed e1 e2 e3 e4 xs hx).symm

/-- **C105 ExponentialMovingAverage**: the period is 1; or both histories are as long as the period at least and their last outputs agree; or they are
shorter, equally long, and add up to the same. -/
theorem C105_ema {p : Nat} (hp : 0 < p) {a b : List K} (ha : a ≠ []) (hb : b ≠ []) :
    SameFuture (EMA (p : Int) : Operator (XR K)) numbers a b ↔ p = 1 ∨
      (p ≤ a.length ∧ p ≤ b.length ∧ ∃ os os' o, Outputs (EMA (p : Int)) (numbers a) (os ++ [o]) ∧ Outputs (EMA (p : Int)) (numbers b) (os' ++ [o])) ∨
      (a.length < p ∧ a.length = b.length ∧ a.sum = b.sum) := by
  have hp' : (0 : K) < p := by exact_mod_cast hp
  rw [same_last (ema_reals hp) ha hb]
  rw [show (numbers : List K → Val (XR K)) = finSeries from rfl, (ema_reals hp).sameFuture_iff (fun _ _ => finSeries_inj) ha hb,
    rec_future hp (by positivity) (fun h => by subst h; norm_num) (fun h => ?_) ha hb]
  · have hw : (2 : K) / (p + 1) = 1 / p ↔ p = 1 := by
      rw [div_eq_div_iff (by positivity) hp'.ne']
      constructor
      · intro h
        have : (p : K) = 1 := by linarith
        exact_mod_cast this
      · rintro rfl; norm_num
    rw [hw]
    tauto
  · rw [div_lt_one (by positivity)]
    have : (1 : K) < p := by exact_mod_cast (by omega : 1 < p)
    linarith

example : SameFuture (EMA 3 : Operator (XR ℚ)) numbers [1, 4] [2, 3] ∧ ¬ SameFuture (EMA 3 : Operator (XR ℚ)) numbers [1, 4] [2, 2] :=
  ⟨(C105_ema (p := 3) (by decide) (by simp) (by simp)).2 (.inr (.inr (by norm_num))), fun h => by
    rcases (C105_ema (p := 3) (by decide) (by simp) (by simp)).1 h with h | h | h
    · simp at h
    · simp at h
    · norm_num at h⟩

/-- **C105 RollingMovingAverage**: as for the exponential one, but a history of `p - 1` samples is also like a longer one whose last output, times
`p - 1`, is their sum. -/
theorem C105_rma {p : Nat} (hp : 0 < p) {a b : List K} (ha : a ≠ []) (hb : b ≠ []) :
    SameFuture (RMA (p : Int) : Operator (XR K)) numbers a b ↔ p = 1 ∨
      (p ≤ a.length ∧ p ≤ b.length ∧ ∃ os os' o, Outputs (RMA (p : Int)) (numbers a) (os ++ [o]) ∧ Outputs (RMA (p : Int)) (numbers b) (os' ++ [o])) ∨
      (a.length < p ∧ a.length = b.length ∧ a.sum = b.sum) ∨
      (p ≤ a.length ∧ b.length + 1 = p ∧ ∃ os o, Outputs (RMA (p : Int)) (numbers a) (os ++ [o]) ∧ b.sum = (p - 1) * o) ∨
      (p ≤ b.length ∧ a.length + 1 = p ∧ ∃ os o, Outputs (RMA (p : Int)) (numbers b) (os ++ [o]) ∧ a.sum = (p - 1) * o) := by
  have hp' : (0 : K) < p := by exact_mod_cast hp
  have hone : ∀ {a : List K} (ha : a ≠ []) (s : K), (∃ os o, Outputs (RMA (p : Int)) (numbers a) (os ++ [o]) ∧ s = (p - 1) * o) ↔ s = (p - 1) * recursiveAvgK p (fun m x => m + 1 / (p : K) * (x - m)) a := by
    intro a ha s
    constructor
    · rintro ⟨os, o, h1, h2⟩
      rw [h2, (last_output (rma_reals hp) ha o).1 ⟨os, h1⟩]
    · intro h
      obtain ⟨os, h1⟩ := (last_output (rma_reals hp) ha _).2 rfl
      exact ⟨os, _, h1, h⟩
  rw [same_last (rma_reals hp) ha hb, hone ha, hone hb]
  rw [show (numbers : List K → Val (XR K)) = finSeries from rfl, (rma_reals hp).sameFuture_iff (fun _ _ => finSeries_inj) ha hb,
    rec_future hp (by positivity) (fun h => by subst h; norm_num) (fun h => ?_) ha hb]
  · simp only [true_and]
  · rw [div_lt_one hp']
    exact_mod_cast (by omega : 1 < p)

example : SameFuture (RMA 3 : Operator (XR ℚ)) numbers [1, 5] [3, 3, 3] := by
  refine (C105_rma (p := 3) (by decide) (by simp) (by simp)).2 (.inr (.inr (.inr (.inr ⟨by simp, by simp, [0, 0], 3, ?_, by norm_num⟩))))
  obtain ⟨st, h, -⟩ := rma_reals (K := ℚ) (p := 3) (by decide)
  have h1 := h [3, 3, 3] (by simp)
  rw [show scan (recursiveAvgK 3 fun m x => m + 1 / ((3 : ℕ) : ℚ) * (x - m)) [] [3, 3, 3] = [0, 0] ++ [3] by decide +kernel] at h1
  exact ⟨_, _, h1⟩

omit [IsStrictOrderedRing K] [Transc K] [FloorRing K] in
theorem peakK_append (a : List K) {b : List K} (h : peakK a = peakK b) (xs : List K) : peakK (a ++ xs) = peakK (b ++ xs) := by
  rw [peakK, List.foldl_append, peakK, List.foldl_append]
  exact congrArg (fun m => xs.foldl _ m) h

omit [IsStrictOrderedRing K] [Transc K] [FloorRing K] in
theorem daysK_append {a b : List K} (h : peakK a = peakK b) (hd : daysK a.reverse = daysK b.reverse) (xs : List K) : daysK (a ++ xs).reverse = daysK (b ++ xs).reverse := by
  induction xs using List.reverseRecOn with
  | nil => simpa using hd
  | append_singleton xs x ih =>
    rw [← List.append_assoc, ← List.append_assoc, List.reverse_append (as := a ++ xs), List.reverse_append (as := b ++ xs)]
    change daysK (x :: (a ++ xs).reverse) = daysK (x :: (b ++ xs).reverse)
    rw [daysK, daysK, ih, List.reverse_reverse, List.reverse_reverse, peakK_append a h]

omit [Transc K] in
theorem peak_told {a b : List K} (h : ∀ xs, xs ≠ [] → ddK (a ++ xs) = ddK (b ++ xs)) : peakK b ≤ peakK a := by
  by_contra hc
  push Not at hc
  have h1 := congrArg Prod.snd (h [peakK a + 1 / 10000 + (peakK b - peakK a) / 2] (by simp))
  simp only [ddK, List.reverse_append, List.reverse_cons, List.reverse_nil, List.nil_append, List.cons_append, daysK, List.reverse_reverse] at h1
  have p4 : (0 : K) < 1 / 10000 := by positivity
  have hd : (0 : K) < (peakK b - peakK a) / 2 := by linarith
  rw [max_eq_left (a := peakK a + 1 / 10000 + (peakK b - peakK a) / 2) (b := peakK a) (by linarith), if_pos, if_neg] at h1
  · have := daysK_nonneg b.reverse; omega
  · rw [not_lt, abs_of_nonneg (by linarith [le_max_right (peakK a + 1 / 10000 + (peakK b - peakK a) / 2) (peakK b)]), sub_le_iff_le_add, max_le_iff]
    constructor <;> linarith
  · rw [abs_of_nonneg (by linarith)]; linarith

/-- **C105 Drawdown**: the same peak (of zero and the samples), and the same number of steps since it rose. -/
theorem C105_drawdown {a b : List K} (ha : a ≠ []) (hb : b ≠ []) : SameFuture (Drawdown : Operator (XR K)) numbers a b ↔
    (∃ m, IsGreatestOf m (0 :: a) ∧ IsGreatestOf m (0 :: b)) ∧
    ∃ d d' os os' n sf s0 sf' s0', call (Drawdown : Operator (XR K)) (numbers a) none = .ok (.tup [numbers d, vIBuf (os ++ [n])], sf, s0) ∧ call (Drawdown : Operator (XR K)) (numbers b) none = .ok (.tup [numbers d', vIBuf (os' ++ [n])], sf', s0') := by
  have hs := dd_reals (K := K)
  rw [show (fun l : List (K × Int) => numInts (l.map (Prod.map XR.fin id))) = finInts from funext numInts_fin] at hs
  have hinj : ∀ l m : List (K × Int), (finInts l : Val (XR K)) = finInts m → l = m := by
    intro l m h
    injection h with _ h
    injection h with h1 h
    injection h with h2 _
    have e1 := finSeries_inj h1
    have e2 := vIBuf_inj h2
    exact List.ext_getElem? fun k => by
      have a := congrArg (·[k]?) e1
      have b := congrArg (·[k]?) e2
      simp only [List.getElem?_map] at a b
      cases hl : l[k]? <;> cases hm : m[k]? <;> simp_all [Prod.ext_iff]
  have hpk : (∃ m, IsGreatestOf m (0 :: a) ∧ IsGreatestOf m (0 :: b)) ↔ peakK a = peakK b := by
    have g : ∀ l : List K, IsGreatestOf (peakK l) (0 :: l) := fun l => ⟨by simpa using (peakK_greatest l).1, fun x hx => (peakK_greatest l).2 (by simpa using hx)⟩
    constructor
    · rintro ⟨m, h1, h2⟩
      rw [le_antisymm (h1.2 _ (g a).1) ((g a).2 _ h1.1), le_antisymm (h2.2 _ (g b).1) ((g b).2 _ h2.1)]
    · intro h; exact ⟨_, g a, h ▸ g b⟩
  have hday : (∃ d d' os os' n sf s0 sf' s0', call (Drawdown : Operator (XR K)) (numbers a) none = .ok (.tup [numbers d, vIBuf (os ++ [n])], sf, s0) ∧ call (Drawdown : Operator (XR K)) (numbers b) none = .ok (.tup [numbers d', vIBuf (os' ++ [n])], sf', s0')) ↔
      daysK a.reverse = daysK b.reverse := by
    obtain ⟨st, h, -⟩ := hs
    have one : ∀ {a : List K}, a ≠ [] → ∃ d os, call (Drawdown : Operator (XR K)) (numbers a) none = .ok (.tup [numbers d, vIBuf (os ++ [daysK a.reverse])], st a, st []) := by
      intro a ha
      obtain ⟨k, x, rfl⟩ : ∃ k x, a = k ++ [x] := ⟨_, _, (List.dropLast_append_getLast ha).symm⟩
      have h := h _ ha
      rw [scan_snoc, finInts, List.map_append, List.map_append] at h
      exact ⟨_, _, h⟩
    obtain ⟨d1, o1, c1⟩ := one ha
    obtain ⟨d2, o2, c2⟩ := one hb
    constructor
    · rintro ⟨d, d', os, os', n, sf, s0, sf', s0', e1, e2⟩
      rw [c1] at e1
      rw [c2] at e2
      have i1 := (Prod.mk.inj (Except.ok.inj e1)).1
      have i2 := (Prod.mk.inj (Except.ok.inj e2)).1
      injection i1 with _ i1
      injection i1 with _ i1
      injection i1 with i1 _
      injection i2 with _ i2
      injection i2 with _ i2
      injection i2 with i2 _
      have j1 := congrArg (·.getLast?) (vIBuf_inj i1)
      have j2 := congrArg (·.getLast?) (vIBuf_inj i2)
      simp at j1 j2
      rw [j1, j2]
    · intro e
      rw [← e] at c2
      exact ⟨_, _, _, _, _, _, _, _, _, c1, c2⟩
  rw [hpk, hday, show (numbers : List K → Val (XR K)) = finSeries from rfl, hs.sameFuture_iff hinj ha hb]
  constructor
  · intro h
    have hp := le_antisymm (peak_told fun xs hx => (h xs hx).symm) (peak_told h)
    refine ⟨hp, ?_⟩
    have h1 := congrArg Prod.snd (h [0] (by simp))
    simp only [ddK, List.reverse_append, List.reverse_cons, List.reverse_nil, List.nil_append, List.cons_append, daysK, List.reverse_reverse, max_eq_right (peakK_nonneg _)] at h1
    have h4 : ¬ (1 / 10000 : K) < |0| := by rw [abs_zero]; exact not_lt.2 (by positivity)
    rw [sub_self, sub_self, if_neg h4, if_neg h4] at h1
    omega
  · rintro ⟨hp, hd⟩ xs hx
    obtain ⟨k, x, rfl⟩ : ∃ k x, xs = k ++ [x] := ⟨_, _, (List.dropLast_append_getLast hx).symm⟩
    rw [ddK, ddK, daysK_append hp hd, ← List.append_assoc, ← List.append_assoc, List.dropLast_concat, List.dropLast_concat, peakK_append a hp]
    simp

example : SameFuture (Drawdown : Operator (XR ℚ)) numbers [2, 1] [1, 2, 0] := by
  refine (C105_drawdown (by simp) (by simp)).2 ⟨⟨2, ⟨by simp, by simp⟩, ⟨by simp, by simp⟩⟩, ?_⟩
  obtain ⟨st, h, -⟩ := dd_reals (K := ℚ)
  have h1 := h [2, 1] (by simp)
  have h2 := h [1, 2, 0] (by simp)
  rw [show scan ddK [] [(2 : ℚ), 1] = [(0, 0)] ++ [(-1 / 2, 1)] by decide +kernel] at h1
  rw [show scan ddK [] [(1 : ℚ), 2, 0] = [(0, 0), (0, 0)] ++ [(-1, 1)] by decide +kernel] at h2
  exact ⟨[0, -1 / 2], [0, 0, -1], [0], [0, 0], 1, _, _, _, _, h1, h2⟩

omit [Field K] [LinearOrder K] [IsStrictOrderedRing K] [Transc K] [FloorRing K] in
theorem finCandles4_inj {l m : List (OHLC K)} (h : (finCandles4 l : Val (XR K)) = finCandles4 m) : l = m := by
  simp only [finCandles4, candles4] at h
  injection h with _ h
  injection h with h1 h
  injection h with h2 h
  injection h with h3 h
  injection h with h4 _
  have h1 := vSBuf_inj h1
  have h2 := vSBuf_inj h2
  have h3 := vSBuf_inj h3
  have h4 := vSBuf_inj h4
  exact List.ext_getElem? fun k => by
    have a := congrArg (·[k]?) h1
    have b := congrArg (·[k]?) h2
    have c := congrArg (·[k]?) h3
    have d := congrArg (·[k]?) h4
    simp only [List.getElem?_map] at a b c d
    cases hl : l[k]? with
    | none => cases hm : m[k]? <;> simp_all
    | some u =>
      cases hm : m[k]? with
      | none => simp_all
      | some v =>
        rw [hl, hm] at a b c d
        simp [OHLC.map] at a b c d
        obtain ⟨u1, u2, u3, u4⟩ := u
        obtain ⟨v1, v2, v3, v4⟩ := v
        simp_all

/-- **C105 HeikinAshi**: the last candles both open at zero, or both do not and have the same sum of open and close. -/
theorem C105_heikin_ashi {a b : List (OHLC K)} (x y : OHLC K) : SameFuture (HeikinAshi : Operator (XR K)) finCandles4 (a ++ [x]) (b ++ [y]) ↔
    (x.opn = 0 ∧ y.opn = 0) ∨ (x.opn ≠ 0 ∧ y.opn ≠ 0 ∧ x.opn + x.close = y.opn + y.close) := by
  rw [ha_reals.sameFuture_iff (fun _ _ => finCandles4_inj) (by simp) (by simp)]
  constructor
  · intro h
    have key : ∀ z : OHLC K, haK x z = haK y z := fun z => by simpa using h [z] (by simp)
    by_cases hx : x.opn = 0 <;> by_cases hy : y.opn = 0
    · exact .inl ⟨hx, hy⟩
    · have := congrArg OHLC.opn (key ⟨(y.opn + y.close) / 2 + 1, 0, 0, 0⟩)
      simp [haK, hx, hy] at this
    · have := congrArg OHLC.opn (key ⟨(x.opn + x.close) / 2 + 1, 0, 0, 0⟩)
      simp [haK, hx, hy] at this
    · have := congrArg OHLC.opn (key ⟨0, 0, 0, 0⟩)
      simp only [haK, if_neg hx, if_neg hy] at this
      exact .inr ⟨hx, hy, by linarith⟩
  · intro h xs hx
    obtain ⟨k, z, rfl⟩ : ∃ k z, xs = k ++ [z] := ⟨_, _, (List.dropLast_append_getLast hx).symm⟩
    rcases List.eq_nil_or_concat k with rfl | ⟨k, w, rfl⟩
    · have : haK x z = haK y z := by
        rcases h with ⟨h1, h2⟩ | ⟨h1, h2, h3⟩
        · rw [haK, haK, if_pos h1, if_pos h2]
        · simp only [haK, if_neg h1, if_neg h2, h3]
      simpa using this
    · simp [← List.append_assoc]

example : SameFuture (HeikinAshi : Operator (XR ℚ)) finCandles4 ([] ++ [⟨1, 9, 1, 5⟩]) ([⟨1, 1, 1, 1⟩] ++ [⟨2, 7, 2, 4⟩]) :=
  (C105_heikin_ashi _ _).2 (.inr (by norm_num))
end
end TS
