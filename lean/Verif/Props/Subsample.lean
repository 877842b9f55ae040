import Verif.Props.Reverse
/-
C101: every k-th sample.
-/
namespace TS
open XR

section
variable {α : Type} {A B : Type}

theorem Every.lt {k j : Nat} {xs ys : List A} (h : Every k j xs ys) {i : Nat} (hi : i < ys.length) : k * i + j < xs.length := by
  have := h i
  rw [List.getElem?_eq_getElem hi] at this
  exact (List.getElem?_eq_some_iff.1 this.symm).1

theorem Every.get {k j : Nat} {xs ys : List A} (h : Every k j xs ys) {i : Nat} (hi : i < ys.length) : ys[i] = xs[k * i + j]'(h.lt hi) := by
  have := h i
  rw [List.getElem?_eq_getElem hi, List.getElem?_eq_getElem (h.lt hi)] at this
  exact Option.some.inj this

theorem StreamsAs.subsamples {op op' : Operator α} {ser : List A → Val α} {outs : List B → Val α} {y y' : List A → B} (h : StreamsAs op ser outs y) (h' : StreamsAs op' ser outs y') {k j : Nat} {ok : A → Prop} {rel : B → B → Prop}
    (key : ∀ xs ys : List A, Every k j xs ys → (∀ x ∈ xs, ok x) → ∀ i, i < ys.length → rel (y (xs.take (k * i + j + 1))) (y' (ys.take (i + 1)))) : Subsamples op op' ser outs k j ok rel := fun xs ys hy he hok => by
  obtain ⟨st, h, -⟩ := h
  obtain ⟨st', h', -⟩ := h'
  have hx : xs ≠ [] := by
    rw [← List.length_pos_iff] at hy ⊢
    exact lt_of_le_of_lt (Nat.zero_le _) (he.lt hy)
  refine ⟨_, _, _, _, _, _, h xs hx, h' ys hy, by simp, by simp, fun i hi => ?_⟩
  have hi' : i < ys.length := by simpa using hi
  refine ⟨by simpa using he.lt hi', ?_⟩
  rw [scan_getElem, scan_getElem, List.nil_append, List.nil_append]
  exact key xs ys he hok i hi'

theorem Every.lagged {k j p : Nat} {z : A} {xs ys : List A} (h : Every k j xs ys) (hj : j < k) {i : Nat} (hi : i < ys.length) : lagged z (k * p) (xs.take (k * i + j + 1)) = lagged z p (ys.take (i + 1)) := by
  rw [lagged_take (h.lt hi), lagged_take hi]
  by_cases hp : p ≤ i
  · rw [dif_pos hp, dif_pos ((hold_lag hj).2 hp), h.get (by omega)]
    congr 1
    have : k * p ≤ k * i := Nat.mul_le_mul_left _ hp
    rw [Nat.mul_sub]
    omega
  · rw [dif_neg hp, dif_neg (mt (hold_lag hj).1 hp)]

theorem Every.last {k j : Nat} {z : A} {xs ys : List A} (h : Every k j xs ys) {i : Nat} (hi : i < ys.length) : (xs.take (k * i + j + 1)).getLastD z = (ys.take (i + 1)).getLastD z := by
  rw [getLastD_take (h.lt hi), getLastD_take hi, h.get hi]

theorem Every.length {k j p : Nat} {xs ys : List A} (h : Every k j xs ys) (hj : j < k) {i : Nat} (hi : i < ys.length) : (xs.take (k * i + j + 1)).length ≤ k * p ↔ (ys.take (i + 1)).length ≤ p := by
  have := h.lt hi
  have := hold_lag (g := i) (p := p) hj
  simp only [List.length_take]
  omega
end

section
variable {α : Type} [TFNum α]

/-- **C101 Lag** -/
theorem C101_lag {p k j : Nat} (hp : 0 < p) (hj : j < k) (s : List Nat) : Subsamples (Lag ((k * p : Nat) : Int) : Operator α) (Lag (p : Int)) (vBuf (s := s)) (vBuf (s := s)) k j (fun _ => True) Eq :=
  (C17_lag_streams (Nat.mul_pos (by omega) hp) s).subsamples (C17_lag_streams hp s) fun _ _ h _ _ hi => h.lagged hj hi
example := C101_lag (α := XR ℚ) (p := 2) (k := 2) (j := 1) (by norm_num) (by norm_num) [] [fun _ => .fin 1, fun _ => .nan, fun _ => .fin 2] [fun _ => .nan] (by simp) (by intro i; rcases i with _ | _ | i <;> simp [Nat.mul_add]) (by simp)

/-- **C101 Momentum** -/
theorem C101_momentum {p k j : Nat} (hp : 0 < p) (hj : j < k) (s : List Nat) : Subsamples (Momentum ((k * p : Nat) : Int) : Operator α) (Momentum (p : Int)) (vBuf (s := s)) (vBuf (s := s)) k j (fun _ => True) Eq :=
  (C19_momentum_streams (Nat.mul_pos (by omega) hp) s).subsamples (C19_momentum_streams hp s) fun _ _ h _ _ hi => by
    simp only [momentum, h.lagged hj hi, h.last hi, h.length hj hi]
example := C101_momentum (α := XR ℚ) (p := 2) (k := 2) (j := 1) (by norm_num) (by norm_num) [] [fun _ => .fin 1, fun _ => .nan, fun _ => .fin 2] [fun _ => .nan] (by simp) (by intro i; rcases i with _ | _ | i <;> simp [Nat.mul_add]) (by simp)

/-- **C101 Return**, every arithmetic in which zero equals zero. -/
theorem C101_return (hz : TFNum.eq (Arith.zero : α) (Arith.ofRat 0) = true) {p k j : Nat} (hp : 0 < p) (hj : j < k) : Subsamples (Return ((k * p : Nat) : Int) : Operator α) (Return (p : Int)) vSBuf vSBuf k j (fun _ => True) Eq :=
  (C37_return_streams hz (Nat.mul_pos (by omega) hp)).subsamples (C37_return_streams hz hp) fun _ _ h _ _ hi => by
    simp only [growth, h.lagged hj hi, h.last hi, h.length hj hi]
example := C101_return (α := XR ℚ) (by simp) (p := 2) (k := 2) (j := 1) (by norm_num) (by norm_num) [.fin 1, .nan, .fin 2] [.nan] (by simp) (by intro i; rcases i with _ | _ | i <;> simp [Nat.mul_add]) (by simp)

/-- **C101 LogarithmicReturn**, every arithmetic in which zero equals zero. -/
theorem C101_logReturn (hz : TFNum.eq (Arith.zero : α) (Arith.ofRat 0) = true) {p k j : Nat} (hp : 0 < p) (hj : j < k) : Subsamples (LogReturn ((k * p : Nat) : Int) : Operator α) (LogReturn (p : Int)) vSBuf vSBuf k j (fun _ => True) Eq :=
  (C37_logReturn_streams hz (Nat.mul_pos (by omega) hp)).subsamples (C37_logReturn_streams hz hp) fun _ _ h _ _ hi => by
    simp only [growth, h.lagged hj hi, h.last hi, h.length hj hi]
example := C101_logReturn (α := XR ℚ) (by simp) (p := 2) (k := 2) (j := 1) (by norm_num) (by norm_num) [.fin 1, .nan, .fin 2] [.nan] (by simp) (by intro i; rcases i with _ | _ | i <;> simp [Nat.mul_add]) (by simp)
end

section
variable {K : Type} [Field K] [LinearOrder K] [IsStrictOrderedRing K] [Transc K] [FloorRing K] {A : Type}

theorem Every.mem {k j n : Nat} {xs ys : List A} (h : Every k j xs ys) {i : Nat} (hi : i < ys.length) {y : A} (hy : y ∈ window (n + 1) (ys.take (i + 1))) : y ∈ window (k * n + 1) (xs.take (k * i + j + 1)) := by
  rw [mem_window_take hi] at hy
  obtain ⟨m, hm, hn, rfl⟩ := hy
  rw [mem_window_take (h.lt hi)]
  have h1 : k * m ≤ k * i := Nat.mul_le_mul_left _ hm
  have h2 : k * i ≤ k * (m + n) := Nat.mul_le_mul_left _ (by omega)
  rw [Nat.mul_add] at h2
  exact ⟨k * m + j, by omega, by omega, (h.get (by omega)).symm⟩

theorem Every.mem_take {k j : Nat} {xs ys : List A} (h : Every k j xs ys) {i : Nat} (hi : i ≤ ys.length) (hk : 0 < k) {y : A} (hy : y ∈ ys.take i) : y ∈ xs.take (k * i + j) := by
  obtain ⟨m, hm, rfl⟩ := List.mem_iff_getElem.1 hy
  simp only [List.length_take] at hm
  rw [List.getElem_take, h.get (by omega)]
  have := h.lt (i := m) (by omega)
  have hl : k * m < k * i := Nat.mul_lt_mul_of_pos_left (by omega) hk
  exact List.mem_iff_getElem.2 ⟨k * m + j, by simp only [List.length_take]; omega, List.getElem_take⟩

/-- **C101 Local extrema** -/
theorem C101_local {p k j : Nat} : Subsamples (LocalMaximum ((k * p + 1 : Nat) : Int) : Operator (XR K)) (LocalMaximum ((p + 1 : Nat) : Int)) numbers numbers k j (fun _ => True) (fun a b => b ≤ a) ∧
    Subsamples (LocalMinimum ((k * p + 1 : Nat) : Int) : Operator (XR K)) (LocalMinimum ((p + 1 : Nat) : Int)) numbers numbers k j (fun _ => True) (fun a b => a ≤ b) :=
  ⟨(localMax_reals (Nat.succ_pos _)).subsamples (localMax_reals p.succ_pos) fun _ _ h _ _ hi =>
      (greatestK_greatest (window_ne_nil (Nat.succ_pos _) (take_ne_nil (h.lt hi)))).2 _ (h.mem hi (greatestK_greatest (window_ne_nil p.succ_pos (take_ne_nil hi))).1),
    (localMin_reals (Nat.succ_pos _)).subsamples (localMin_reals p.succ_pos) fun _ _ h _ _ hi =>
      (leastK_least (window_ne_nil (Nat.succ_pos _) (take_ne_nil (h.lt hi)))).2 _ (h.mem hi (leastK_least (window_ne_nil p.succ_pos (take_ne_nil hi))).1)⟩
example := (C101_local (K := ℚ) (p := 2) (k := 2) (j := 3)).1 [1, 5, 2, 4] [4] (by simp) (by intro i; rcases i with _ | _ | i <;> simp [Nat.mul_add]) (by simp)

/-- **C101 Global extrema** -/
theorem C101_global {k j : Nat} (hk : 0 < k) : Subsamples (GlobalMaximum : Operator (XR K)) GlobalMaximum numbers numbers k j (fun _ => True) (fun a b => b ≤ a) ∧
    Subsamples (GlobalMinimum : Operator (XR K)) GlobalMinimum numbers numbers k j (fun _ => True) (fun a b => a ≤ b) := by
  have e {xs ys : List K} (h : Every k j xs ys) {i : Nat} (hi : i < ys.length) {y : K} (hy : y ∈ ys.take (i + 1)) : y ∈ xs.take (k * i + j + 1) := by
    rw [List.take_succ_eq_append_getElem hi, List.mem_append, List.mem_singleton] at hy
    rw [List.take_succ_eq_append_getElem (h.lt hi), List.mem_append, List.mem_singleton]
    exact hy.imp (h.mem_take hi.le hk) fun e => e.trans (h.get hi)
  exact ⟨globalMax_reals.subsamples globalMax_reals fun _ _ h _ _ hi => (greatestK_greatest (take_ne_nil (h.lt hi))).2 _ (e h hi (greatestK_greatest (take_ne_nil hi)).1),
    globalMin_reals.subsamples globalMin_reals fun _ _ h _ _ hi => (leastK_least (take_ne_nil (h.lt hi))).2 _ (e h hi (leastK_least (take_ne_nil hi)).1)⟩
example := (C101_global (K := ℚ) (k := 2) (j := 3) (by norm_num)).1 [1, 5, 2, 4] [4] (by simp) (by intro i; rcases i with _ | _ | i <;> simp [Nat.mul_add]) (by simp)

omit [Transc K] in
theorem drawdownK_anti {a b x : K} (hx : 0 ≤ x) (ha : 0 ≤ a) (hab : a ≤ b) : drawdownK b x ≤ drawdownK a x := by
  have h0 : drawdownK b x ≤ 0 := by
    rw [drawdownK]; split
    · exact le_rfl
    · exact min_le_left _ _
  by_cases h : |a| < 1 / 10000
  · exact h0.trans (by rw [drawdownK, if_pos h])
  · have : (0 : K) < 1 / 10000 := by positivity
    rw [abs_of_nonneg ha] at h
    rw [drawdownK, drawdownK, abs_of_nonneg ha, abs_of_nonneg (ha.trans hab), if_neg h, if_neg (by push Not at h ⊢; exact h.trans hab)]
    have ha' : 0 < a := lt_of_lt_of_le this (not_lt.1 h)
    exact min_le_min_left _ (sub_le_sub_right (div_le_div_of_nonneg_left hx ha' hab) _)

/-- **C101 Drawdown** -/
theorem C101_drawdown {k j : Nat} (hk : 0 < k) : Subsamples (Drawdown : Operator (XR K)) Drawdown numbers finInts k j (fun x => 0 ≤ x) (fun a b => a.1 ≤ b.1) := by
  have H : StreamsAs (Drawdown : Operator (XR K)) numbers finInts ddK := by
    obtain ⟨st, h1, h2⟩ := dd_reals (K := K)
    exact ⟨st, fun xs hx => by rw [← numInts_fin]; exact h1 xs hx, fun h xs hx => by rw [← numInts_fin]; exact h2 h xs hx⟩
  refine H.subsamples H fun xs ys h hok i hi => ?_
  have d {l : List K} {n : Nat} (hn : n < l.length) : (l.take (n + 1)).dropLast = l.take n := by rw [List.take_succ_eq_append_getElem hn, List.dropLast_concat]
  simp only [ddK]
  rw [h.last hi, d (h.lt hi), d hi]
  refine drawdownK_anti ?_ (peakK_nonneg _) ?_
  · rw [← h.last hi, getLastD_take (h.lt hi)]
    exact hok _ (List.getElem_mem _)
  · rcases (peakK_greatest (ys.take i)).1 with e | e
    · rw [e]; exact peakK_nonneg _
    · exact (peakK_greatest _).2 (.inr (h.mem_take hi.le hk e))
example := C101_drawdown (K := ℚ) (k := 2) (j := 1) (by norm_num) [1, 5, 2, 4] [5, 4] (by simp) (by intro i; rcases i with _ | _ | i <;> simp [Nat.mul_add]) (by simp)
end

end TS
