import Verif.Spec.Recover
import Verif.Props.Trends
/-
C77: what the outputs tell about the samples.
-/
namespace TS
open PyVal XR
set_option linter.unusedSectionVars false

section
variable {α A B : Type} {op : Operator α} {ser : List A → Val α} {outs : List B → Val α} {y : List A → B} {V : A → Prop} {k : Nat}

theorem StreamsAs.outs_eq (h : StreamsAs op ser outs y) (ho : ∀ l m, outs l = outs m → l = m) {xs ys : List A} (hx : xs ≠ []) (hy : ys ≠ [])
    (e : output (call op (ser xs) none) = output (call op (ser ys) none)) : scan y [] xs = scan y [] ys := by
  obtain ⟨st, h1, -⟩ := h
  rw [h1 _ hx, h1 _ hy] at e
  exact ho _ _ (Except.ok.inj e)

theorem StreamsAs.determines (h : StreamsAs op ser outs y) (ho : ∀ l m, outs l = outs m → l = m)
    (e : ∀ l a b, k ≤ l.length → (∀ x ∈ l, V x) → V a → V b → y (l ++ [a]) = y (l ++ [b]) → a = b) : Determines op ser V k := by
  intro xs ys hx hy hVx hVy h0 ho'
  have hs := h.outs_eq ho hx hy ho'
  have hl : xs.length = ys.length := by simpa using congrArg List.length hs
  have key : ∀ n, xs.take n = ys.take n := by
    intro n
    induction n with
    | zero => rfl
    | succ n ih =>
      by_cases hn : n < xs.length
      · have hn' : n < ys.length := hl ▸ hn
        by_cases hk : n < k
        · have := congrArg (List.take (n + 1)) h0
          rwa [List.take_take, List.take_take, Nat.min_eq_left hk] at this
        · rw [List.take_succ_eq_append_getElem hn, List.take_succ_eq_append_getElem hn', ih]
          congr 2
          refine e (ys.take n) _ _ (by rw [List.length_take]; omega) (fun x hx => hVy x (List.mem_of_mem_take hx)) (hVx _ (List.getElem_mem _)) (hVy _ (List.getElem_mem _)) ?_
          have := congrArg (·[n]?) hs
          simp only [List.getElem?_eq_getElem (show n < (scan y [] xs).length by simpa using hn), List.getElem?_eq_getElem (show n < (scan y [] ys).length by simpa using hn'),
            scan_getElem, Option.some.injEq, List.nil_append, List.take_succ_eq_append_getElem hn, List.take_succ_eq_append_getElem hn', ih] at this
          exact this
      · rw [List.take_of_length_le (by omega), List.take_of_length_le (by omega)]
        have := ih
        rwa [List.take_of_length_le (by omega), List.take_of_length_le (by omega)] at this
  have := key xs.length
  rwa [List.take_length, hl, List.take_length] at this

/-- when the first outputs are the same for all samples, the first samples are needed -/
theorem StreamsAs.needs (h : StreamsAs op ser outs y) {m : Nat} (e : ∀ l l', l.length = l'.length → l.length ≤ m → y l = y l') {a b : A} (hab : a ≠ b) (ha : V a) (hb : V b)
    (hd : Determines op ser V k) : m ≤ k := by
  by_contra hk
  have hne : ∀ c, List.replicate k a ++ [c] ≠ [] := by simp
  obtain ⟨st, h1, -⟩ := h
  have := hd (List.replicate k a ++ [a]) (List.replicate k a ++ [b]) (hne a) (hne b) (by
    intro x hx
    rcases List.mem_append.1 hx with h | h
    · rw [List.eq_of_mem_replicate h]; exact ha
    · rw [List.mem_singleton.1 h]; exact ha) (by
    intro x hx
    rcases List.mem_append.1 hx with h | h
    · rw [List.eq_of_mem_replicate h]; exact ha
    · rw [List.mem_singleton.1 h]; exact hb) (by simp) (by
    rw [h1 _ (hne a), h1 _ (hne b)]
    have : scan y [] (List.replicate k a ++ [a]) = scan y [] (List.replicate k a ++ [b]) := by
      refine List.ext_getElem (by simp) fun i hi hi' => ?_
      rw [scan_getElem, scan_getElem]
      simp only [scan_length, List.length_append, List.length_replicate, List.length_singleton] at hi
      exact e _ _ (by simp) (by simp; omega)
    rw [this]; rfl)
  simp [hab] at this

theorem StreamsAs.determines_iff (h : StreamsAs op ser outs y) (ho : ∀ l m, outs l = outs m → l = m) {m : Nat}
    (e : ∀ l l', l.length = l'.length → l.length ≤ m → y l = y l') (e' : ∀ l a b, m ≤ l.length → (∀ x ∈ l, V x) → V a → V b → y (l ++ [a]) = y (l ++ [b]) → a = b)
    {a b : A} (hab : a ≠ b) (ha : V a) (hb : V b) : Determines op ser V k ↔ m ≤ k :=
  ⟨h.needs e hab ha hb, fun hk => h.determines ho fun l a b hl => e' l a b (hk.trans hl)⟩

end

section
variable {K : Type} [Field K] [LinearOrder K] [IsStrictOrderedRing K] [Transc K] [FloorRing K]

theorem window_snoc' {A : Type} {p : Nat} (hp : 0 < p) (l : List A) (a : A) : window p (l ++ [a]) = a :: window (p - 1) l := by
  obtain ⟨q, rfl⟩ : ∃ q, p = q + 1 := ⟨p - 1, by omega⟩
  simp [window]

theorem movingAvgK_inj {p : Nat} (hp : 0 < p) {l : List K} {a b : K} (hl : p - 1 ≤ l.length) (e : movingAvgK p (l ++ [a]) = movingAvgK p (l ++ [b])) : a = b := by
  have h : ∀ c : K, movingAvgK p (l ++ [c]) = (c + (window (p - 1) l).sum) / p := fun c => by
    rw [movingAvgK, if_neg (by simp; omega), window_snoc' hp, avg, List.sum_cons, List.length_cons, window_length, Nat.min_eq_left hl]
    congr 2
    omega
  rw [h, h, div_left_inj' (by positivity)] at e
  exact add_right_cancel e

theorem movingAvgK_short {p : Nat} {l : List K} (h : l.length < p) : movingAvgK p l = 0 := if_pos h

theorem recursiveAvgK_short {p : Nat} {f : K → K → K} {l : List K} (h : l.length < p) : recursiveAvgK p f l = 0 := by
  rw [recursiveAvgK, List.drop_eq_nil_of_le h.le, List.foldl_nil, movingAvgK_short (by simp; omega)]

theorem recursiveAvgK_inj {p : Nat} (hp : 0 < p) {w : K} (hw : w ≠ 0) {l : List K} {a b : K} (hl : p - 1 ≤ l.length)
    (e : recursiveAvgK p (fun m x => m + w * (x - m)) (l ++ [a]) = recursiveAvgK p (fun m x => m + w * (x - m)) (l ++ [b])) : a = b := by
  by_cases h : p ≤ l.length
  · rw [recursiveAvgK_append h, recursiveAvgK_append h] at e
    simpa [hw] using e
  · have : ∀ c : K, recursiveAvgK p (fun m x => m + w * (x - m)) (l ++ [c]) = movingAvgK p (l ++ [c]) := fun c => by
      rw [recursiveAvgK, List.drop_eq_nil_of_le (by simp; omega), List.take_of_length_le (by simp; omega), List.foldl_nil]
    rw [this, this] at e
    exact movingAvgK_inj hp hl e

theorem ema_weight_ne (p : Nat) : (2 / ((p : K) + 1)) ≠ 0 := by positivity
theorem rma_weight_ne {p : Nat} (hp : 0 < p) : (1 / (p : K)) ≠ 0 := by positivity

/-- **C77 Averages lose no information** beyond the first `p - 1` samples. -/
theorem C77_averages {p : Nat} (hp : 0 < p) (k : Nat) :
    (Determines (SMA (p : Int)) (finSeries (K := K)) (fun _ => True) k ↔ p - 1 ≤ k) ∧
    (Determines (EMA (p : Int)) (finSeries (K := K)) (fun _ => True) k ↔ p - 1 ≤ k) ∧
    (Determines (RMA (p : Int)) (finSeries (K := K)) (fun _ => True) k ↔ p - 1 ≤ k) := by
  refine ⟨(sma_reals hp).determines_iff (fun _ _ => finSeries_inj) (fun l l' e h => ?_) (fun l a b hl _ _ _ => movingAvgK_inj hp hl) (a := 0) (b := 1) zero_ne_one trivial trivial,
    (ema_reals hp).determines_iff (fun _ _ => finSeries_inj) (fun l l' e h => ?_) (fun l a b hl _ _ _ => recursiveAvgK_inj hp (ema_weight_ne p) hl) (a := 0) (b := 1) zero_ne_one trivial trivial,
    (rma_reals hp).determines_iff (fun _ _ => finSeries_inj) (fun l l' e h => ?_) (fun l a b hl _ _ _ => recursiveAvgK_inj hp (rma_weight_ne hp) hl) (a := 0) (b := 1) zero_ne_one trivial trivial⟩
  · rw [movingAvgK_short (by omega), movingAvgK_short (by omega)]
  · rw [recursiveAvgK_short (by omega), recursiveAvgK_short (by omega)]
  · rw [recursiveAvgK_short (by omega), recursiveAvgK_short (by omega)]
example := C77_averages (K := ℚ) (p := 14) (by norm_num) 13

theorem lagged_snoc' {A : Type} (z : A) {p : Nat} (hp : 0 < p) (l : List A) (a : A) : lagged z p (l ++ [a]) = l.reverse[p - 1]?.getD z := by
  obtain ⟨q, rfl⟩ : ∃ q, p = q + 1 := ⟨p - 1, by omega⟩
  simp [lagged]

/-- **C77, momentum and returns**: the first `p` samples are needed. -/
theorem C77_changes {p : Nat} (hp : 0 < p) (k : Nat) :
    (Determines (Momentum (p : Int)) (finSeries (K := K)) (fun _ => True) k ↔ p ≤ k) ∧
    (Determines (Return (p : Int)) (finSeries (K := K)) (fun x => x ≠ 0) k ↔ p ≤ k) := by
  refine ⟨(momentum_reals hp).determines_iff (fun _ _ => finSeries_inj) (fun l l' e h => ?_) (fun l a b hl _ _ _ e => ?_) (a := 0) (b := 1) zero_ne_one trivial trivial,
    (return_reals hp).determines_iff (fun _ _ => finSeries_inj) (fun l l' e h => ?_) (fun l a b hl hV _ _ e => ?_) (a := 1) (b := 2) (by norm_num) one_ne_zero two_ne_zero⟩
  · rw [momentumK, momentumK, if_pos h, if_pos (e ▸ h)]
  · rw [momentumK, momentumK, if_neg (by simp; omega), if_neg (by simp; omega), lagged_snoc' _ hp, lagged_snoc' _ hp] at e
    simpa using e
  · rw [returnK, returnK, if_pos (.inl h), if_pos (.inl (e ▸ h))]
  · have hne : l.reverse[p - 1]?.getD 0 ≠ 0 := by
      rw [List.getElem?_eq_getElem (by simp; omega)]
      exact hV _ (by simpa using List.getElem_mem (l := l.reverse) (n := p - 1) (by simp; omega))
    rw [returnK, returnK, lagged_snoc' _ hp, lagged_snoc' _ hp, if_neg (by simp [hne]; omega), if_neg (by simp [hne]; omega)] at e
    simpa [div_left_inj' hne] using e
example := C77_changes (K := ℚ) (p := 14) (by norm_num) 14

/-- a component of a tuple of outputs that determines the series -/
theorem Determines.of_outputs {α A : Type} {op op' : Operator α} {ser : List A → Val α} {V : A → Prop} {k : Nat}
    (e : ∀ xs ys, xs ≠ [] → ys ≠ [] → output (call op' (ser xs) none) = output (call op' (ser ys) none) → output (call op (ser xs) none) = output (call op (ser ys) none))
    (h : Determines op ser V k) : Determines op' ser V k := fun xs ys hx hy hVx hVy h0 ho => h xs ys hx hy hVx hVy h0 (e xs ys hx hy ho)

/-- **C77, MACD**: the shorter of the two averages is enough. -/
theorem C77_macd {slow fast m : Nat} (hs : 0 < slow) (hf : 0 < fast) (hm : 0 < m) (k : Nat) :
    Determines (MACD (slow : Int) fast m) (finSeries (K := K)) (fun _ => True) k ↔ min slow fast - 1 ≤ k := by
  have key := macd_reals (K := K) hs hf hm
  have inj5 : ∀ l l' : List (K × K × K × K × K), finSeries5 l = finSeries5 l' → l.map (·.1) = l'.map (·.1) ∧ l.map (·.2.1) = l'.map (·.2.1) := by
    intro l l' e
    simp only [finSeries5, PyVal.tup, PyVal.node.injEq, List.cons.injEq, true_and] at e
    exact ⟨finSeries_inj e.1, finSeries_inj e.2.1⟩
  constructor
  · refine key.needs (fun l l' e h => ?_) (a := 0) (b := 1) zero_ne_one trivial trivial
    have h1 : ∀ l : List K, l.length ≤ min slow fast - 1 → macdAllK slow fast m l = (0, 0, 0, 0, 0) := fun l h => by
      simp only [macdAllK, macdLineK, macdSignalK, macdHistK, recursiveAvgK_short (show l.length < slow by omega), recursiveAvgK_short (show l.length < fast by omega),
        if_pos (show l.length < slow by omega), if_pos (show l.length + 1 < slow + m by omega)]
    rw [h1 _ h, h1 _ (e ▸ h)]
  · intro hk
    obtain ⟨st, h1, -⟩ := key
    rcases le_total slow fast with h | h
    · refine Determines.of_outputs (fun xs ys hx hy e => ?_) (((C77_averages (K := K) hs k).2.1).2 (by omega))
      obtain ⟨st', h1', -⟩ := ema_reals (K := K) hs
      rw [h1 _ hx, h1 _ hy] at e
      rw [h1' _ hx, h1' _ hy]
      have := (inj5 _ _ (Except.ok.inj e)).1
      rw [scan_map, scan_map] at this
      exact congrArg (fun l => Except.ok (finSeries l)) this
    · refine Determines.of_outputs (fun xs ys hx hy e => ?_) (((C77_averages (K := K) hf k).2.1).2 (by omega))
      obtain ⟨st', h1', -⟩ := ema_reals (K := K) hf
      rw [h1 _ hx, h1 _ hy] at e
      rw [h1' _ hx, h1' _ hy]
      have := (inj5 _ _ (Except.ok.inj e)).2
      rw [scan_map, scan_map] at this
      exact congrArg (fun l => Except.ok (finSeries l)) this
example := C77_macd (K := ℚ) (slow := 26) (fast := 12) (m := 9) (by norm_num) (by norm_num) (by norm_num) 11

theorem scan_lagged {A : Type} (z : A) (p : Nat) (l : List A) : scan (lagged z p) [] l = (List.replicate p z ++ l).take l.length := by
  refine List.ext_getElem (by simp) fun i hi hi' => ?_
  simp only [scan_length] at hi
  rw [scan_getElem, List.nil_append, lagged, List.getElem_take, List.getElem_append]
  have h : (l.take (i + 1)).reverse[p]? = if p ≤ i then l[i - p]? else none := by
    split
    · rw [List.getElem?_reverse (by simp; omega), List.getElem?_take_of_lt (by simp)]
      congr 1
      simp only [List.length_take]
      omega
    · exact List.getElem?_eq_none (by simp; omega)
  rw [h]
  simp only [List.length_replicate, List.getElem_replicate]
  split
  · rw [dif_neg (by omega), List.getElem?_eq_getElem (by omega), Option.getD_some]
  · rw [dif_pos (by omega), Option.getD_none]

/-- **C77, delays** forget the last `p` samples and nothing else. -/
theorem C77_lag {p : Nat} (hp : 0 < p) {xs ys : List K} (hx : xs ≠ []) (hy : ys ≠ []) :
    output (call (Lag (p : Int)) (finSeries xs) none) = output (call (Lag (p : Int)) (finSeries ys) none) ↔
      xs.length = ys.length ∧ xs.take (xs.length - p) = ys.take (ys.length - p) := by
  have e : ∀ l : List K, scan (lagged 0 p) [] l = List.replicate (min p l.length) 0 ++ l.take (l.length - p) := fun l => by
    rw [scan_lagged, List.take_append, List.take_replicate, List.length_replicate, min_comm]
  have key := lag_reals (K := K) hp
  constructor
  · intro h
    have := key.outs_eq (fun _ _ => finSeries_inj) hx hy h
    have hl : xs.length = ys.length := by simpa using congrArg List.length this
    rw [e, e, hl] at this
    exact ⟨hl, by rw [hl]; exact List.append_cancel_left this⟩
  · rintro ⟨h1, h2⟩
    obtain ⟨st, h, -⟩ := key
    rw [h _ hx, h _ hy]
    show Except.ok (finSeries _) = Except.ok (finSeries _)
    rw [e, e, h2, h1]
example := (C77_lag (K := ℚ) (p := 2) (by norm_num) (xs := [1, 2, 3]) (ys := [1, 5, 6]) (by simp) (by simp)).2 (by simp)

/-- two series that differ in the last sample and have the same outputs -/
theorem StreamsAs.lossy {α A B : Type} {op : Operator α} {ser : List A → Val α} {outs : List B → Val α} {y : List A → B} {V : A → Prop} (h : StreamsAs op ser outs y) {m : Nat} {z a b : A}
    (hab : a ≠ b) (hz : V z) (ha : V a) (hb : V b) (e : ∀ n, m ≤ n → y (List.replicate n z ++ [a]) = y (List.replicate n z ++ [b])) (k : Nat) : ¬ Determines op ser V k := by
  intro hd
  obtain ⟨st, h1, -⟩ := h
  have hne : ∀ c, List.replicate (k + m) z ++ [c] ≠ [] := by simp
  have hV : ∀ c, V c → ∀ x ∈ List.replicate (k + m) z ++ [c], V x := fun c hc x hx => by
    rcases List.mem_append.1 hx with h | h
    · rw [List.eq_of_mem_replicate h]; exact hz
    · rw [List.mem_singleton.1 h]; exact hc
  have := hd _ _ (hne a) (hne b) (hV a ha) (hV b hb) (by rw [List.take_append_of_le_length (by simp), List.take_append_of_le_length (by simp)]) (by
    rw [h1 _ (hne a), h1 _ (hne b)]
    have : scan y [] (List.replicate (k + m) z ++ [a]) = scan y [] (List.replicate (k + m) z ++ [b]) := by
      refine List.ext_getElem (by simp) fun i hi hi' => ?_
      rw [scan_getElem, scan_getElem]
      simp only [scan_length, List.length_append, List.length_replicate, List.length_singleton] at hi
      by_cases hi : i < k + m
      · rw [List.take_append_of_le_length (by simp; omega), List.take_append_of_le_length (by simp; omega)]
      · rw [List.take_of_length_le (by simp; omega), List.take_of_length_le (by simp; omega), List.nil_append, List.nil_append, e _ (by omega)]
    rw [this]; rfl)
  simp [hab] at this

/-- **C77, extrema** lose information, and so do returns where samples are zero: no number of first samples makes up for it. -/
theorem C77_lossy {p : Nat} (hp : 2 ≤ p) (k : Nat) :
    ¬ Determines (LocalMinimum (p : Int)) (finSeries (K := K)) (fun _ => True) k ∧ ¬ Determines (LocalMaximum (p : Int)) (finSeries (K := K)) (fun _ => True) k ∧
    ¬ Determines (Return (p : Int)) (finSeries (K := K)) (fun _ => True) k := by
  have hw : ∀ n, 1 ≤ n → ∀ a : K, window p (List.replicate n 0 ++ [a]) = a :: List.replicate (min (p - 1) n) 0 := fun n hn a => by
    rw [window_snoc' (by omega), window_replicate]
  refine ⟨(localMin_reals (by omega)).lossy (m := 1) (z := 0) (a := 1) (b := 2) (by norm_num) trivial trivial trivial (fun n hn => ?_) k,
    (localMax_reals (by omega)).lossy (m := 1) (z := 0) (a := -1) (b := -2) (by norm_num) trivial trivial trivial (fun n hn => ?_) k,
    (return_reals (by omega)).lossy (m := p) (z := 0) (a := 1) (b := 2) (by norm_num) trivial trivial trivial (fun n hn => ?_) k⟩
  · have h0 : ∀ a : K, 0 < a → leastK (window p (List.replicate n 0 ++ [a])) = 0 := fun a ha => by
      rw [hw n hn]
      exact least_eq ⟨by simp; omega, by simp only [List.mem_cons, List.mem_replicate]; rintro x (rfl | ⟨-, rfl⟩) <;> [exact ha.le; exact le_rfl]⟩
    rw [h0 _ (by norm_num), h0 _ (by norm_num)]
  · have h0 : ∀ a : K, a < 0 → greatestK (window p (List.replicate n 0 ++ [a])) = 0 := fun a ha => by
      rw [hw n hn]
      exact greatest_eq ⟨by simp; omega, by simp only [List.mem_cons, List.mem_replicate]; rintro x (rfl | ⟨-, rfl⟩) <;> [exact ha.le; exact le_rfl]⟩
    rw [h0 _ (by norm_num), h0 _ (by norm_num)]
  · have h0 : ∀ a : K, returnK p (List.replicate n 0 ++ [a]) = 0 := fun a => if_pos (.inr (by rw [lagged_snoc' _ (by omega)]; simp [List.getElem?_replicate]; split <;> rfl))
    rw [h0, h0]
example := C77_lossy (K := ℚ) (p := 3) (by norm_num) 5

end

end TS
