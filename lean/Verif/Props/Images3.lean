import Verif.Props.Images2
/-
C98, continued: crossovers and trading signals.
-/
namespace TS
open XR
variable {K : Type} [Field K] [LinearOrder K] [IsStrictOrderedRing K] [Transc K] [FloorRing K] {A : Type}

omit [LinearOrder K] [IsStrictOrderedRing K] [Transc K] [FloorRing K] in
/-- choosing a silent series of samples one after the other -/
theorem scan_free {y : List K → K} {n : Nat} (h0 : ∀ xs, xs ≠ [] → xs.length ≤ n → y xs = 0) (h1 : ∀ xs o, n ≤ xs.length → ∃ x, y (xs ++ [x]) = o) (os : List K) (hs : Silent n os) :
    ∃ xs, scan y [] xs = os := by
  obtain ⟨xs, -, h⟩ := scan_onto (y := y) (fun _ => True) trivial (fun _ _ => Silent.pre) (fun xs o _ hs => by
      by_cases hl : xs.length < n
      · exact ⟨0, trivial, by rw [hs.last (by simpa using hl)]; exact h0 _ (by simp) (by simp; omega)⟩
      · obtain ⟨x, hx⟩ := h1 xs o (not_lt.1 hl)
        exact ⟨x, trivial, hx⟩) os hs
  exact ⟨xs, h⟩

omit [LinearOrder K] [IsStrictOrderedRing K] [Transc K] [FloorRing K] in
theorem movingAvgK_snoc {p : Nat} (hp : 0 < p) (xs : List K) (x : K) : movingAvgK p (xs ++ [x]) = if xs.length + 1 < p then 0 else (x + (window (p - 1) xs).sum) / p := by
  have hw : window p (xs ++ [x]) = x :: window (p - 1) xs := by
    obtain ⟨q, rfl⟩ : ∃ q, p = q + 1 := ⟨p - 1, by omega⟩
    simp [window]
  rw [movingAvgK, List.length_append, List.length_singleton]
  split
  · rfl
  · rw [hw, avg, List.sum_cons, List.length_cons, window_length, show min (p - 1) xs.length + 1 = p by omega]

omit [Transc K] in
theorem smaDiffK_onto {slow fast : Nat} (hs : 0 < slow) (hf : 0 < fast) (hn : slow ≠ fast) (xs : List K) (o : K) (h : slow - 1 ≤ xs.length) : ∃ x, smaDiffK slow fast (xs ++ [x]) = o := by
  have hs0 : (slow : K) ≠ 0 := by positivity
  have hf0 : (fast : K) ≠ 0 := by positivity
  have hn0 : (slow : K) - fast ≠ 0 := sub_ne_zero.2 (by exact_mod_cast hn)
  have e (x : K) : smaDiffK slow fast (xs ++ [x]) = (if xs.length + 1 < fast then 0 else (x + (window (fast - 1) xs).sum) / fast) - (x + (window (slow - 1) xs).sum) / slow := by
    rw [smaDiffK, movingAvgK_snoc hs, movingAvgK_snoc hf, if_neg (by simp; omega), if_neg (show ¬ xs.length + 1 < slow by omega)]
  simp only [e]
  split
  · exact ⟨- (slow * o) - (window (slow - 1) xs).sum, by field_simp; ring⟩
  · refine ⟨(slow * fast * o - slow * (window (fast - 1) xs).sum + fast * (window (slow - 1) xs).sum) / (slow - fast), ?_⟩
    field_simp
    ring

/-- **C98 SMA crossover** with different periods: the outputs are exactly the series that begin with `slow - 1` zeros. -/
theorem C98_crossover {slow fast : Nat} (hs : 0 < slow) (hf : 0 < fast) (hn : slow ≠ fast) (os : List K) : Image (SMACrossover (slow : Int) fast) numbers numbers os ↔ os ≠ [] ∧ Silent (slow - 1) os :=
  image_free (crossover_reals hs hf) (fun xs _ hl => by rw [smaDiffK, if_pos (by omega), movingAvgK, if_pos (by omega), sub_zero]) (fun xs o hl => smaDiffK_onto hs hf hn xs o hl) os
example := (C98_crossover (K := ℚ) (slow := 2) (fast := 1) (by norm_num) (by norm_num) (by norm_num) [0, 7, -3]).2 ⟨by simp, silent_one (by norm_num)⟩

/-! ### Trading signals -/

theorem lastTurn_zeros {d : Int} {os : List Int} (h : ∀ o ∈ os, o = 0) : lastTurn d os = d := by
  induction os using List.reverseRecOn with
  | nil => rfl
  | append_singleton os o ih => rw [lastTurn_snoc, if_pos (h o (by simp)), ih fun o ho => h o (by simp [ho])]

omit [IsStrictOrderedRing K] [Transc K] [FloorRing K] in
theorem lastSign_zeros {us : List K} (h : ∀ u ∈ us, u = 0) : lastSign us = 1 := by
  induction us using List.reverseRecOn with
  | nil => rfl
  | append_singleton us u ih => rw [lastSign_snoc, if_pos (h u (by simp)), ih fun u hu => h u (by simp [hu])]

omit [IsStrictOrderedRing K] [Transc K] [FloorRing K] in
/-- The direction of a series is the last signal. -/
theorem lastSign_turns {n : Nat} (hn : 0 < n) {d : Int} {os : List Int} {us : List K} (hl : us.length = os.length) (h0 : ∀ i, i < n → ∀ o, os[i]? = some o → o = 0)
    (hd : n ≤ os.length → lastSign (us.take n) = d) (ht : ∀ i, n ≤ i → ∀ o, os[i]? = some o → o = turnAt us i) {i : Nat} (hi : n ≤ i) (hil : i ≤ os.length) : lastSign (us.take i) = lastTurn d (os.take i) := by
  induction i, hi using Nat.le_induction with
  | base =>
    rw [hd hil, lastTurn_zeros fun o ho => ?_]
    obtain ⟨k, hk, rfl⟩ := List.mem_take_iff_getElem.1 ho
    exact h0 k (by omega) _ (List.getElem?_eq_getElem _)
  | succ i hi ih =>
    have ih := ih (by omega)
    have hi' : i < os.length := by omega
    have hiu : i < us.length := by omega
    rw [List.take_add_one, List.take_add_one, List.getElem?_eq_getElem hi', List.getElem?_eq_getElem hiu, Option.toList_some, Option.toList_some, lastSign_snoc, lastTurn_snoc, ih]
    have e := ht i hi _ (List.getElem?_eq_getElem hi')
    rw [turnAt, List.getD_eq_getElem?_getD, List.getElem?_eq_getElem hiu, Option.getD_some, ih] at e
    by_cases hu : us[i] = 0
    · rw [if_pos hu, if_pos (by rw [e, if_pos (.inr (.inl hu))])]
    · rw [if_neg hu]
      by_cases hs : sgn us[i] = lastTurn d (os.take i)
      · rw [if_pos (by rw [e, if_pos (.inr (.inr hs))]), hs]
      · rw [if_neg (by rw [not_or, not_or]; exact ⟨by omega, hu, hs⟩)] at e
        rw [if_neg (by rw [e, sgn]; rcases lt_trichotomy us[i] 0 with h | h | h; · simp [h, h.not_gt]
                       · exact absurd h hu
                       · simp [h]), e]

omit [Transc K] in
/-- The signals of a series with given signals. -/
theorem turns_onto {n : Nat} (hn : 0 < n) {d : Int} (hd : d = 1 ∨ d = -1) {os : List Int} (h0 : ∀ i, i < n → ∀ o, os[i]? = some o → o = 0) (hv : ∀ o ∈ os, o = -1 ∨ o = 0 ∨ o = 1)
    (ha : Alternates (d :: os)) {us : List K} (hl : us.length = os.length) (hz : n ≤ os.length → lastSign (us.take n) = d) (hu : ∀ i, n ≤ i → ∀ o, os[i]? = some o → us[i]? = some (o : K))
    {i : Nat} (hi : n ≤ i) (hil : i < os.length) : turnAt us i = os[i] := by
  have hsg (o : Int) (ho : o ∈ os) : sgn (o : K) = o := by rcases hv o ho with rfl | rfl | rfl <;> simp [sgn]
  induction i using Nat.strong_induction_on with
  | _ i ih =>
    have e := lastSign_turns hn (d := d) (os := os.take i) (us := us.take i) (by simp [hl]) (fun k hk o ho => h0 k hk o (by
        rw [List.getElem?_take] at ho
        split at ho
        · exact ho
        · cases ho)) (fun h => by rw [List.take_take, min_eq_left hi]; exact hz (by simp at h; omega)) (fun k hk o ho => by
        rw [List.getElem?_take] at ho
        split at ho
        · rename_i hki
          obtain ⟨hk', rfl⟩ := List.getElem?_eq_some_iff.1 ho
          rw [← ih k hki hk hk', turnAt, turnAt, List.take_take, min_eq_left hki.le]
          simp only [List.getD_eq_getElem?_getD, List.getElem?_take, if_pos hki]
        · cases ho) hi (by simp; omega)
    rw [List.take_take, List.take_take, min_self] at e
    rw [turnAt, List.getD_eq_getElem?_getD, hu i hi _ (List.getElem?_eq_getElem hil), Option.getD_some, hsg _ (List.getElem_mem _), e]
    by_cases h : os[i] = 0
    · simp [h]
    · rw [if_neg]
      rw [not_or, not_or]
      refine ⟨by omega, by exact_mod_cast h, fun hc => ?_⟩
      obtain ⟨j, hj, e1, e2⟩ := lastTurn_at d (os.take i)
      have hlt : (os.take i).length = i := by simp; omega
      have sg := lastTurn_sign hd (os := os.take i) fun o ho => hv o (List.mem_of_mem_take ho)
      have tk (k : Nat) (hk : k ≤ i) : (d :: os.take i)[k]? = (d :: os)[k]? := by
        rcases k with _ | k
        · rfl
        · rw [List.getElem?_cons_succ, List.getElem?_cons_succ, List.getElem?_take, if_pos (by omega)]
      have := ha j (i + 1) (by omega) (lastTurn d (os.take i)) os[i] (by rw [← tk j (by omega)]; exact e1) (by rw [List.getElem?_cons_succ, List.getElem?_eq_getElem])
        (by rcases sg with h | h <;> rw [h] <;> decide) h (fun k h1 h2 => by rw [← tk k (by omega)]; exact e2 k h1 (by omega))
      rw [hc] at this
      rcases sg with h | h <;> rw [h] at this <;> norm_num at this

theorem smaSignal_reals {slow fast : Nat} (hs : 0 < slow) (hf : 0 < fast) :
    StreamsAs (SMACrossoverSignal (slow : Int) fast : Operator (XR K)) finSeries vIBuf (fun l => if l.length ≤ slow then 0 else turnAt (scan (smaDiffK slow fast) [] l) (l.length - 1)) := by
  have := (C34_sma_streams (α := XR K) hs hf).comap (y' := fun l => if l.length ≤ slow then 0 else turnAt (scan (smaDiffK slow fast) [] l) (l.length - 1)) XR.fin id fun l hl => by
    have e := scan_comap (y := smaDiff slow fast) (f := XR.fin) (g := XR.fin) (fun l _ => smaDiff_fin (K := K) hs hf l) [] l
    rw [List.map_nil] at e
    have hl' := List.length_pos_iff.2 hl
    rw [smaSignal, List.length_map, e]
    split
    · rfl
    · rw [id, ← crossing_fin (by simp; omega), List.take_of_length_le (by simp; omega)]
  simpa only [List.map_id] using this

theorem macdSignal_reals {slow fast m : Nat} (hs : 0 < slow) (hf : 0 < fast) (hm : 0 < m) :
    StreamsAs (MACDSignal (slow : Int) fast m : Operator (XR K)) finSeries vIBuf (fun l => if l.length + 2 ≤ slow + m then 0 else turnAt (scan (macdHistK slow fast m) [] l) (l.length - 1)) := by
  have := (C34_macd_streams (α := XR K) hs hf hm).comap (y' := fun l => if l.length + 2 ≤ slow + m then 0 else turnAt (scan (macdHistK slow fast m) [] l) (l.length - 1)) XR.fin id fun l hl => by
    have e := scan_comap (y := macdHist slow fast m) (f := XR.fin) (g := XR.fin) (fun l _ => macdHist_fin (K := K) hs hf hm l) [] l
    rw [List.map_nil] at e
    have hl' := List.length_pos_iff.2 hl
    rw [macdTrade, List.length_map, e]
    split
    · rfl
    · rw [id, ← crossing_fin (by simp; omega), List.take_of_length_le (by simp; omega)]
  simpa only [List.map_id] using this

omit [IsStrictOrderedRing K] [Transc K] [FloorRing K] in
/-- Signals of an underlying series `u`, silent for `n` samples. -/
theorem scan_turns {u : List A → K} {n : Nat} {xs : List A} {os : List Int} (hl : xs.length = os.length) (h0 : ∀ i, i < n → ∀ o, os[i]? = some o → o = 0)
    (h1 : ∀ i, n ≤ i → ∀ (h : i < os.length), turnAt (scan u [] xs) i = os[i]) : scan (fun l => if l.length ≤ n then 0 else turnAt (scan u [] l) (l.length - 1)) [] xs = os := by
  refine List.ext_getElem (by simpa using hl) fun i hi hi' => ?_
  rw [scan_getElem, List.nil_append, List.length_take, min_eq_left (by omega)]
  split
  · exact (h0 i (by omega) _ (List.getElem?_eq_getElem hi')).symm
  · rw [Nat.add_sub_cancel, scan_take _ _ _ (by omega), ← h1 i (by omega) hi', turnAt, turnAt, List.take_take, min_eq_left (by omega)]
    simp [List.getD_eq_getElem?_getD]

/-- Conversely. -/
theorem turns_scan {u : List A → K} {n : Nat} (xs : List A) : TradeSignal (scan u [] xs) n (scan (fun l => if l.length ≤ n then 0 else turnAt (scan u [] l) (l.length - 1)) [] xs) :=
  tradeSignal_of (by simp) fun i hi => by
    rw [scan_length] at hi
    rw [scan_getElem, List.nil_append, List.length_take, min_eq_left (by omega)]
    by_cases h : i < n
    · rw [if_pos h, if_pos (by omega)]
    · rw [if_neg h, if_neg (by omega), Nat.add_sub_cancel, scan_take _ _ _ (by omega), turnAt, turnAt, List.take_take, min_eq_left (by omega)]
      simp [List.getD_eq_getElem?_getD]

/-- **C98 SMA crossover signal** with different periods: the outputs are exactly the series of -1, 0 and 1 that begin with `slow` zeros and in which the numbers that are not zero alternate. -/
theorem C98_crossover_signal {slow fast : Nat} (hs : 0 < slow) (hf : 0 < fast) (hn : slow ≠ fast) (os : List Int) : Image (SMACrossoverSignal (slow : Int) fast : Operator (XR K)) numbers vIBuf os ↔
    os ≠ [] ∧ (∀ i, i < slow → ∀ o, os[i]? = some o → o = 0) ∧ (∀ o ∈ os, o = -1 ∨ o = 0 ∨ o = 1) ∧ Alternates os := by
  rw [show (numbers : List K → Val (XR K)) = finSeries from rfl, (smaSignal_reals hs hf).image fun _ _ => vIBuf_inj]
  constructor
  · rintro ⟨xs, hx, rfl⟩
    have h := turns_scan (u := smaDiffK slow fast) (n := slow) xs
    refine ⟨by rw [← List.length_pos_iff, scan_length, List.length_pos_iff]; exact hx, fun i hi o ho => ?_, h.values, h.alternates⟩
    have := h.silent i hi (by have := (List.getElem?_eq_some_iff.1 ho).1; simpa using this)
    rw [ho] at this
    exact Option.some.inj this
  · rintro ⟨ho, h0, hv, ha⟩
    obtain ⟨d, hd, had⟩ := ha.before hv
    let us : List K := (List.range os.length).map fun i => if i < slow - 1 then 0 else if i = slow - 1 then (d : K) else (os.getD i 0 : Int)
    have hd0 : (d : K) ≠ 0 := by rcases hd with rfl | rfl <;> simp
    have hds : sgn (d : K) = d := by rcases hd with rfl | rfl <;> simp [sgn]
    obtain ⟨xs, e⟩ := scan_free (y := smaDiffK slow fast) (n := slow - 1) (fun xs _ hl => by rw [smaDiffK, if_pos (by omega), movingAvgK, if_pos (by omega), sub_zero])
      (fun xs o hl => smaDiffK_onto hs hf hn xs o hl) us (fun i hi o ho => by
        obtain ⟨hi', rfl⟩ := List.getElem?_eq_some_iff.1 ho
        simp [us, hi])
    have hl : xs.length = os.length := by rw [← scan_length (smaDiffK slow fast) [] xs, e]; simp [us]
    refine ⟨xs, by rw [← List.length_pos_iff, hl, List.length_pos_iff]; exact ho, scan_turns hl h0 fun i hi hi' => ?_⟩
    rw [e]
    refine turns_onto hs hd h0 hv had (by simp [us]) (fun h => ?_) (fun i hi o ho => ?_) hi hi'
    · obtain ⟨k, rfl⟩ : ∃ k, slow = k + 1 := ⟨slow - 1, by omega⟩
      rw [List.take_add_one, List.getElem?_eq_getElem (by simp [us]; omega), Option.toList_some, lastSign_snoc]
      simp [us, hd0, hds]
    · obtain ⟨hi', rfl⟩ := List.getElem?_eq_some_iff.1 ho
      rw [List.getElem?_eq_getElem (by simpa [us] using hi')]
      simp only [us, List.getElem_map, List.getElem_range]
      rw [if_neg (by omega), if_neg (by omega), List.getD_eq_getElem?_getD, ho, Option.getD_some]
example := (C98_crossover_signal (K := ℚ) (slow := 2) (fast := 1) (by norm_num) (by norm_num) (by norm_num) [0, 0, 1]).2 ⟨by simp, fun i hi o ho => by
  obtain rfl | rfl : i = 0 ∨ i = 1 := by omega
  all_goals simpa using ho.symm, by simp, fun i j hij a b h1 h2 h3 h4 _ => by
  have := (List.getElem?_eq_some_iff.1 h2).1
  obtain rfl | rfl : i = 0 ∨ i = 1 := by simp at this; omega
  all_goals simp at h1; exact absurd h1.symm h3⟩

/-! ### MACD -/

omit [IsStrictOrderedRing K] [Transc K] [LinearOrder K] [FloorRing K] in
/-- The exponential average depends on the last sample in this way. -/
theorem ema_affine [CharZero K] {p : Nat} (hp : 0 < p) (xs : List K) : ∃ a : K, ∀ x, recursiveAvgK p (fun m x => m + 2 / ((p : K) + 1) * (x - m)) (xs ++ [x]) =
    a + (if xs.length + 1 < p then 0 else if xs.length + 1 = p then 1 / (p : K) else 2 / ((p : K) + 1)) * x := by
  rcases Nat.lt_trichotomy (xs.length + 1) p with h | h | h
  · exact ⟨0, fun x => by rw [recursiveAvgK_le (by simp; omega), movingAvgK_snoc hp, if_pos h, if_pos h]; ring⟩
  · exact ⟨(window (p - 1) xs).sum / p, fun x => by rw [recursiveAvgK_le (by simp; omega), movingAvgK_snoc hp, if_neg (by omega), if_neg (by omega), if_pos h]; ring⟩
  · refine ⟨recursiveAvgK p (fun m x => m + 2 / ((p : K) + 1) * (x - m)) xs * (1 - 2 / ((p : K) + 1)), fun x => ?_⟩
    rw [recursiveAvgK_snoc (by omega), if_neg (by omega), if_neg (by omega)]
    ring

omit [Transc K] [FloorRing K] in
theorem macdLineK_affine {slow fast : Nat} (hs : 0 < slow) (hf : 0 < fast) (hn : slow ≠ fast) (xs : List K) (h : slow - 1 ≤ xs.length) : ∃ a c : K, c ≠ 0 ∧ ∀ x, macdLineK slow fast (xs ++ [x]) = a + c * x := by
  obtain ⟨a, ha⟩ := ema_affine hf xs
  obtain ⟨b, hb⟩ := ema_affine hs xs
  refine ⟨a - b, (if xs.length + 1 < fast then 0 else if xs.length + 1 = fast then 1 / (fast : K) else 2 / ((fast : K) + 1)) - (if xs.length + 1 < slow then 0 else if xs.length + 1 = slow then 1 / (slow : K) else 2 / ((slow : K) + 1)),
    ?_, fun x => by rw [macdLineK, if_neg (by simp; omega), ha, hb]; ring⟩
  have s0 : (0 : K) < slow := by exact_mod_cast hs
  have f0 : (0 : K) < fast := by exact_mod_cast hf
  have s1 : (0 : K) < (slow : K) + 1 := by linarith
  have f1 : (0 : K) < (fast : K) + 1 := by linarith
  rw [if_neg (show ¬ xs.length + 1 < slow by omega)]
  rcases (show xs.length + 1 = slow ∨ slow < xs.length + 1 by omega) with e | e
  · rw [if_pos e]
    rcases Nat.lt_or_gt_of_ne hn with k | k
    · rw [if_pos (by omega), zero_sub, neg_ne_zero]
      positivity
    · rw [if_neg (by omega), if_neg (by omega), sub_ne_zero, Ne, div_eq_div_iff f1.ne' s0.ne']
      have : (fast : K) + 1 ≤ slow := by exact_mod_cast k
      intro hc
      linarith
  · rw [if_neg (show ¬ xs.length + 1 = slow by omega)]
    rcases Nat.lt_trichotomy (xs.length + 1) fast with k | k | k
    · rw [if_pos k, zero_sub, neg_ne_zero]
      positivity
    · rw [if_neg (by omega), if_pos k, sub_ne_zero, Ne, div_eq_div_iff f0.ne' s1.ne']
      have : (slow : K) + 1 ≤ fast := by exact_mod_cast (by omega : slow + 1 ≤ fast)
      intro hc
      linarith
    · rw [if_neg (by omega), if_neg (by omega), sub_ne_zero, Ne, div_eq_div_iff f1.ne' s1.ne']
      have : (slow : K) ≠ fast := by exact_mod_cast hn
      intro hc
      exact this (by linarith)

omit [Transc K] [FloorRing K] in
theorem macdHistK_onto {slow fast m : Nat} (hs : 0 < slow) (hf : 0 < fast) (hn : slow ≠ fast) (hm : 2 ≤ m) (xs : List K) (o : K) (h : slow + m - 2 ≤ xs.length) : ∃ x, macdHistK slow fast m (xs ++ [x]) = o := by
  obtain ⟨a, c, hc, hac⟩ := macdLineK_affine hs hf hn xs (by omega)
  obtain ⟨b, hb⟩ := ema_affine (K := K) (p := m) (by omega) ((scan (macdLineK slow fast) [] xs).drop (slow - 1))
  have e (x : K) : macdHistK slow fast m (xs ++ [x]) = macdLineK slow fast (xs ++ [x]) - recursiveAvgK m (fun e x => e + 2 / ((m : K) + 1) * (x - e)) ((scan (macdLineK slow fast) [] xs).drop (slow - 1) ++ [macdLineK slow fast (xs ++ [x])]) := by
    rw [macdHistK, if_neg (by simp; omega), if_neg (by simp; omega), scan_snoc, List.drop_append_of_le_length (by simp; omega)]
  have hm0 : (2 : K) ≤ m := by exact_mod_cast hm
  have m0 : (0 : K) < m := by linarith
  have m1 : (0 : K) < (m : K) + 1 := by linarith
  have hl : ((scan (macdLineK slow fast) [] xs).drop (slow - 1)).length + 1 = xs.length + 1 - (slow - 1) := by simp; omega
  simp only [e, hb, hac]
  rw [if_neg (by omega)]
  set w := if ((scan (macdLineK slow fast) [] xs).drop (slow - 1)).length + 1 = m then 1 / (m : K) else 2 / ((m : K) + 1) with ew
  have hw : 1 - w ≠ 0 := by
    rw [ew, sub_ne_zero]
    split
    · rw [Ne, eq_div_iff m0.ne']; intro h; linarith
    · rw [Ne, eq_div_iff m1.ne']; intro h; linarith
  refine ⟨((o + b) / (1 - w) - a) / c, ?_⟩
  rw [mul_div_cancel₀ _ hc, add_sub_cancel, ← sub_sub]
  have : (o + b) / (1 - w) * (1 - w) = o + b := div_mul_cancel₀ _ hw
  linarith

/-- **C98 MACD signal** with different periods and a signal period of at least 2: the outputs are exactly the series of -1, 0 and 1 that begin with `slow + m - 2` zeros and in which the numbers
that are not zero alternate, the first one being -1. -/
theorem C98_macd_signal {slow fast m : Nat} (hs : 0 < slow) (hf : 0 < fast) (hn : slow ≠ fast) (hm : 2 ≤ m) (os : List Int) : Image (MACDSignal (slow : Int) fast m : Operator (XR K)) numbers vIBuf os ↔
    os ≠ [] ∧ (∀ i, i < slow + m - 2 → ∀ o, os[i]? = some o → o = 0) ∧ (∀ o ∈ os, o = -1 ∨ o = 0 ∨ o = 1) ∧ Alternates (1 :: os) := by
  have hist0 (xs : List K) (hl : xs.length ≤ slow + m - 2) : macdHistK slow fast m xs = 0 := by rw [macdHistK, if_pos (by omega)]
  have hn0 : 0 < slow + m - 2 := by omega
  have e : (fun l : List K => if l.length + 2 ≤ slow + m then 0 else turnAt (scan (macdHistK slow fast m) [] l) (l.length - 1)) =
      fun l => if l.length ≤ slow + m - 2 then 0 else turnAt (scan (macdHistK slow fast m) [] l) (l.length - 1) := by
    funext l
    by_cases h : l.length ≤ slow + m - 2
    · rw [if_pos h, if_pos (by omega)]
    · rw [if_neg h, if_neg (by omega)]
  have hr := macdSignal_reals (K := K) hs hf (by omega : 0 < m)
  rw [e] at hr
  rw [show (numbers : List K → Val (XR K)) = finSeries from rfl, hr.image fun _ _ => vIBuf_inj]
  have start (xs : List K) : lastSign ((scan (macdHistK slow fast m) [] xs).take (slow + m - 2)) = 1 := lastSign_zeros fun u hu => by
    obtain ⟨i, hi, rfl⟩ := List.mem_take_iff_getElem.1 hu
    rw [scan_getElem, List.nil_append]
    exact hist0 _ (by simp at hi ⊢; omega)
  constructor
  · rintro ⟨xs, hx, rfl⟩
    have h := turns_scan (u := macdHistK slow fast m) (n := slow + m - 2) xs
    set os := scan (fun l : List K => if l.length ≤ slow + m - 2 then 0 else turnAt (scan (macdHistK slow fast m) [] l) (l.length - 1)) [] xs with eos
    have h0 : ∀ i, i < slow + m - 2 → ∀ o, os[i]? = some o → o = 0 := fun i hi o ho => by
      have := h.silent i hi (by have := (List.getElem?_eq_some_iff.1 ho).1; rw [eos, scan_length] at this; simpa using this)
      rw [ho] at this
      exact Option.some.inj this
    refine ⟨by rw [← List.length_pos_iff, eos, scan_length, List.length_pos_iff]; exact hx, h0, h.values, fun i j hij a b ha hb h1 h2 hk => ?_⟩
    obtain ⟨j, rfl⟩ : ∃ k, j = k + 1 := ⟨j - 1, by omega⟩
    rw [List.getElem?_cons_succ] at hb
    rcases i with _ | i
    · -- the first signal
      obtain rfl : 1 = a := by simpa using ha
      have hj := (List.getElem?_eq_some_iff.1 hb).1
      have hjn : slow + m - 2 ≤ j := by
        by_contra hc
        exact h2 (h0 j (by omega) b hb)
      have ht := fun i (hi : slow + m - 2 ≤ i) o (ho : os[i]? = some o) => (by
        have := h.cross i hi (by rw [← h.length]; exact (List.getElem?_eq_some_iff.1 ho).1)
        rw [ho] at this
        exact Option.some.inj this : o = turnAt (scan (macdHistK slow fast m) [] xs) i)
      have el := lastSign_turns hn0 h.length.symm h0 (fun _ => start xs) ht hjn hj.le
      rw [lastTurn_zeros fun o ho => by
        obtain ⟨k, hkl, rfl⟩ := List.mem_take_iff_getElem.1 ho
        have := hk (k + 1) (by omega) (by omega)
        rw [List.getElem?_cons_succ, List.getElem?_eq_getElem (by omega)] at this
        exact Option.some.inj this] at el
      have eb := ht j hjn b hb
      rw [eb] at h2
      rw [eb, (turnAt_sign h2).2, el]
    · rw [List.getElem?_cons_succ] at ha
      exact h.alternates i j (by omega) a b ha hb h1 h2 fun k h3 h4 => by simpa using hk (k + 1) (by omega) (by omega)
  · rintro ⟨ho, h0, hv, ha⟩
    let us : List K := os.map fun o : Int => (o : K)
    obtain ⟨xs, e⟩ := scan_free (y := macdHistK slow fast m) (n := slow + m - 2) (fun xs _ hl => hist0 xs hl) (fun xs o hl => macdHistK_onto hs hf hn hm xs o hl) us (fun i hi o ho => by
        simp only [us, List.getElem?_map, Option.map_eq_some_iff] at ho
        obtain ⟨o', ho', rfl⟩ := ho
        rw [h0 i hi o' ho', Int.cast_zero])
    have hl : xs.length = os.length := by rw [← scan_length (macdHistK slow fast m) [] xs, e]; simp [us]
    refine ⟨xs, by rw [← List.length_pos_iff, hl, List.length_pos_iff]; exact ho, scan_turns hl h0 fun i hi hi' => ?_⟩
    refine turns_onto hn0 (.inl rfl) h0 hv ha (by simp [hl]) (fun h => start xs) (fun i hi o ho => ?_) hi hi'
    rw [e]
    simp [us, ho]
example := (C98_macd_signal (K := ℚ) (slow := 1) (fast := 2) (m := 2) (by norm_num) (by norm_num) (by norm_num) le_rfl [0, -1]).2 ⟨by simp, fun i hi o ho => by
  obtain rfl : i = 0 := by omega
  simpa using ho.symm, by simp, fun i j hij a b h1 h2 h3 h4 _ => by
  have := (List.getElem?_eq_some_iff.1 h2).1
  obtain ⟨rfl, rfl⟩ | ⟨rfl, rfl⟩ | rfl : i = 0 ∧ j = 1 ∨ i = 0 ∧ j = 2 ∨ i = 1 := by simp at this; omega
  · simp at h2; exact absurd h2.symm h4
  · simp at h1 h2; rw [← h1, ← h2]
  · simp at h1; exact absurd h1.symm h3⟩

end TS
