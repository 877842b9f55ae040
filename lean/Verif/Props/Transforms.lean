import Verif.Spec.Relations
import Verif.Props.Relations
import Verif.Props.Extrema
import Verif.Props.Trends
import Verif.Props.RiskRatio
import Verif.Props.Signals
import Mathlib.Algebra.Module.Rat
/-
C95: which transformations of the samples the operators commute with.
-/
namespace TS
open XR
variable {K : Type} [Field K] [LinearOrder K] [IsStrictOrderedRing K] [Transc K] [FloorRing K] {A B : Type}

omit [Field K] [LinearOrder K] [IsStrictOrderedRing K] [Transc K] [FloorRing K] in
theorem StreamsAs.passes {op : Operator (XR K)} {ser : List A → Val (XR K)} {outs : List B → Val (XR K)} {y : List A → B} (h : StreamsAs op ser outs y) (inj : ∀ a b, outs a = outs b → a = b) {f : A → A} {g : B → B} :
    PassesThrough op ser outs f g ↔ ∀ xs, xs ≠ [] → y (xs.map f) = g (y xs) := by
  obtain ⟨st, h1, -⟩ := h
  constructor
  · intro H xs hx
    obtain ⟨os, sf, s0, sf', s0', e, e'⟩ := H xs hx
    rw [h1 xs hx] at e
    rw [h1 _ (by simpa using hx)] at e'
    injection e with e
    injection e' with e'
    have i1 := inj _ _ (congrArg (·.1) e)
    have i2 := inj _ _ (congrArg (·.1) e')
    rw [← i1] at i2
    have hl : xs.length - 1 < xs.length := Nat.sub_lt (List.length_pos_iff.2 hx) one_pos
    have := congrArg (fun l => l[xs.length - 1]?) i2
    simp only [List.getElem?_map] at this
    rw [List.getElem?_eq_getElem (by simpa using hl), List.getElem?_eq_getElem (by simpa using hl), scan_getElem, Option.map_some, scan_getElem] at this
    simpa [show xs.length - 1 + 1 = xs.length by omega, ← List.map_take] using this
  · intro H xs hx
    refine ⟨_, _, _, st (xs.map f), st [], h1 xs hx, ?_⟩
    rw [h1 _ (by simpa using hx)]
    have : scan y [] (xs.map f) = (scan y [] xs).map g := by
      apply List.ext_getElem (by simp)
      intro i k1 k2
      have hi : i < xs.length := by simpa using k1
      rw [scan_getElem, List.getElem_map, scan_getElem, List.nil_append, List.nil_append, ← List.map_take, H _ (by rw [← List.length_pos_iff]; simp; omega)]
    rw [this]

theorem leastK_map {f : K → K} (hf : Monotone f) {l : List K} (hl : l ≠ []) : leastK (l.map f) = f (leastK l) :=
  least_eq ⟨List.mem_map_of_mem (leastK_least hl).1, fun x hx => by obtain ⟨y, hy, rfl⟩ := List.mem_map.1 hx; exact hf ((leastK_least hl).2 y hy)⟩

theorem greatestK_map {f : K → K} (hf : Monotone f) {l : List K} (hl : l ≠ []) : greatestK (l.map f) = f (greatestK l) :=
  greatest_eq ⟨List.mem_map_of_mem (greatestK_greatest hl).1, fun x hx => by obtain ⟨y, hy, rfl⟩ := List.mem_map.1 hx; exact hf ((greatestK_greatest hl).2 y hy)⟩

theorem mono_of_least {f : K → K} (h : ∀ a b : K, leastK [f a, f b] = f (leastK [a, b])) : Monotone f := fun a b hab => by
  have e : leastK [a, b] = a := least_eq ⟨by simp, by simpa using hab⟩
  have := h a b
  rw [e] at this
  rw [← this]
  exact (leastK_least (by simp)).2 _ (by simp)

theorem mono_of_greatest {f : K → K} (h : ∀ a b : K, greatestK [f a, f b] = f (greatestK [a, b])) : Monotone f := fun a b hab => by
  have e : greatestK [a, b] = b := greatest_eq ⟨by simp, by simpa using hab⟩
  have := h a b
  rw [e] at this
  rw [← this]
  exact (greatestK_greatest (by simp)).2 _ (by simp)

/-- **C95 Extrema** commute with exactly the increasing functions (not necessarily strictly). -/
theorem C95_global_min (f : K → K) : PassesThrough GlobalMinimum numbers numbers f f ↔ Monotone f := by
  rw [show (numbers : List K → Val (XR K)) = finSeries from rfl, globalMin_reals.passes fun _ _ => finSeries_inj]
  exact ⟨fun h => mono_of_least fun a b => h [a, b] (by simp), fun h xs hx => leastK_map h hx⟩
example := (C95_global_min (K := ℚ) (fun x => x ^ 3)).2 (Odd.strictMono_pow (by decide)).monotone
/-- The maximum so far as well, -/
theorem C95_global_max (f : K → K) : PassesThrough GlobalMaximum numbers numbers f f ↔ Monotone f := by
  rw [show (numbers : List K → Val (XR K)) = finSeries from rfl, globalMax_reals.passes fun _ _ => finSeries_inj]
  exact ⟨fun h => mono_of_greatest fun a b => h [a, b] (by simp), fun h xs hx => greatestK_map h hx⟩
example := (C95_global_max (K := ℚ) (fun x => x ^ 3)).2 (Odd.strictMono_pow (by decide)).monotone

/-- the minimum of the last `p >= 2` samples as well, -/
theorem C95_local_min {p : Nat} (hp : 2 ≤ p) (f : K → K) : PassesThrough (LocalMinimum (p : Int)) numbers numbers f f ↔ Monotone f := by
  rw [show (numbers : List K → Val (XR K)) = finSeries from rfl, (localMin_reals (by omega)).passes fun _ _ => finSeries_inj]
  refine ⟨fun h => mono_of_least fun a b => ?_, fun h xs hx => ?_⟩
  · simpa [window_all (show [b, a].length ≤ p by simpa using hp), window_all (show [f b, f a].length ≤ p by simpa using hp)] using h [b, a] (by simp)
  · rw [window_map, leastK_map h (window_ne_nil (by omega) hx)]
example := (C95_local_min (K := ℚ) (p := 3) (by norm_num) (fun x => x ^ 3)).2 (Odd.strictMono_pow (by decide)).monotone

/-- the maximum of the last `p >= 2` samples as well. -/
theorem C95_local_max {p : Nat} (hp : 2 ≤ p) (f : K → K) : PassesThrough (LocalMaximum (p : Int)) numbers numbers f f ↔ Monotone f := by
  rw [show (numbers : List K → Val (XR K)) = finSeries from rfl, (localMax_reals (by omega)).passes fun _ _ => finSeries_inj]
  refine ⟨fun h => mono_of_greatest fun a b => ?_, fun h xs hx => ?_⟩
  · simpa [window_all (show [b, a].length ≤ p by simpa using hp), window_all (show [f b, f a].length ≤ p by simpa using hp)] using h [b, a] (by simp)
  · rw [window_map, greatestK_map h (window_ne_nil (by omega) hx)]
example := (C95_local_max (K := ℚ) (p := 3) (by norm_num) (fun x => x ^ 3)).2 (Odd.strictMono_pow (by decide)).monotone

/-- **C95 Lag** commutes with exactly the functions that leave 0, its first outputs, alone. -/
theorem C95_lag {p : Nat} (hp : 0 < p) (f : K → K) : PassesThrough (Lag (p : Int)) numbers numbers f f ↔ f 0 = 0 := by
  rw [show (numbers : List K → Val (XR K)) = finSeries from rfl, (lag_reals hp).passes fun _ _ => finSeries_inj]
  refine ⟨fun h => ?_, fun h xs hx => ?_⟩
  · have := h [0] (by simp)
    rw [lagged, lagged] at this
    simpa [List.getElem?_eq_none, show p ≠ 0 by omega, Nat.one_le_iff_ne_zero] using this.symm
  · rw [lagged, lagged, ← List.map_reverse, List.getElem?_map]
    rcases xs.reverse[p]? with _ | v <;> simp [h]
example := (C95_lag (K := ℚ) (p := 2) (by norm_num) (fun x => x ^ 2)).2 (by norm_num)

/-- **C95 Momentum** commutes with exactly the additive functions. -/
theorem C95_momentum {p : Nat} (hp : 0 < p) (f : K → K) : PassesThrough (Momentum (p : Int)) numbers numbers f f ↔ ∀ a b, f (a + b) = f a + f b := by
  rw [show (numbers : List K → Val (XR K)) = finSeries from rfl, (momentum_reals hp).passes fun _ _ => finSeries_inj]
  refine ⟨fun h => ?_, fun h xs hx => ?_⟩
  · have key : ∀ a b, f (a - b) = f a - f b := fun a b => by
      have := h (b :: List.replicate (p - 1) 0 ++ [a]) (by simp)
      have e (u v w : K) : momentumK p (v :: List.replicate (p - 1) w ++ [u]) = u - v := by
        rw [momentumK, if_neg (by simp; omega), lagged]
        have : ((v :: List.replicate (p - 1) w ++ [u]).reverse)[p]? = some v := by
          rw [List.getElem?_reverse (by simp; omega), show (v :: List.replicate (p - 1) w ++ [u]).length - 1 - p = 0 by simp; omega]
          simp
        rw [this, List.getLastD_concat, Option.getD_some]
      rw [e, List.map_append, List.map_cons, List.map_replicate, List.map_cons, List.map_nil, e] at this
      exact this.symm
    have h0 : f 0 = 0 := by simpa using key 0 0
    intro a b
    have h1 := key a (-b)
    have h2 := key 0 b
    rw [h0, zero_sub, zero_sub] at h2
    rw [sub_neg_eq_add, h2, sub_neg_eq_add] at h1
    exact h1
  · have h0 : f 0 = 0 := by simpa using h 0 0
    have hs : ∀ a b, f (a - b) = f a - f b := fun a b => by have := h (a - b) b; rw [sub_add_cancel] at this; rw [this]; ring
    rw [momentumK, momentumK, List.length_map]
    split
    · exact h0.symm
    · rw [hs]
      have : lagged 0 p (xs.map f) = f (lagged 0 p xs) := by
        rw [lagged, lagged, ← List.map_reverse, List.getElem?_map]
        rcases xs.reverse[p]? with _ | v <;> simp [h0]
      rw [this, show (xs.map f).getLastD 0 = f (xs.getLastD 0) from ?_]
      rw [List.getLastD_eq_getLast?, List.getLastD_eq_getLast?, List.getLast?_map]
      rcases xs.getLast? with _ | v <;> simp [h0]
example := (C95_momentum (K := ℚ) (p := 2) (by norm_num) (fun x => 3 * x)).2 (by intros; ring)

omit [LinearOrder K] [IsStrictOrderedRing K] [Transc K] [FloorRing K] in
theorem additive_avg {f : K → K} (h : ∀ a b, f (a + b) = f a + f b) (q : ℚ) (x : K) : f (q * x) = q * f x :=
  map_ratCast_smul (AddMonoidHom.mk' f h) K K q x

omit [Transc K] in
theorem movingAvgK_additive {p : Nat} {f : K → K} (h : ∀ a b, f (a + b) = f a + f b) (xs : List K) : movingAvgK p (xs.map f) = f (movingAvgK p xs) := by
  have h0 : f 0 = 0 := by simpa using h 0 0
  rw [movingAvgK, movingAvgK, List.length_map]
  split
  · exact h0.symm
  · rw [window_map, avg, avg, List.length_map, show ((window p xs).map f).sum = f (window p xs).sum from ?_]
    · have := additive_avg h (1 / ((window p xs).length : ℚ)) (window p xs).sum
      push_cast at this
      rw [div_eq_mul_one_div, mul_comm, ← this]; ring_nf
    · exact ((AddMonoidHom.mk' f h).map_list_sum _).symm

omit [Transc K] in
theorem recursiveAvgK_additive {p : Nat} {f : K → K} (h : ∀ a b, f (a + b) = f a + f b) (w : ℚ) (xs : List K) :
    recursiveAvgK p (fun m x => m + (w : K) * (x - m)) (xs.map f) = f (recursiveAvgK p (fun m x => m + (w : K) * (x - m)) xs) := by
  have hs : ∀ a b, f (a - b) = f a - f b := fun a b => by have := h (a - b) b; rw [sub_add_cancel] at this; rw [this]; ring
  rw [recursiveAvgK, recursiveAvgK, ← List.map_take, movingAvgK_additive h, ← List.map_drop]
  generalize movingAvgK p (xs.take p) = m
  generalize xs.drop p = l
  induction l generalizing m with
  | nil => rfl
  | cons a l ih => simp only [List.map_cons, List.foldl_cons]; rw [← ih]; congr 1; rw [h, additive_avg h, hs]

theorem additive_of_avg {p : Nat} (hp : 2 ≤ p) {f : K → K} (h : ∀ xs, xs ≠ [] → movingAvgK p (xs.map f) = f (movingAvgK p xs) ∨ p < xs.length) (a b : K) : f (a + b) = f a + f b := by
  have hp0 : (p : K) ≠ 0 := by positivity
  have h0 : f 0 = 0 := by
    have := (h [0] (by simp)).resolve_right (by simp; omega)
    rw [movingAvgK_short (by simp; omega), movingAvgK_short (by simp; omega)] at this
    exact this.symm
  have e (u v : K) : movingAvgK p (u :: v :: List.replicate (p - 2) 0) = (u + v) / p := by
    rw [movingAvgK, if_neg (by simp; omega), window_all (by simp; omega), avg]
    simp [show p - 2 + 1 + 1 = p by omega]; ring
  have k (u v : K) : (f u + f v) / p = f ((u + v) / p) := by
    have := (h (u :: v :: List.replicate (p - 2) 0) (by simp)).resolve_right (by simp; omega)
    rw [e, List.map_cons, List.map_cons, List.map_replicate, h0, e] at this
    exact this
  have k1 := k a b
  have k2 := k (a + b) 0
  rw [add_zero, h0, add_zero, ← k1, div_left_inj' hp0] at k2
  exact k2

/-- **C95 Averages** with a period of at least 2 commute with exactly the additive functions. -/
theorem C95_sma {p : Nat} (hp : 2 ≤ p) (f : K → K) : PassesThrough (SMA (p : Int)) numbers numbers f f ↔ ∀ a b, f (a + b) = f a + f b := by
  rw [show (numbers : List K → Val (XR K)) = finSeries from rfl, (sma_reals (by omega)).passes fun _ _ => finSeries_inj]
  exact ⟨fun h => additive_of_avg hp fun xs hx => .inl (h xs hx), fun h xs _ => movingAvgK_additive h xs⟩
example := (C95_sma (K := ℚ) (p := 2) (by norm_num) (fun x => 3 * x)).2 (by intros; ring)

omit [LinearOrder K] [IsStrictOrderedRing K] [Transc K] [FloorRing K] in
theorem recursiveAvgK_le {p : Nat} {f : K → K → K} {l : List K} (h : l.length ≤ p) : recursiveAvgK p f l = movingAvgK p l := by
  rw [recursiveAvgK, List.drop_eq_nil_of_le h, List.foldl_nil, List.take_of_length_le h]

/-- The exponential average as well, -/
theorem C95_ema {p : Nat} (hp : 2 ≤ p) (f : K → K) : PassesThrough (EMA (p : Int)) numbers numbers f f ↔ ∀ a b, f (a + b) = f a + f b := by
  rw [show (numbers : List K → Val (XR K)) = finSeries from rfl, (ema_reals (by omega)).passes fun _ _ => finSeries_inj]
  refine ⟨fun h => additive_of_avg hp fun xs hx => ?_, fun h xs _ => by simpa using recursiveAvgK_additive h (2 / ((p : ℚ) + 1)) xs⟩
  by_cases hl : xs.length ≤ p
  · left
    have := h xs hx
    rwa [recursiveAvgK_le (by simpa using hl), recursiveAvgK_le hl] at this
  · right; omega
example := (C95_ema (K := ℚ) (p := 2) (by norm_num) (fun x => 3 * x)).2 (by intros; ring)

/-- the rolling average as well. -/
theorem C95_rma {p : Nat} (hp : 2 ≤ p) (f : K → K) : PassesThrough (RMA (p : Int)) numbers numbers f f ↔ ∀ a b, f (a + b) = f a + f b := by
  rw [show (numbers : List K → Val (XR K)) = finSeries from rfl, (rma_reals (by omega)).passes fun _ _ => finSeries_inj]
  refine ⟨fun h => additive_of_avg hp fun xs hx => ?_, fun h xs _ => by simpa using recursiveAvgK_additive h (1 / (p : ℚ)) xs⟩
  by_cases hl : xs.length ≤ p
  · left
    have := h xs hx
    rwa [recursiveAvgK_le (by simpa using hl), recursiveAvgK_le hl] at this
  · right; omega
example := (C95_rma (K := ℚ) (p := 2) (by norm_num) (fun x => 3 * x)).2 (by intros; ring)

theorem zc_reals : StreamsAs (ZeroCrossoverSignal : Operator (XR K)) finSeries vIBuf (fun l => turnAt l (l.length - 1)) := by
  have := ((C33_zero_crossover_streams (α := XR K) []).scalarInt (y := fun h => TFNum.toInt (crossing h))).comap (y' := fun l : List K => turnAt l (l.length - 1)) XR.fin id (fun l hl => by
    have := crossing_fin (us := l) (i := l.length - 1) (Nat.sub_lt (List.length_pos_iff.2 hl) one_pos)
    rw [List.take_of_length_le (by simp; omega)] at this
    exact this)
  simpa only [List.map_id] using this

/-- **C95 Zero crossover**: transforming the samples leaves the signals of every series unchanged exactly if it keeps the sign of every number. -/
theorem C95_zero_crossover (f : K → K) : PassesThrough ZeroCrossoverSignal numbers vIBuf f id ↔ ∀ x, (0 < f x ↔ 0 < x) ∧ (f x < 0 ↔ x < 0) := by
  rw [show (numbers : List K → Val (XR K)) = finSeries from rfl, zc_reals.passes fun _ _ => vIBuf_inj]
  constructor
  · intro h
    have t2 (a b : K) : turnAt [a, b] ([a, b].length - 1) = if b = 0 ∨ sgn b = (if a < 0 then -1 else 1) then 0 else sgn b := by
      have : lastSign [a] = if a < 0 then -1 else 1 := by
        rcases lt_trichotomy a 0 with h | h | h
        · simp [lastSign, sgn, h, h.ne, h.not_gt]
        · simp [lastSign, h]
        · simp [lastSign, sgn, h, h.ne', h.not_gt]
      simp [turnAt, this]
    have h2 (a b : K) : (if f b = 0 ∨ sgn (f b) = (if f a < 0 then -1 else 1) then 0 else sgn (f b)) = if b = 0 ∨ sgn b = (if a < 0 then -1 else 1) then 0 else sgn b := by
      rw [← t2, ← t2]; exact h [a, b] (by simp)
    have key : ∀ a b : K, a < 0 → 0 < b → f a < 0 ∧ 0 < f b := fun a b ha hb => by
      have := h2 a b
      rw [show sgn b = 1 by simp [sgn, hb], if_pos ha, if_neg (c := b = 0 ∨ (1 : Int) = -1) (by simp [hb.ne'])] at this
      by_cases hn : f b = 0 ∨ sgn (f b) = (if f a < 0 then -1 else 1)
      · rw [if_pos hn] at this; simp at this
      · rw [if_neg hn] at this
        have hb' : 0 < f b := by
          by_contra hc
          rw [sgn, if_neg hc] at this
          split at this <;> simp at this
        refine ⟨?_, hb'⟩
        by_contra hc
        exact hn (.inr (by simp [hc, sgn, hb']))
    have pos : ∀ b : K, 0 < b → 0 < f b := fun b hb => (key (-1) b (by norm_num) hb).2
    have neg : ∀ a : K, a < 0 → f a < 0 := fun a ha => (key a 1 ha one_pos).1
    have zero : f 0 = 0 := by
      have e1 := h2 (-1) 0
      have e2 := h2 1 0
      rw [if_pos (neg _ (by norm_num)), if_pos (c := (0 : K) = 0 ∨ _) (.inl rfl)] at e1
      rw [if_neg (pos _ one_pos).not_gt, if_pos (c := (0 : K) = 0 ∨ _) (.inl rfl)] at e2
      rcases lt_trichotomy (f 0) 0 with h | h | h
      · simp [sgn, h, h.ne, h.not_gt] at e2
      · exact h
      · simp [sgn, h, h.ne'] at e1
    intro x
    rcases lt_trichotomy x 0 with h | rfl | h
    · have := neg x h; exact ⟨⟨fun c => absurd c this.not_gt, fun c => absurd c h.not_gt⟩, ⟨fun _ => h, fun _ => this⟩⟩
    · simp [zero]
    · have := pos x h; exact ⟨⟨fun _ => h, fun _ => this⟩, ⟨fun c => absurd c this.not_gt, fun c => absurd c h.not_gt⟩⟩
  · intro h xs hx
    have hz (x : K) : f x = 0 ↔ x = 0 := by
      have := h x
      constructor
      · intro e; rw [e] at this; simp at this; exact le_antisymm this.1 this.2
      · rintro rfl; simp at this; exact le_antisymm this.1 this.2
    have hsg (x : K) : sgn (f x) = sgn x := by simp [sgn, h x]
    have hls (l : List K) : lastSign (l.map f) = lastSign l := by
      simp [lastSign, List.foldl_map, hz, hsg]
    have hg (i : Nat) (hi : i < xs.length) : (xs.map f).getD i 0 = f (xs.getD i 0) := by
      simp [List.getD_eq_getElem?_getD, List.getElem?_eq_getElem hi]
    have hl : xs.length - 1 < xs.length := Nat.sub_lt (List.length_pos_iff.2 hx) one_pos
    simp only [turnAt, List.length_map, hg _ hl, hz, hsg, ← List.map_take, hls, id]
example := (C95_zero_crossover (K := ℚ) (fun x => 3 * x)).2 (by intro x; constructor <;> constructor <;> intro h <;> linarith)

end TS
