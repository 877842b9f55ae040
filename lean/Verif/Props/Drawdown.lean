import Verif.Props.Bands
import Verif.Props.Utils
import Mathlib.Order.Bounds.Basic
/-
C47, C48: drawdown and its segmentation.
-/
namespace TS
open PyVal

/-- the pair of a series of numbers and a series of ints -/
abbrev numInts {α : Type} (l : List (α × Int)) : Val α := .tup [vSBuf (l.map Prod.fst), vIBuf (l.map Prod.snd)]

/-! ### C47 -/

/-- **C47, every arithmetic.** -/
theorem C47_drawdown_streams {α : Type} [TFNum α] :
    StreamsAs (Drawdown : Operator α) vSBuf numInts (fun h => (drawdownOf (peakOf h.dropLast) (h.getLastD Arith.zero), daysSincePeak h.reverse)) :=
  drawdown_tracks.streams nums_ok (dec := fun z : α × Int => .tup [vS z.1, vI z.2])
    (fun l => isSeries_tup_map (es := [fun z : α × Int => vS z.1, fun z => vI z.2]) (.cons (numSeries_map _ l) (.cons (intSeries_map _ l) .nil))) fun _ => rfl
example := C47_drawdown_streams (α := XR ℚ)

section
variable {K : Type} [Field K] [LinearOrder K] [IsStrictOrderedRing K] [Transc K] [FloorRing K]

/-- the maximum of zero and the prices -/
def peakK (l : List K) : K := l.foldl (fun p v => max v p) 0

theorem peakK_snoc (l : List K) (x : K) : peakK (l ++ [x]) = max x (peakK l) := by simp [peakK]

theorem peak_fin (l : List K) : peakOf (l.map XR.fin) = XR.fin (peakK l) := by
  induction l using List.reverseRecOn with
  | nil => simp [peakOf, peakK]
  | append_singleton l x ih =>
    rw [List.map_append, List.map_cons, List.map_nil, peakK_snoc, ← XR.max_fin, ← ih]
    simp [peakOf]

theorem peakK_greatest (l : List K) : IsGreatest {y | y = 0 ∨ y ∈ l} (peakK l) := by
  induction l using List.reverseRecOn with
  | nil => exact ⟨.inl rfl, fun y hy => by rcases hy with rfl | hy; exacts [le_refl _, absurd hy (by simp)]⟩
  | append_singleton l x ih =>
    rw [peakK_snoc]
    constructor
    · rcases max_choice x (peakK l) with h | h <;> rw [h]
      · exact .inr (by simp)
      · rcases ih.1 with h | h
        · exact .inl h
        · exact .inr (by simp [h])
    · rintro y (rfl | hy)
      · exact le_trans (ih.2 (.inl rfl)) (le_max_right _ _)
      · rcases List.mem_append.1 hy with h | h
        · exact le_trans (ih.2 (.inr h)) (le_max_right _ _)
        · rw [List.mem_singleton.1 h]; exact le_max_left _ _

theorem peakK_nonneg (l : List K) : 0 ≤ peakK l := (peakK_greatest l).2 (.inl rfl)

/-- loss with respect to a peak -/
def drawdownK (peak x : K) : K := if |peak| < 1 / 10000 then 0 else min 0 (x / peak - 1)

theorem drawdownOf_fin (peak x : K) : drawdownOf (XR.fin peak) (XR.fin x) = XR.fin (drawdownK peak x) := by
  unfold drawdownOf drawdownK
  simp only [XR.abs_fin, XR.ofRat_eq, XR.lt_fin, decide_eq_true_eq]
  have e : ((1 / 10000 : ℚ) : K) = 1 / 10000 := by norm_num
  rw [e]
  split
  · simp
  · rename_i h
    have hp : peak ≠ 0 := by rintro rfl; apply h; rw [abs_zero]; positivity
    rw [XR.fin_div _ _ hp, XR.fin_sub, XR.min_fin]
    simp

/-- number of steps since the peak rose, prices newest first -/
def daysK : List K → Int
  | [] => 0
  | x :: older => if 1 / 10000 < |max x (peakK older.reverse) - peakK older.reverse| then 0 else daysK older + 1

theorem days_fin (l : List K) : daysSincePeak (l.map XR.fin) = daysK l := by
  induction l with
  | nil => rfl
  | cons x l ih =>
    have e : ((1 / 10000 : ℚ) : K) = 1 / 10000 := by norm_num
    simp only [List.map_cons, daysSincePeak, daysK, ← List.map_reverse, peak_fin, XR.max_fin, XR.fin_sub, XR.abs_fin, XR.ofRat_eq, XR.lt_fin, e, ih,
      decide_eq_true_eq]

/-- the two outputs on numbers -/
def ddK (l : List K) : K × Int := (drawdownK (peakK l.dropLast) (l.getLastD 0), daysK l.reverse)

/-- a series of finite numbers and one of ints -/
abbrev finInts (l : List (K × Int)) : Val (XR K) := .tup [finSeries (l.map Prod.fst), vIBuf (l.map Prod.snd)]

theorem dd_reals : StreamsAs (Drawdown : Operator (XR K)) finSeries (fun l => numInts (l.map (Prod.map XR.fin id))) ddK :=
  C47_drawdown_streams.comap XR.fin (Prod.map XR.fin id) fun l hl => by
    have e : (l.map XR.fin).getLastD (Arith.zero : XR K) = XR.fin (l.getLastD 0) := by
      induction l using List.reverseRecOn with
      | nil => exact absurd rfl hl
      | append_singleton l x _ => simp
    rw [e, ← List.map_dropLast, peak_fin, drawdownOf_fin, ← List.map_reverse, days_fin]
    rfl

theorem numInts_fin (l : List (K × Int)) : numInts (l.map (Prod.map XR.fin id)) = finInts l := by
  simp only [numInts, finInts, finSeries, List.map_map]
  rfl

/-- **C47 Drawdown**, exact arithmetic.  `peak i` is the maximum of 0 and all prices before step `i`.  The first output is zero when that peak is below
0.0001, else `min 0 (x / peak - 1)`; it is never positive, and at least -1 for non-negative prices.  The second output is zero when
the peak rises by more than 0.0001, else one more than before. -/
theorem C47_drawdown {xs : List K} (hx : xs ≠ []) :
    ∃ (os : List (K × Int)) (sf s0 : Val (XR K)) (peak : Nat → K), call Drawdown (finSeries xs) none = .ok (finInts os, sf, s0) ∧
      (∀ i, IsGreatest {y | y = 0 ∨ y ∈ xs.take i} (peak i)) ∧ ∃ hl : os.length = xs.length, ∀ i (hi : i < xs.length),
        os[i].1 = (if |peak i| < 1 / 10000 then 0 else min 0 (xs[i] / peak i - 1)) ∧
        os[i].1 ≤ 0 ∧ (0 ≤ xs[i] → -1 ≤ os[i].1) ∧
        os[i].2 = (if 1 / 10000 < peak (i + 1) - peak i then 0 else (if h : i = 0 then 0 else os[i - 1].2) + 1) := by
  obtain ⟨os, sf, s0, h1, hl, h2⟩ := (dd_reals (K := K)).at hx
  rw [numInts_fin] at h1
  refine ⟨os, sf, s0, fun i => peakK (xs.take i), h1, fun i => peakK_greatest _, hl, fun i hi => ?_⟩
  have e1 : os[i].1 = drawdownK (peakK (xs.take i)) xs[i] := by
    rw [h2 i hi, ddK, List.take_succ_eq_append_getElem hi, List.dropLast_concat, getLastD_snoc]
  have e2 : ∀ j (hj : j < xs.length), os[j].2 = daysK (xs.take (j + 1)).reverse := fun j hj => by rw [h2 j hj, ddK]
  refine ⟨e1, ?_, fun h0 => ?_, ?_⟩
  · rw [e1, drawdownK]; split
    · exact le_refl _
    · exact min_le_left _ _
  · rw [e1, drawdownK]; split
    · norm_num
    · refine le_min (by norm_num) ?_
      have := div_nonneg h0 (peakK_nonneg (xs.take i))
      linarith
  · have ep : peakK (xs.take (i + 1)) = max xs[i] (peakK (xs.take i)) := by rw [List.take_succ_eq_append_getElem hi, peakK_snoc]
    have habs : |max xs[i] (peakK (xs.take i)) - peakK (xs.take i)| = max xs[i] (peakK (xs.take i)) - peakK (xs.take i) :=
      abs_of_nonneg (sub_nonneg.2 (le_max_right _ _))
    rw [e2 i hi, List.take_succ_eq_append_getElem hi, List.reverse_append, List.reverse_singleton, List.singleton_append, daysK, List.reverse_reverse, habs]
    simp only [ep]
    split
    · rfl
    · by_cases h : i = 0
      · subst h; simp [daysK]
      · rw [dif_neg h, e2 (i - 1) (by omega), Nat.sub_add_cancel (by omega)]

end

example : output (call (Drawdown (α := XR ℚ)) (series [10, 5, 8, 20, 20, 15]) none) =
    .ok (.tup [series [0, -1 / 2, -1 / 5, 0, 0, -1 / 4], vIBuf [0, 1, 2, 0, 1, 2]]) := by decide +kernel

/-! ### C48 -/

/-- Every run of non-zero counts is 1, 2, 3, ... ; `c` is the count before. -/
def Counts : Int → List Int → Prop
  | _, [] => True
  | c, x :: l => (x = 0 ∨ x = c + 1) ∧ Counts x l

/-- starts and lengths of the runs of non-zero counts; `c` elements of the current run are before position `k` -/
def runsFrom : Nat → Nat → List Int → List (Nat × Nat)
  | c, k, [] => if 0 < c then [(k - c, c)] else []
  | c, k, x :: l => if x = 0 then (if 0 < c then [(k - c, c)] else []) ++ runsFrom 0 (k + 1) l else runsFrom (c + 1) (k + 1) l

/-- positions with the value 1, counted from `k` -/
def onesFrom : Nat → List Int → List Int
  | _, [] => []
  | k, x :: l => if x = 1 then (k : Int) :: onesFrom (k + 1) l else onesFrom (k + 1) l

/-- positions of positive values followed by zero (or the end), counted from `k`; `prev` is the value before -/
def lastsFrom : Int → Nat → List Int → List Int
  | prev, k, [] => if 0 < prev then [(k : Int) - 1] else []
  | prev, k, x :: l => (if 0 < prev ∧ x = 0 then [(k : Int) - 1] else []) ++ lastsFrom x (k + 1) l

theorem ones_runs : ∀ (l : List Int) (c k : Nat), c ≤ k → Counts c l →
    (if 0 < c then [((k - c : Nat) : Int)] else []) ++ onesFrom k l = (runsFrom c k l).map fun r => (r.1 : Int) := by
  intro l
  induction l with
  | nil => intro c k _ _; simp only [onesFrom, runsFrom, List.append_nil]; split <;> rfl
  | cons x l ih =>
    intro c k hck hl
    obtain ⟨hx, hl⟩ := hl
    rcases hx with rfl | rfl
    · have := ih 0 (k + 1) (by omega) hl
      simp only [lt_self_iff_false, if_false, List.nil_append] at this
      rw [onesFrom, if_neg (by decide : ¬ (0 : Int) = 1), runsFrom, if_pos rfl, List.map_append, ← this]
      congr 1
      split <;> rfl
    · have := ih (c + 1) (k + 1) (by omega) (by exact_mod_cast hl)
      rw [if_pos (by omega)] at this
      rw [runsFrom, if_neg (show ¬ (c : Int) + 1 = 0 by omega), ← this, onesFrom]
      by_cases hc : c = 0
      · subst hc; simp
      · rw [if_pos (by omega), if_neg (by omega)]
        congr 3
        omega

theorem lasts_runs : ∀ (l : List Int) (c k : Nat), c ≤ k → Counts c l →
    lastsFrom c k l = (runsFrom c k l).map fun r => (r.1 : Int) + r.2 - 1 := by
  intro l
  induction l with
  | nil =>
    intro c k hck _
    simp only [lastsFrom, runsFrom]
    by_cases hc : 0 < c
    · rw [if_pos (by omega), if_pos hc, List.map_singleton]; congr 1; simp only; omega
    · rw [if_neg (by omega), if_neg hc]; rfl
  | cons x l ih =>
    intro c k hck hl
    obtain ⟨hx, hl⟩ := hl
    rcases hx with rfl | rfl
    · have := ih 0 (k + 1) (by omega) hl
      rw [lastsFrom, runsFrom, if_pos rfl, List.map_append, ← this]
      congr 1
      by_cases hc : 0 < c
      · rw [if_pos ⟨by omega, rfl⟩, if_pos hc, List.map_singleton]; congr 1; simp only; omega
      · rw [if_neg (by omega), if_neg hc]; rfl
    · have := ih (c + 1) (k + 1) (by omega) (by exact_mod_cast hl)
      rw [lastsFrom, runsFrom, if_neg (by omega), if_neg (by omega), ← this]
      rfl

/-- The runs of `zs`: its maximal non-empty blocks without a zero count. -/
def runs {A : Type} (zs : List (A × Int)) : List (List (A × Int)) := (zs.splitOnP fun z => z.2 == 0).filter fun r => !r.isEmpty

theorem runs_slices {A : Type} (zs : List (A × Int)) : ∀ (rest cur pre : List (A × Int)), zs = pre ++ cur ++ rest →
    ((rest.splitOnPPrepend (fun z => z.2 == 0) cur.reverse).filter fun r => !r.isEmpty) =
      (runsFrom cur.length (pre.length + cur.length) (rest.map Prod.snd)).map fun r => (zs.drop r.1).take r.2 := by
  intro rest
  induction rest with
  | nil =>
    intro cur pre e
    rw [List.splitOnPPrepend_nil, List.reverse_reverse, List.map_nil, runsFrom]
    cases cur with
    | nil => rfl
    | cons a t =>
      subst e
      simp
  | cons z rest ih =>
    intro cur pre e
    rw [List.map_cons, runsFrom]
    by_cases hz : z.2 = 0
    · rw [List.splitOnPPrepend_cons_pos (by simpa using hz), List.reverse_reverse, if_pos hz, List.map_append]
      have := ih [] (pre ++ cur ++ [z]) (by rw [e]; simp)
      rw [List.reverse_nil, List.splitOnPPrepend_nil_right] at this
      rw [List.filter_cons]
      have e2 : (pre ++ cur ++ [z]).length + ([] : List (A × Int)).length = pre.length + cur.length + 1 := by simp; omega
      rw [e2] at this
      cases cur with
      | nil => simpa using this
      | cons a t =>
        simp only [List.isEmpty_cons, Bool.not_false, if_true, this, List.length_cons, Nat.zero_lt_succ, List.map_cons, List.map_nil, List.length_nil]
        rw [List.singleton_append, List.cons.injEq]
        refine ⟨?_, rfl⟩
        subst e
        simp
    · rw [List.splitOnPPrepend_cons_neg (by simpa using hz), if_neg hz]
      have := ih (cur ++ [z]) pre (by rw [e]; simp)
      rw [List.reverse_append, List.reverse_singleton, List.singleton_append, List.length_append, List.length_singleton, ← Nat.add_assoc] at this
      exact this

/-- Within bounds: the runs lie in the list and are not empty. -/
theorem runsFrom_bounds : ∀ (l : List Int) (c k : Nat), c ≤ k → ∀ r ∈ runsFrom c k l, 0 < r.2 ∧ r.1 + r.2 ≤ k + l.length := by
  intro l
  induction l with
  | nil =>
    intro c k h r hr
    simp only [runsFrom] at hr
    split at hr
    · simp only [List.mem_singleton] at hr; subst hr; simp only [List.length_nil]; omega
    · simp at hr
  | cons x l ih =>
    intro c k h r hr
    rw [runsFrom] at hr
    simp only [List.length_cons]
    split at hr
    · rcases List.mem_append.1 hr with hr | hr
      · split at hr
        · simp only [List.mem_singleton] at hr; subst hr; simp only; omega
        · simp at hr
      · have := ih 0 (k + 1) (by omega) r hr; omega
    · have := ih (c + 1) (k + 1) (by omega) r hr; omega

/-- The counts of a run are 1, 2, ..., so their maximum is its length. -/
theorem runs_max : ∀ (l : List Int) (c k : Nat), c ≤ k → Counts c l → ∀ (full : List Int), full.drop k = l → (∀ j, j < c → full[k - c + j]? = some ((j : Int) + 1)) →
    ∀ r ∈ runsFrom c k l, ∀ j, j < r.2 → full[r.1 + j]? = some ((j : Int) + 1) := by
  intro l
  induction l with
  | nil =>
    intro c k _ _ full _ hc r hr
    simp only [runsFrom] at hr
    split at hr
    · simp only [List.mem_singleton] at hr; subst hr; exact hc
    · simp at hr
  | cons x l ih =>
    intro c k hck hl full hd hc r hr
    obtain ⟨hx, hl⟩ := hl
    have hd' : full.drop (k + 1) = l := by rw [← List.drop_drop, hd]; rfl
    have hk : full[k]? = some x := by have := congrArg (·[0]?) hd; simpa using this
    rw [runsFrom] at hr
    rcases hx with rfl | rfl
    · rw [if_pos rfl] at hr
      rcases List.mem_append.1 hr with hr | hr
      · split at hr
        · simp only [List.mem_singleton] at hr; subst hr; exact hc
        · simp at hr
      · exact ih 0 (k + 1) (by omega) hl full hd' (by omega) r hr
    · rw [if_neg (by omega)] at hr
      refine ih (c + 1) (k + 1) (by omega) (by exact_mod_cast hl) full hd' (fun j hj => ?_) r hr
      rw [Nat.add_sub_add_right]
      by_cases h : j < c
      · exact hc j h
      · have : j = c := by omega
        subst this
        rw [Nat.sub_add_cancel hck, hk]

theorem masked_range : ∀ (d : List Int) (k n : Nat) (_ : d.length ≤ n), masked (d.map fun x => decide (x = 1)) ((List.range' k n).map Int.ofNat) = onesFrom k d := by
  intro d
  induction d with
  | nil => intro k n _; simp [masked, onesFrom]
  | cons x d ih =>
    intro k n hn
    obtain ⟨n, rfl⟩ : ∃ m, n = m + 1 := ⟨n - 1, by simp at hn; omega⟩
    have := ih (k + 1) n (by simpa using hn)
    rw [List.range'_succ, List.map_cons, List.map_cons, onesFrom]
    by_cases hx : x = 1
    · simp only [hx, decide_true, masked_cons_true, this, if_true]; rfl
    · simp only [hx, decide_false, masked_cons_false, this, if_false]

theorem masked_ends : ∀ (d : List Int) (prev : Int) (k n : Nat) (_ : d.length + 1 ≤ n),
    masked (mapConsecutiveFn (fun x y => decide (y > 0) && decide (x = 0)) (prev :: d ++ [0])) ((List.range' k n).map Int.ofNat) = lastsFrom prev (k + 1) d := by
  intro d
  induction d with
  | nil =>
    intro prev k n hn
    obtain ⟨n, rfl⟩ : ∃ m, n = m + 1 := ⟨n - 1, by simp at hn; omega⟩
    rw [List.range'_succ]
    by_cases h : 0 < prev
    · simp [mapConsecutiveFn, masked, lastsFrom, h]
    · simp [mapConsecutiveFn, masked, lastsFrom, h]
  | cons x d ih =>
    intro prev k n hn
    obtain ⟨n, rfl⟩ : ∃ m, n = m + 1 := ⟨n - 1, by simp at hn; omega⟩
    have := ih x (k + 1) n (by simpa using hn)
    have e : mapConsecutiveFn (fun x y => decide (y > 0) && decide (x = 0)) (prev :: (x :: d) ++ [0]) =
        (decide (prev > 0) && decide (x = 0)) :: mapConsecutiveFn (fun x y => decide (y > 0) && decide (x = 0)) (x :: d ++ [0]) := by
      simp [mapConsecutiveFn]
    rw [e, List.range'_succ, List.map_cons, lastsFrom]
    by_cases h : 0 < prev ∧ x = 0
    · have hb : (decide (prev > 0) && decide (x = 0)) = true := by simpa using h
      rw [hb, masked_cons_true, this, if_pos h]
      simp
    · have hb : (decide (prev > 0) && decide (x = 0)) = false := by simpa using h
      rw [hb, masked_cons_false, this, if_neg h, List.nil_append]

theorem intMax_count (n : Nat) (l : List Int) (hl : l.length = n + 1) (h : ∀ j, j < n + 1 → l[j]? = some ((j : Int) + 1)) : intMax l = ((n + 1 : Nat) : Int) := by
  have e : l = (List.range (n + 1)).map fun j => ((j : Nat) : Int) + 1 := by
    apply List.ext_getElem? 
    intro j
    by_cases hj : j < n + 1
    · rw [h j hj]; simp [hj]
    · rw [List.getElem?_eq_none (by omega), List.getElem?_eq_none (by simp; omega)]
  subst e
  unfold intMax
  have : ∀ (m : Nat) (a : Int), a ≤ 0 → ((List.range m).map fun j => ((j : Nat) : Int) + 1).foldl Max.max a = if m = 0 then a else m := by
    intro m
    induction m with
    | zero => intro a _; rfl
    | succ m ih =>
      intro a ha
      rw [List.range_succ, List.map_append, List.foldl_append, ih a ha]
      simp only [List.map_cons, List.map_nil, List.foldl_cons, List.foldl_nil]
      split
      · subst_vars; simp; omega
      · simp
  rw [this _ _ (by decide), if_neg (by omega)]

theorem pySlice_nat {A : Type} (l : List A) (s n : Nat) : pySlice l s ((s + n : Nat) : Int) = (l.drop s).take n := by
  unfold pySlice
  simp only [Int.not_lt.2 (Int.natCast_nonneg _), if_false, Int.toNat_natCast]
  rw [List.drop_take]
  congr 1
  omega

/-- **C48, every arithmetic**: for counts that run 1, 2, 3, ... from zero, `details` gives, run by run, the minimum of the drawdowns over the run and the
length of the run. -/
theorem C48_details {α : Type} [TFNum α] (zs : List (α × Int)) (hc : Counts 0 (zs.map Prod.snd)) :
    drawdownDetails (zs.map Prod.fst) (zs.map Prod.snd) =
      .ok ((runs zs).map fun r => (Arith.redMin (r.map Prod.fst), (r.length : Int))) := by
  set days := zs.map Prod.snd with hdays
  have hlen : days.length = zs.length := by simp [hdays]
  have hle : ((0 : Int) :: days ++ [0]).length - 1 = days.length + 1 := by simp
  have hR := runsFrom_bounds days 0 0 (le_refl _)
  have hone : masked ((0 :: days ++ [0]).map fun x => decide (x = 1)) ((List.range ((0 :: days ++ [0]).length - 1)).map Int.ofNat) =
      (runsFrom 0 0 days).map fun r => (r.1 : Int) + 1 := by
    have h1 : onesFrom 1 days = (onesFrom 0 days).map (· + 1) := by
      have : ∀ (l : List Int) (k : Nat), onesFrom (k + 1) l = (onesFrom k l).map (· + 1) := by
        intro l
        induction l with
        | nil => intro k; rfl
        | cons x l ih => intro k; rw [onesFrom, onesFrom, ih]; split <;> simp
      exact this days 0
    have h2 := ones_runs days 0 0 (le_refl _) (by exact_mod_cast hc)
    simp only [lt_self_iff_false, if_false, List.nil_append] at h2
    rw [h2, List.map_map] at h1
    rw [hle, List.range_eq_range', List.range'_succ]
    have : (0 :: days ++ [0]).map (fun x : Int => decide (x = 1)) = false :: ((days.map fun x => decide (x = 1)) ++ [false]) := by simp
    rw [this, List.map_cons, masked_cons_false]
    have h3 : masked ((days.map fun x => decide (x = 1)) ++ [false]) ((List.range' (0 + 1) days.length).map Int.ofNat) =
        masked (days.map fun x => decide (x = 1)) ((List.range' (0 + 1) days.length).map Int.ofNat) := by
      unfold masked
      rw [List.zip_eq_zipWith, List.zip_eq_zipWith]
      have : ∀ (a : List Bool) (b : List Int), b.length ≤ a.length → List.zipWith Prod.mk (a ++ [false]) b = List.zipWith Prod.mk a b := by
        intro a
        induction a with
        | nil => intro b hb; simp at hb; subst hb; rfl
        | cons x a ih =>
          intro b hb
          cases b with
          | nil => rfl
          | cons y b => simp [ih b (by simpa using hb)]
      rw [this _ _ (by simp)]
    rw [h3, masked_range _ _ _ (le_refl _), h1]
    rfl
  have hend : masked (mapConsecutiveFn (fun x y => decide (y > 0) && decide (x = 0)) (0 :: days ++ [0])) ((List.range ((0 :: days ++ [0]).length - 1)).map Int.ofNat) =
      (runsFrom 0 0 days).map fun r => (r.1 : Int) + r.2 := by
    rw [hle, List.range_eq_range', masked_ends _ _ _ _ (le_refl _)]
    have h1 : ∀ (l : List Int) (p : Int) (k : Nat), lastsFrom p (k + 1) l = (lastsFrom p k l).map (· + 1) := by
      intro l
      induction l with
      | nil => intro p k; simp only [lastsFrom]; split <;> simp
      | cons x l ih => intro p k; rw [lastsFrom, lastsFrom, ih, List.map_append]; split <;> simp
    have := lasts_runs days 0 0 (le_refl _) (by exact_mod_cast hc)
    rw [Nat.cast_zero] at this
    rw [h1, this, List.map_map]
    refine List.map_congr_left fun r _ => ?_
    simp
  have f1 := (C54_filter_with_mask ((0 :: days ++ [0]).map fun x => decide (x = 1)) ((List.range ((0 :: days ++ [0]).length - 1)).map Int.ofNat) _).2
    ⟨fun i hi => by
      rw [List.getElem?_map] at hi
      simp only [List.length_map, List.length_range]
      obtain ⟨x, hx, hx1⟩ := Option.map_eq_some_iff.1 hi
      have hlt := (List.getElem?_eq_some_iff.1 hx).1
      by_contra hcon
      have : i = days.length + 1 := by simp at hlt hcon; omega
      subst this
      rw [show (0 : Int) :: days ++ [0] = (0 :: days) ++ [0] from rfl, List.getElem?_append_right (by simp)] at hx
      simp at hx
      subst hx
      simp at hx1, rfl⟩
  have f2 := (C54_filter_with_mask (mapConsecutiveFn (fun x y => decide (y > 0) && decide (x = 0)) (0 :: days ++ [0]))
    ((List.range ((0 :: days ++ [0]).length - 1)).map Int.ofNat) _).2
    ⟨fun i hi => by
      have := (List.getElem?_eq_some_iff.1 hi).1
      simp only [mapConsecutiveFn, List.length_map, List.length_zip] at this
      simp only [List.length_map, List.length_range]
      simp at this ⊢
      omega, rfl⟩
  have g1 : filterWithMask ((0 :: days ++ [0]).map fun x => decide (x = 1)) ((List.range ((0 :: days ++ [0]).length - 1)).map Int.ofNat) = .ok ((runsFrom 0 0 days).map fun r => (r.1 : Int) + 1) := by
    rw [← hone]; exact f1
  have g2 : filterWithMask (mapConsecutiveFn (fun x y => decide (y > 0) && decide (x = 0)) (0 :: days ++ [0])) ((List.range ((0 :: days ++ [0]).length - 1)).map Int.ofNat) =
      .ok ((runsFrom 0 0 days).map fun r => (r.1 : Int) + r.2) := by
    rw [← hend]; exact f2
  unfold drawdownDetails
  dsimp only
  rw [g1, g2]
  have hrs := runs_slices zs zs [] [] (by simp)
  rw [List.reverse_nil, List.splitOnPPrepend_nil_right] at hrs
  simp only [List.length_nil, Nat.add_zero, ← hdays] at hrs
  rw [runs, hrs]
  show (if _ ≠ _ then _ else _) = _
  rw [if_neg (by simp), List.zip_map, List.map_map, List.map_map, List.map_map]
  simp only [List.zip_eq_zipWith, List.zipWith_self, List.map_map]
  congr 1
  refine List.map_congr_left fun r hr => ?_
  obtain ⟨hb1, hb2⟩ := hR r hr
  have hb3 : r.1 + r.2 ≤ zs.length := by omega
  simp only [Function.comp, Prod.map]
  have a1 : ((r.1 : Int) + 1 - 1) = (r.1 : Int) := by omega
  have a2 : ((r.1 : Int) + r.2 - 1 + 1) = ((r.1 + r.2 : Nat) : Int) := by push_cast; omega
  rw [a1, a2, pySlice_nat, pySlice_nat]
  rw [Prod.mk.injEq]
  constructor
  · rw [← List.map_drop, ← List.map_take]
  · obtain ⟨n, hn⟩ : ∃ n, r.2 = n + 1 := ⟨r.2 - 1, by omega⟩
    have hl : ((days.drop r.1).take r.2).length = n + 1 := by rw [List.length_take, List.length_drop]; omega
    have hl' : ((zs.drop r.1).take r.2).length = n + 1 := by rw [List.length_take, List.length_drop]; omega
    rw [intMax_count n _ hl, hl']
    intro j hj
    rw [List.getElem?_take, if_pos (by omega), List.getElem?_drop]
    exact runs_max days 0 0 (le_refl _) (by exact_mod_cast hc) days rfl (by omega) r hr j (by omega)
example := C48_details (α := XR ℚ) [(.fin 0, 0), (.fin (-1/2), 1), (.fin (-1/4), 2), (.fin 0, 0)] (by simp [Counts])

theorem Counts_of {f : List Int} : ∀ c, (∀ i (hi : i < f.length), f[i] = 0 ∨ f[i] = (if h : i = 0 then c else f[i - 1]) + 1) → Counts c f := by
  induction f with
  | nil => intro c _; trivial
  | cons x f ih =>
    intro c h
    refine ⟨h 0 (Nat.succ_pos _), ih x fun i hi => ?_⟩
    have := h (i + 1) (by simpa using hi)
    by_cases h0 : i = 0
    · subst h0; simpa using this
    · obtain ⟨j, rfl⟩ := Nat.exists_eq_succ_of_ne_zero h0
      simpa using this

/-- **C48 Drawdown details**, every arithmetic: the outputs of a fresh `Drawdown` run over any non-empty series, given to `details`, come back as one entry
per maximal run of non-zero day counts, in order, with the minimum drawdown over the run and the length of the run. -/
theorem C48_drawdown_details {α : Type} [TFNum α] {xs : List α} (hx : xs ≠ []) :
    ∃ (zs : List (α × Int)) (sf s0 : Val α), zs.length = xs.length ∧ call Drawdown (vSBuf xs) none = .ok (numInts zs, sf, s0) ∧
      drawdownDetails (zs.map Prod.fst) (zs.map Prod.snd) = .ok ((runs zs).map fun r => (Arith.redMin (r.map Prod.fst), (r.length : Int))) ∧
      drawdownAvg (zs.map Prod.fst) (zs.map Prod.snd) = .ok (Arith.mean ((runs zs).map fun r => Arith.redMin (r.map Prod.fst)),
        Arith.mean ((runs zs).map fun r => Arith.ofInt r.length)) := by
  obtain ⟨zs, sf, s0, h1, hl, h2⟩ := (C47_drawdown_streams (α := α)).at hx
  have hc : Counts 0 (zs.map Prod.snd) := by
    refine Counts_of 0 fun i hi => ?_
    have hi' : i < xs.length := by simpa [hl] using hi
    have e2 : ∀ j (hj : j < xs.length), zs[j].2 = daysSincePeak (xs.take (j + 1)).reverse := fun j hj => by rw [h2 j hj]
    simp only [List.getElem_map]
    rw [e2 i hi', List.take_succ_eq_append_getElem hi', List.reverse_append, List.reverse_singleton, List.singleton_append, daysSincePeak]
    split
    · exact .inl rfl
    · right
      by_cases h : i = 0
      · subst h; simp [daysSincePeak]
      · rw [dif_neg h, e2 (i - 1) (by omega), Nat.sub_add_cancel (by omega)]
  refine ⟨zs, sf, s0, hl, h1, C48_details zs hc, ?_⟩
  simp only [drawdownAvg, C48_details zs hc]
  show Except.ok _ = _
  simp only [List.map_map]
  rfl
example := C48_drawdown_details (α := XR ℚ) (xs := [XR.fin 3, XR.pinf, XR.fin 4]) (by simp)

section
variable {K : Type} [Field K] [LinearOrder K] [IsStrictOrderedRing K] [Transc K] [FloorRing K]

omit [IsStrictOrderedRing K] in
/-- Exact arithmetic: the reported minimum of every run is the least drawdown of that run. -/
theorem C48_minimum {r : List (K × Int)} (hr : r ≠ []) : ∃ m, Arith.redMin ((r.map (Prod.map XR.fin id)).map Prod.fst) = XR.fin m ∧ IsLeastOf m (r.map Prod.fst) := by
  obtain ⟨m, h1, h2⟩ := XR.redMin_fin (l := r.map Prod.fst) (by simpa using hr)
  refine ⟨m, ?_, h2⟩
  rw [← h1, List.map_map, List.map_map]
  rfl
example := C48_minimum (K := ℚ) (r := [(-1/2, 1), (-3/4, 2)]) (by simp)

end

/-- The runs really are the maximal non-empty blocks: gluing them together gives the entries with a non-zero count, and none is empty. -/
theorem C48_runs {A : Type} (zs : List (A × Int)) :
    (runs zs).flatten = zs.filter (fun z => z.2 != 0) ∧ ∀ r ∈ runs zs, r ≠ [] ∧ ∀ z ∈ r, z.2 ≠ 0 := by
  have key : ∀ (l acc : List (A × Int)), (∀ z ∈ acc, z.2 ≠ 0) → ((l.splitOnPPrepend (fun z => z.2 == 0) acc).flatten = acc.reverse ++ l.filter (fun z => z.2 != 0)) ∧
      ∀ r ∈ l.splitOnPPrepend (fun z => z.2 == 0) acc, ∀ z ∈ r, z.2 ≠ 0 := by
    intro l
    induction l with
    | nil => intro acc h; rw [List.splitOnPPrepend_nil]; simpa using fun a b hab => h (a, b) hab
    | cons z l ih =>
      intro acc h
      by_cases hz : z.2 = 0
      · rw [List.splitOnPPrepend_cons_pos (by simpa using hz)]
        have := ih [] (by simp)
        rw [List.splitOnPPrepend_nil_right] at this
        refine ⟨by rw [List.flatten_cons, this.1]; simp [hz], ?_⟩
        intro r hr
        rcases List.mem_cons.1 hr with rfl | hr
        · intro z hz; exact h z (by simpa using hz)
        · exact this.2 r hr
      · rw [List.splitOnPPrepend_cons_neg (by simpa using hz)]
        have := ih (z :: acc) (by intro w hw; rcases List.mem_cons.1 hw with rfl | hw; exacts [hz, h w hw])
        refine ⟨by rw [this.1]; simp [hz], this.2⟩
  have k := key zs [] (by simp)
  rw [List.splitOnPPrepend_nil_right] at k
  constructor
  · rw [runs, ← List.nil_append (zs.filter _), ← List.reverse_nil, ← k.1]
    exact List.flatten_filter_not_isEmpty
  · intro r hr
    obtain ⟨h1, h2⟩ := List.mem_filter.1 hr
    exact ⟨by simpa using h2, k.2 r h1⟩

example : drawdownDetails (α := XR ℚ) ([0, -1/2, -1/5, 0, 0, -1/4].map XR.fin) [0, 1, 2, 0, 1, 2] = .ok [(.fin (-1/2), 2), (.fin (-1/4), 2)] := by decide +kernel

example : runs [("a", (0 : Int)), ("b", 1), ("c", 2), ("d", 0), ("e", 1)] = [[("b", 1), ("c", 2)], [("e", 1)]] := by decide

example : Counts 0 [0, 1, 2, 0, 1, 2] := by simp [Counts]

end TS
