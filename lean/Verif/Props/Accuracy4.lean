import Verif.Props.Accuracy
import Verif.Props.RSI
import Verif.Props.Accuracy2
/-
C70: the errors of the relative strength index and of drawdowns, which depend on the samples streamed so far.
-/
namespace TS
open PyVal XR FloatArith
set_option linter.unusedSectionVars false
variable {K : Type} [Field K] [LinearOrder K] [IsStrictOrderedRing K] [Transc K] [FloorRing K] {α : Type} [TFNum α] [F : FloatArith α K]

theorem StreamsAs.approximatesAt {A A' B B' : Type} {op : Operator α} {op' : Operator (XR K)} {ser : List A → Val α} {ser' : List A' → Val (XR K)}
    {outs : List B → Val α} {outs' : List B' → Val (XR K)} {y : List A → B} {y' : List A' → B'} (h : StreamsAs op ser outs y) (h' : StreamsAs op' ser' outs' y')
    {D : A → A' → Prop} {R : List A' → B → B' → Prop}
    (e : ∀ l : List (A × A'), l ≠ [] → (∀ x ∈ l, D x.1 x.2) → R (l.map Prod.snd) (y (l.map Prod.fst)) (y' (l.map Prod.snd))) :
    ApproximatesAt op op' ser ser' outs outs' D R := by
  obtain ⟨st, h1, h2⟩ := h
  obtain ⟨st', h3, h4⟩ := h'
  have key : ∀ h xs : List (A × A'), xs ≠ [] → (∀ x ∈ h ++ xs, D x.1 x.2) → ∃ os : List (B × B'),
      scan y (h.map Prod.fst) (xs.map Prod.fst) = os.map Prod.fst ∧ scan y' (h.map Prod.snd) (xs.map Prod.snd) = os.map Prod.snd ∧ os.length = xs.length ∧
      ∀ i (hi : i < os.length), R ((h ++ xs.take (i + 1)).map Prod.snd) os[i].1 os[i].2 := by
    intro h xs _ hD
    refine ⟨scan (fun l : List (A × A') => (y (l.map Prod.fst), y' (l.map Prod.snd))) h xs, ?_, ?_, scan_length _ _ _, ?_⟩
    · exact scan_comap (f := Prod.fst) (g := id) (y' := fun l : List (A × A') => y (l.map Prod.fst)) (fun _ _ => rfl) h xs |>.trans (by rw [List.map_id, scan_map])
    · exact scan_comap (f := Prod.snd) (g := id) (y' := fun l : List (A × A') => y' (l.map Prod.snd)) (fun _ _ => rfl) h xs |>.trans (by rw [List.map_id, scan_map])
    · intro i hi
      rw [scan_getElem]
      refine e _ ?_ fun x hx => hD x ?_
      · rw [scan_length] at hi
        intro e
        have := congrArg List.length e
        simp only [List.length_append, List.length_take, List.length_nil] at this
        omega
      · rcases List.mem_append.1 hx with h | h
        · exact List.mem_append_left _ h
        · exact List.mem_append_right _ (List.mem_of_mem_take h)
  refine ⟨st, st', fun xs hx hD => ?_, fun h xs hx hD => ?_⟩
  · obtain ⟨os, e1, e2, hl, hR⟩ := key [] xs hx hD
    refine ⟨os, ?_, ?_, hl, hR⟩
    · rw [h1 _ (by simpa using hx), ← e1]; rfl
    · rw [h3 _ (by simpa using hx), ← e2]; rfl
  · obtain ⟨os, e1, e2, hl, hR⟩ := key h xs hx hD
    refine ⟨os, ?_, ?_, hl, hR⟩
    · rw [h2 _ _ (by simpa using hx), ← e1, List.map_append]
    · rw [h4 _ _ (by simpa using hx), ← e2, List.map_append]

/-! ### The last step: from average gain and loss to the index -/

/-- rounding something at least `x` gives something at least half of `x`, or infinity -/
theorem Accurate.half_le {u c Ω : K} {N : Nat} (A : Accurate (rnd (α := α)) u c Ω N) (hu : 64 * u ≤ 1) {x : K} (hx : 1 ≤ x) (hxΩ : x ≤ Ω) {v : XR K} (hv : XR.le (fin x) v = true) :
    XR.le (fin (x / 2)) (rnd (α := α) v) = true := by
  obtain ⟨y, h1, h2⟩ := A.close x (by rw [abs_of_nonneg (by linarith)]; exact hxΩ)
  rw [abs_of_nonneg (a := x) (by linarith)] at h2
  have h3 := (rounds (α := α)).mono _ _ hv
  rw [h1] at h3
  have hc := A.c_le
  have hu0 := A.u_nonneg
  have : x / 2 ≤ y := by
    have := abs_le.1 h2
    nlinarith
  revert h3
  cases rnd (α := α) v <;> simp [XR.le]
  intro h
  linarith

set_option maxHeartbeats 1000000 in
/-- the error of the last step -/
theorem rsi_close {u c Ω : K} {N : Nat} (A : Accurate (rnd (α := α)) u c Ω N) (hu : 64 * u ≤ 1) (hΩ : 1000 ≤ u * Ω) {g l : α} {G L : K}
    (hg : val g = fin G) (hl : val l = fin L) (hG : 0 ≤ G) (hL : 0 ≤ L) (h0 : 0 < G + L) :
    Close (Arith.ofRat 100 - Arith.ofRat 100 / (Arith.ofRat 1 + g / l)) (100 * G / (G + L)) (600 * u) := by
  have hu0 := A.u_nonneg
  have hc := A.c_le
  have hc0 := A.c_nonneg
  have hΩ0 : 64000 ≤ Ω := by
    have := A.one_le
    nlinarith
  have v1 : val (Arith.ofRat 1 : α) = fin (1 : K) := by simpa using val_ofInt (α := α) 1 (by decide)
  have v100 : val (Arith.ofRat 100 : α) = fin (100 : K) := by simpa using val_ofInt (α := α) 100 (by decide)
  have hinf : ∀ {d : α}, val d = .pinf ∨ val d = .ninf → val (Arith.ofRat 100 / d : α) = fin (0 : K) := by
    intro d hd
    rw [FloatArith.div_eq _ _ (by rcases hd with hd | hd <;> rw [hd] <;> exact nofun), v100]
    rcases hd with hd | hd <;> rw [hd] <;> exact (rounds (α := α)).zero
  -- the quotient that is subtracted from 100
  have key : ∃ t : K, val (Arith.ofRat 100 / (Arith.ofRat 1 + g / l) : α) = fin t ∧ |t - 100 * L / (G + L)| ≤ 401 * u := by
    by_cases hl0 : L = 0
    · subst hl0
      have hi := div_zero g l hl (by rw [hg]; nofun) (by rw [hg]; simp at h0 ⊢; linarith)
      refine ⟨0, hinf ?_, by simp; positivity⟩
      have h1 := val_rnd (g / l)
      rw [FloatArith.add_eq, v1]
      rcases hi with hi | hi <;> rw [hi] at h1 ⊢
      · exact .inl h1
      · exact .inr h1
    · have hLp : 0 < L := lt_of_le_of_ne hL (Ne.symm hl0)
      have hq : val (g / l) = rnd (α := α) (fin (G / L)) := by
        rw [FloatArith.div_eq _ _ (by rw [hl]; simpa using hl0), hg, hl]
        exact congrArg _ (XR.fin_div _ _ hl0)
      set r : K := G / L with hr
      have hr0 : 0 ≤ r := div_nonneg hG hL
      have er : 100 * L / (G + L) = 100 / (1 + r) := by rw [hr]; field_simp; ring
      rw [er]
      have hrp : 0 < 1 + r := by linarith
      by_cases hbig : r ≤ Ω / 4
      · obtain ⟨q, hq1, hq2⟩ := A.close r (by rw [abs_of_nonneg hr0]; linarith)
        rw [abs_of_nonneg hr0] at hq2
        have hq0 : 0 ≤ q := by
          have := (rounds (α := α)).mono (fin 0) (fin r) (by simpa [XR.le] using hr0)
          rw [(rounds (α := α)).zero, hq1] at this
          simpa [XR.le] using this
        have hq3 := abs_le.1 hq2
        obtain ⟨s, hs1, hs2⟩ := A.close (1 + q) (by
          rw [abs_of_nonneg (by linarith)]
          nlinarith)
        rw [abs_of_nonneg (a := 1 + q) (by linarith)] at hs2
        have hs0 : 1 ≤ s := by
          have := (rounds (α := α)).mono (fin 1) (fin (1 + q)) (by simpa [XR.le] using hq0)
          have e := (rounds (α := α)).small 1 (by decide)
          rw [Int.cast_one] at e
          rw [e, hs1] at this
          simpa [XR.le] using this
        have hs3 := abs_le.1 hs2
        have hv : val (Arith.ofRat 1 + g / l : α) = fin s := by
          rw [FloatArith.add_eq, v1, hq, hq1]; exact hs1
        have h100 : 100 / s ≤ 100 := div_le_self (by norm_num) hs0
        have h100' : 0 ≤ 100 / s := by positivity
        obtain ⟨t, ht1, ht2⟩ := A.close (100 / s) (by rw [abs_of_nonneg h100']; linarith)
        rw [abs_of_nonneg h100'] at ht2
        refine ⟨t, ?_, ?_⟩
        · rw [FloatArith.div_eq _ _ (by rw [hv]; simp; linarith), v100, hv]
          exact (congrArg _ (XR.fin_div _ _ (by linarith))).trans ht1
        · have h3 : |s - (1 + r)| ≤ 3 * u * (1 + r) := by
            rw [abs_le]
            constructor <;> nlinarith
          have h4 : |100 / s - 100 / (1 + r)| ≤ 300 * u := by
            rw [div_sub_div _ _ (by linarith) hrp.ne', abs_div, abs_of_pos (by positivity : 0 < s * (1 + r)), div_le_iff₀ (by positivity)]
            have e : 100 * (1 + r) - s * 100 = -(100 * (s - (1 + r))) := by ring
            rw [e, abs_neg, abs_mul, abs_of_pos (by norm_num : (0 : K) < 100)]
            have : u * (1 + r) ≤ u * (s * (1 + r)) := mul_le_mul_of_nonneg_left (by nlinarith) hu0
            linarith
          have h5 : |t - 100 / s| ≤ 101 * u := ht2.trans (by nlinarith)
          have := abs_add_le (t - 100 / s) (100 / s - 100 / (1 + r))
          rw [sub_add_sub_cancel] at this
          linarith
      · rw [not_le] at hbig
        have h1 : XR.le (fin (Ω / 4 / 2)) (val (g / l)) = true := by
          rw [hq]
          exact A.half_le hu (by linarith) (by linarith) (by simpa [XR.le] using hbig.le)
        have h2 : XR.le (fin (Ω / 4 / 2 / 2)) (val (Arith.ofRat 1 + g / l : α)) = true := by
          rw [FloatArith.add_eq, v1]
          refine A.half_le hu (by linarith) (by linarith) ?_
          revert h1
          cases val (g / l) <;> simp [XR.le, XR.add]
          intro h; linarith
        have h3 : 100 / (1 + r) ≤ u := by
          rw [div_le_iff₀ hrp]
          nlinarith
        have h3' : 0 ≤ 100 / (1 + r) := by positivity
        match hv : val (Arith.ofRat 1 + g / l : α) with
        | .pinf => exact ⟨0, hinf (.inl hv), by rw [zero_sub, abs_neg, abs_of_nonneg h3']; linarith⟩
        | .ninf => rw [hv] at h2; cases h2
        | .nan => rw [hv] at h2; cases h2
        | .fin s =>
          rw [hv] at h2
          have hs : Ω / 16 ≤ s := by
            have : Ω / 4 / 2 / 2 ≤ s := by simpa [XR.le] using h2
            linarith
          have hs0 : 0 < s := by linarith
          have h4 : 100 / s ≤ 2 * u := by
            rw [div_le_iff₀ hs0]
            nlinarith
          have h4' : 0 ≤ 100 / s := by positivity
          obtain ⟨t, ht1, ht2⟩ := A.close (100 / s) (by rw [abs_of_nonneg h4']; linarith)
          rw [abs_of_nonneg h4'] at ht2
          have h5 : |t - 100 / s| ≤ u := ht2.trans (by nlinarith)
          refine ⟨t, ?_, ?_⟩
          · rw [FloatArith.div_eq _ _ (by rw [hv]; simp; linarith), v100, hv]
            exact (congrArg _ (XR.fin_div _ _ (by linarith))).trans ht1
          · have h5 := abs_le.1 h5
            rw [abs_le]
            constructor <;> linarith
  obtain ⟨t, ht1, ht2⟩ := key
  have hsum : G + L ≠ 0 := h0.ne'
  have e : 100 * G / (G + L) = 100 - 100 * L / (G + L) := by field_simp; ring
  have hb1 : 0 ≤ 100 * L / (G + L) := by positivity
  have hb2 : 100 * L / (G + L) ≤ 100 := by
    rw [div_le_iff₀ h0]; linarith
  rw [e]
  refine (Close.sub A (Close.exact v100) ⟨t, ht1, ht2⟩ (X := 100) ?_ ?_).mono ?_
  · rw [abs_le]; constructor <;> linarith
  · linarith
  · have := mul_le_mul_of_nonneg_left (by linarith : 100 + (0 + 401 * u) + c ≤ 108) hu0
    linarith

/-! ### Average gain and loss -/

section
variable {u c Ω : K} {N : Nat} (A : Accurate (rnd (α := α)) u c Ω N)
  {p : Nat} (hp : 0 < p) (hpN : p ≤ N) (hpu : 32 * ((p : K) + 1) * u ≤ 1) {M : K} (hcM : c ≤ M) (hΩ : 4 * ((p : K) + 1) * M ≤ Ω)
include A hp hpN hpu hcM hΩ

/-- Wilder's smoothing keeps an error of `9 p u M`. -/
theorem smooth_close {e : α} {E : K} (he : Close e E (9 * p * u * M)) (hE : |E| ≤ M) {m : List (α × K)} (h : ∀ z ∈ m, val z.1 = fin z.2 ∧ |z.2| ≤ M) :
    Close ((m.map Prod.fst).foldl (fun g x => (g * Arith.ofInt ((p : Int) - 1) + x) / Arith.ofInt p) e)
      ((m.map Prod.snd).foldl (fun g x => (g * ((p : K) - 1) + x) / p) E) (9 * p * u * M) := by
  have hu := A.u_nonneg
  have hM : 0 ≤ M := A.c_nonneg.trans hcM
  have huM : 0 ≤ u * M := mul_nonneg hu hM
  have hpuM : 32 * ((p : K) * (u * M)) ≤ M := by nlinarith
  have hp0 : (0 : K) < p := by exact_mod_cast hp
  have h0 : 0 ≤ (p : K) * (u * M) := by positivity
  induction m generalizing e E with
  | nil => exact he
  | cons z m ih =>
    obtain ⟨h1, h2⟩ := rollStep_close A hcM hp hpN hpu hΩ (d := 9 * p * u * M) (by linarith) (by linarith) he hE (h z List.mem_cons_self).1 (h z List.mem_cons_self).2
    have e1 : (1 - 1 / (p : K)) * (9 * p * u * M) = 9 * p * u * M - 9 * (u * M) := by field_simp
    have e2 : (E * ((p : K) - 1) + z.2) / p = E + 1 / p * (z.2 - E) := by field_simp; ring
    rw [e1] at h1
    simp only [List.map_cons, List.foldl_cons]
    rw [e2]
    refine ih (h1.mono ?_) h2 fun z hz => h z (List.mem_cons_of_mem _ hz)
    have := mul_le_mul_of_nonneg_left hpuM hu
    linarith

/-- the first average -/
theorem first_close {d : List (α × K)} (hd : p ≤ d.length) (h : ∀ z ∈ d, val z.1 = fin z.2 ∧ |z.2| ≤ M) {f : α → α} {g : K → K}
    (hf : ∀ a x, val a = fin x → val (f a) = fin (g x)) (hg : ∀ x, |g x| ≤ |x|) :
    Close (Arith.mean (((d.map Prod.fst).take p).reverse.map f)) (avg (((d.map Prod.snd).map g).take p)) (4 * p * u * M) ∧ |avg (((d.map Prod.snd).map g).take p)| ≤ M := by
  have hv : ∀ z ∈ (d.take p).map (fun z => (f z.1, g z.2)), val z.1 = fin z.2 ∧ |z.2| ≤ M := by
    intro z hz
    obtain ⟨w, hw, rfl⟩ := List.mem_map.1 hz
    have := h w (List.mem_of_mem_take hw)
    exact ⟨hf _ _ this.1, (hg _).trans this.2⟩
  have hl : ((d.take p).map (fun z => (f z.1, g z.2))).length = p := by simp; omega
  have h1 := movingAvg_close A hp hpN hpu hcM hΩ hv
  have e1 : movingAvg p (((d.take p).map (fun z => (f z.1, g z.2))).map Prod.fst) = Arith.mean (((d.map Prod.fst).take p).reverse.map f) := by
    rw [movingAvg, if_neg (by simp; omega), window_all (by simp), Arith.mean, show (((d.map Prod.fst).take p).reverse.map f).length = p by simp; omega]
    simp [List.map_take, List.map_reverse, Function.comp_def]
  have e2 : movingAvgK p (((d.take p).map (fun z => (f z.1, g z.2))).map Prod.snd) = avg (((d.map Prod.snd).map g).take p) := by
    rw [movingAvgK, if_neg (by simp; omega), window_all (by simp), avg_reverse]
    simp [List.map_take, Function.comp_def]
  rw [e1, e2] at h1
  refine ⟨h1, ?_⟩
  rw [← e2]
  refine abs_le.2 (movingAvgK_bounds hp (by simpa using hl.ge) fun x hx => ?_)
  obtain ⟨z, hz, rfl⟩ := List.mem_map.1 (mem_of_mem_window hx)
  exact abs_le.1 (hv z hz).2

theorem avgGain_close {d : List (α × K)} (hd : p ≤ d.length) (h : ∀ z ∈ d, val z.1 = fin z.2 ∧ |z.2| ≤ M) :
    Close (avgGain p (d.map Prod.fst)) (wilderAvg p ((d.map Prod.snd).map fun x => Max.max 0 x)) (9 * p * u * M) := by
  have hu := A.u_nonneg
  have hM : 0 ≤ M := A.c_nonneg.trans hcM
  have h0 : 0 ≤ (p : K) * (u * M) := by positivity
  have hg : ∀ x : K, |Max.max 0 x| ≤ |x| := fun x => by rw [abs_of_nonneg (le_max_left _ _)]; exact max_le (abs_nonneg _) (le_abs_self _)
  obtain ⟨h1, h2⟩ := first_close A hp hpN hpu hcM hΩ hd h (f := fun x => if TFNum.lt (Arith.ofRat 0) x then x else Arith.ofRat 0) (g := fun x => Max.max 0 x) (fun a x ha => by
    simp only [F.lt_eq, ha, val_ofRat_zero, XR.lt, decide_eq_true_eq]
    split
    · rename_i h; rw [ha, max_eq_right h.le]
    · rename_i h; rw [val_ofRat_zero, max_eq_left (not_lt.1 h)]) hg
  have := smooth_close A hp hpN hpu hcM hΩ (h1.mono (by linarith)) h2 (m := (d.drop p).map fun z => (Arith.max (Arith.ofRat 0) z.1, Max.max 0 z.2)) (by
    intro z hz
    obtain ⟨w, hw, rfl⟩ := List.mem_map.1 hz
    have := h w (List.mem_of_mem_drop hw)
    refine ⟨?_, (hg _).trans this.2⟩
    rw [F.max_eq _ _ (by rw [val_ofRat_zero]; nofun) (by rw [this.1]; nofun), val_ofRat_zero, this.1]
    exact XR.max_fin _ _)
  have e1 : (((d.drop p).map fun z => (Arith.max (Arith.ofRat 0) z.1, Max.max 0 z.2)).map Prod.fst) = ((d.map Prod.fst).drop p).map (fun x => Arith.max (Arith.ofRat 0) x) := by
    simp [List.map_drop, Function.comp_def]
  have e2 : (((d.drop p).map fun z => (Arith.max (Arith.ofRat 0) z.1, Max.max 0 z.2)).map Prod.snd) = ((d.map Prod.snd).map fun x => Max.max 0 x).drop p := by
    simp [List.map_drop, Function.comp_def]
  rw [e1, e2, List.foldl_map (f := fun x => Arith.max (Arith.ofRat 0) x)] at this
  exact this

theorem avgLoss_close {d : List (α × K)} (hd : p ≤ d.length) (h : ∀ z ∈ d, val z.1 = fin z.2 ∧ |z.2| ≤ M) :
    Close (avgLoss p (d.map Prod.fst)) (wilderAvg p ((d.map Prod.snd).map fun x => Max.max 0 (-x))) (9 * p * u * M) := by
  have hu := A.u_nonneg
  have hM : 0 ≤ M := A.c_nonneg.trans hcM
  have h0 : 0 ≤ (p : K) * (u * M) := by positivity
  have hg : ∀ x : K, |Max.max 0 (-x)| ≤ |x| := fun x => by rw [abs_of_nonneg (le_max_left _ _)]; exact max_le (abs_nonneg _) (neg_le_abs _)
  have hmin : ∀ x : K, -Min.min 0 x = Max.max 0 (-x) := fun x => by rw [← max_neg_neg, neg_zero]
  obtain ⟨h1, h2⟩ := first_close A hp hpN hpu hcM hΩ hd h (f := fun x => if TFNum.lt x (Arith.ofRat 0) then x else Arith.ofRat 0) (g := fun x => Min.min 0 x) (fun a x ha => by
    simp only [F.lt_eq, ha, val_ofRat_zero, XR.lt, decide_eq_true_eq]
    split
    · rename_i h; rw [ha, min_eq_right h.le]
    · rename_i h; rw [val_ofRat_zero, min_eq_left (not_lt.1 h)]) (fun x => by rw [← abs_neg, hmin]; exact hg x)
  have e : -avg (((d.map Prod.snd).map fun x => Min.min 0 x).take p) = avg (((d.map Prod.snd).map fun x => Max.max 0 (-x)).take p) := by
    have hsum : ∀ l : List K, -(l.map fun x => Min.min 0 x).sum = (l.map fun x => Max.max 0 (-x)).sum := by
      intro l
      induction l with
      | nil => simp
      | cons x l ih => simp only [List.map_cons, List.sum_cons, neg_add, hmin, ih]
    simp only [avg, ← List.map_take, List.length_map]
    rw [← neg_div, hsum]
  have h1' : Close (-Arith.mean (((d.map Prod.fst).take p).reverse.map fun x => if TFNum.lt x (Arith.ofRat 0) then x else Arith.ofRat 0))
      (avg (((d.map Prod.snd).map fun x => Max.max 0 (-x)).take p)) (9 * p * u * M) := by
    obtain ⟨y, hy1, hy2⟩ := h1
    refine ⟨-y, by rw [F.neg_eq, hy1]; rfl, ?_⟩
    rw [← e, neg_sub_neg, abs_sub_comm]
    linarith
  have := smooth_close A hp hpN hpu hcM hΩ h1' (by rw [← e, abs_neg]; exact h2) (m := (d.drop p).map fun z => (-Arith.min (Arith.ofRat 0) z.1, Max.max 0 (-z.2))) (by
    intro z hz
    obtain ⟨w, hw, rfl⟩ := List.mem_map.1 hz
    have := h w (List.mem_of_mem_drop hw)
    refine ⟨?_, (hg _).trans this.2⟩
    rw [F.neg_eq, F.min_eq _ _ (by rw [val_ofRat_zero]; nofun) (by rw [this.1]; nofun), val_ofRat_zero, this.1]
    exact (congrArg XR.neg (XR.min_fin _ _)).trans (congrArg fin (hmin _)))
  have e1 : (((d.drop p).map fun z => (-Arith.min (Arith.ofRat 0) z.1, Max.max 0 (-z.2))).map Prod.fst) = ((d.map Prod.fst).drop p).map (fun x => -Arith.min (Arith.ofRat 0) x) := by
    simp [List.map_drop, Function.comp_def]
  have e2 : (((d.drop p).map fun z => (-Arith.min (Arith.ofRat 0) z.1, Max.max 0 (-z.2))).map Prod.snd) = ((d.map Prod.snd).map fun x => Max.max 0 (-x)).drop p := by
    simp [List.map_drop, Function.comp_def]
  rw [e1, e2, List.foldl_map (f := fun x => -Arith.min (Arith.ofRat 0) x)] at this
  exact this
end

theorem wilderAvg_eq {p : Nat} (hp : 0 < p) {l : List K} (hl : p ≤ l.length) : wilderAvg p l = recursiveAvgK p (fun m x => m + 1 / (p : K) * (x - m)) l := by
  have hp0 : (p : K) ≠ 0 := by exact_mod_cast hp.ne'
  rw [wilderAvg, recursiveAvgK, movingAvgK, if_neg (by simp; omega), window_all (by simp), avg_reverse]
  congr 1
  funext g x
  field_simp
  ring

/-- both averages: exact values of the changes up to `M` in size, known up to `d` -/
theorem averages_close {u c Ω : K} {N : Nat} (A : Accurate (rnd (α := α)) u c Ω N)
    {p : Nat} (hp : 0 < p) (hpN : p ≤ N) (hpu : 32 * ((p : K) + 1) * u ≤ 1) {M d : K} (hd : 0 ≤ d) (hcM : c ≤ M + d) (hΩ : 4 * ((p : K) + 1) * (M + d) ≤ Ω)
    {l : List (α × K)} (hl : p ≤ l.length) (h : ∀ z ∈ l, Close z.1 z.2 d ∧ |z.2| ≤ M) :
    Close (avgGain p (l.map Prod.fst)) (wilderAvg p ((l.map Prod.snd).map fun x => Max.max 0 x)) (9 * p * u * (M + d) + d) ∧
    Close (avgLoss p (l.map Prod.fst)) (wilderAvg p ((l.map Prod.snd).map fun x => Max.max 0 (-x))) (9 * p * u * (M + d) + d) := by
  obtain ⟨l', h1, h2, h3⟩ := close_values h
  have hl' : l'.length = l.length := by simpa using congrArg List.length h1
  have near : ∀ g : K → K, (∀ x y, |g x - g y| ≤ |x - y|) →
      |wilderAvg p ((l'.map Prod.snd).map g) - wilderAvg p ((l.map Prod.snd).map g)| ≤ d := by
    intro g hg
    rw [wilderAvg_eq hp (by simp; omega), wilderAvg_eq hp (by simp; omega)]
    refine recursiveAvgK_near hp (rma_weight hp) hd ?_
    rw [List.forall₂_map_left_iff, List.forall₂_map_right_iff]
    exact h3.imp fun a b hab => (hg a b).trans hab
  have hg : ∀ x y : K, |Max.max 0 x - Max.max 0 y| ≤ |x - y| := fun x y => by
    have := abs_max_sub_max_le_max 0 x 0 y
    rw [sub_self, abs_zero] at this
    exact this.trans_eq (max_eq_right (abs_nonneg _))
  constructor
  · have := avgGain_close A hp hpN hpu hcM hΩ (by omega) h2
    rw [h1] at this
    exact this.of.mono (add_le_add le_rfl (near _ hg))
  · have := avgLoss_close A hp hpN hpu hcM hΩ (by omega) h2
    rw [h1] at this
    exact this.of.mono (add_le_add le_rfl (near _ fun x y => (hg _ _).trans (by rw [neg_sub_neg, abs_sub_comm])))

/-- the changes -/
theorem changes_close {u c Ω : K} {N : Nat} (A : Accurate (rnd (α := α)) u c Ω N) {M : K} (hcM : c ≤ M) (hΩ : 2 * M ≤ Ω) {l : List (α × K)} (h : ∀ z ∈ l, Is M z.1 z.2) :
    ∃ m : List (α × K), m.map Prod.fst = changes (l.map Prod.fst) ∧ m.map Prod.snd = moves (l.map Prod.snd) (l.length - 1) ∧ ∀ z ∈ m, Close z.1 z.2 (3 * u * M) ∧ |z.2| ≤ 2 * M := by
  refine ⟨List.zipWith (fun a b => (a.1 - b.1, a.2 - b.2)) l.tail l, ?_, ?_, ?_⟩
  · refine List.ext_getElem (by simp [changes]) fun i a b => ?_
    simp [changes]
  · refine List.ext_getElem (by simp [moves]) fun i a b => ?_
    simp only [List.length_map, List.length_zipWith, List.length_tail] at a
    simp [moves, List.getElem?_eq_getElem (show i + 1 < l.length by omega), List.getElem?_eq_getElem (show i < l.length by omega)]
  · intro z hz
    obtain ⟨i, hi, rfl⟩ := List.getElem_of_mem hz
    rw [List.getElem_zipWith]
    exact sub_close A hcM hΩ (h _ (List.mem_of_mem_tail (List.getElem_mem _))) (h _ (List.getElem_mem _))

/-- the ratio of slightly changed averages -/
theorem ratio_close {g k G L e : K} (hg : 0 ≤ g) (hk : 0 ≤ k) (hG : |G - g| ≤ e) (hL : |L - k| ≤ e) (hpos : 0 < g + k) (he : 4 * e ≤ g + k) :
    0 < G + L ∧ |100 * G / (G + L) - 100 * g / (g + k)| ≤ 200 * e / (g + k) := by
  have he0 : 0 ≤ e := (abs_nonneg _).trans hG
  have hGL : (g + k) / 2 ≤ G + L := by
    have := abs_le.1 hG
    have := abs_le.1 hL
    linarith
  have hGL0 : 0 < G + L := by linarith
  refine ⟨hGL0, ?_⟩
  have e3 : 100 * G / (G + L) - 100 * g / (g + k) = 100 * ((G - g) * k - g * (L - k)) / ((G + L) * (g + k)) := by field_simp; ring
  have h1 : |(G - g) * k - g * (L - k)| ≤ e * (g + k) := by
    refine (abs_sub _ _).trans ?_
    rw [abs_mul, abs_mul, abs_of_nonneg hk, abs_of_nonneg hg]
    have := mul_le_mul_of_nonneg_right hG hk
    have := mul_le_mul_of_nonneg_left hL hg
    linarith
  rw [e3, abs_div, abs_mul, abs_of_pos (by norm_num : (0 : K) < 100), abs_of_pos (mul_pos hGL0 hpos), div_le_div_iff₀ (mul_pos hGL0 hpos) hpos]
  have h2 := mul_le_mul_of_nonneg_right h1 hpos.le
  have h3 := mul_le_mul_of_nonneg_right hGL (mul_nonneg he0 hpos.le)
  have e4 : e * (g + k) * (g + k) = 2 * ((g + k) / 2 * (e * (g + k))) := by ring
  have e5 : 200 * e * ((G + L) * (g + k)) = 200 * ((G + L) * (e * (g + k))) := by ring
  rw [e5]
  linarith

/-- the index in exact arithmetic -/
theorem rsi_exact {g k : K} (hg : 0 ≤ g) (hk : 0 ≤ k) (hpos : 0 < g + k) : (XR.fin 100 - XR.fin 100 / (XR.fin 1 + XR.fin g / XR.fin k) : XR K) = fin (100 * g / (g + k)) := by
  by_cases h0 : k = 0
  · subst h0
    have hG : 0 < g := by linarith
    rw [show (XR.fin g / XR.fin 0 : XR K) = XR.pinf by
      show XR.div _ _ = _
      simp [XR.div, XR.infOf, hG]]
    rw [add_zero, mul_div_cancel_right₀ _ hG.ne']
    show XR.add (XR.fin 100) (XR.neg (XR.div (XR.fin 100) (XR.add (XR.fin 1) XR.pinf))) = _
    simp [XR.add, XR.div, XR.neg]
  · have hk' : 0 < k := lt_of_le_of_ne hk (Ne.symm h0)
    have hq : 0 ≤ g / k := by positivity
    rw [XR.fin_div _ _ h0, XR.fin_add, XR.fin_div _ _ (by linarith), XR.fin_sub]
    congr 1
    field_simp
    ring

/-- **C70, relative strength index**: after `p` samples, whenever the average gain and loss together are at least `88 p u M`, the index is the number
`100 gain / (gain + loss)`, up to an error of at most `7000 p u M / (gain + loss)`. -/
theorem C70_rsi {u c Ω : K} {N : Nat} (A : Accurate (rnd (α := α)) u c Ω N)
    {p : Nat} (hp : 0 < p) (hpN : p ≤ N) (hpu : 32 * ((p : K) + 1) * u ≤ 1) (hΩu : 1000 ≤ u * Ω) {M : K} (hcM : c ≤ M) (hΩ : 12 * ((p : K) + 1) * M ≤ Ω) :
    ApproximatesAt (RSI (p : Int) : Operator α) (RSI (p : Int) : Operator (XR K)) vSBuf finSeries vSBuf vSBuf (Is M) fun xs a x =>
      (xs.length ≤ p → val a = fin 0 ∧ x = fin 0) ∧
      (p < xs.length → 0 < gainAt p xs (xs.length - 1) + lossAt p xs (xs.length - 1) → 88 * p * u * M ≤ gainAt p xs (xs.length - 1) + lossAt p xs (xs.length - 1) →
        ∃ r, x = fin r ∧ r = 100 * gainAt p xs (xs.length - 1) / (gainAt p xs (xs.length - 1) + lossAt p xs (xs.length - 1)) ∧
          Close a r (7000 * p * u * M / (gainAt p xs (xs.length - 1) + lossAt p xs (xs.length - 1)))) := by
  have hs : StreamsAs (RSI (p : Int) : Operator (XR K)) finSeries vSBuf (fun l => rsi p (l.map XR.fin)) := by
    have := (C36_rsi_streams (α := XR K) hp).comap XR.fin id (y' := fun l => rsi p (l.map XR.fin)) fun _ _ => rfl
    simpa only [List.map_id] using this
  refine (C36_rsi_streams hp).approximatesAt hs fun l hl h => ⟨fun hlen => ?_, fun hlen hpos hbig => ?_⟩
  · rw [List.length_map] at hlen
    rw [rsi, if_pos (by simpa using hlen), rsi, if_pos (by simpa using hlen), val_ofRat_zero]
    simp
  · have hM : 0 ≤ M := A.c_nonneg.trans hcM
    have hu := A.u_nonneg
    have hp' : (1 : K) ≤ p := by exact_mod_cast hp
    have huM : 0 ≤ u * M := mul_nonneg hu hM
    have hpu' : u * M ≤ p * (u * M) := by nlinarith
    have hpuM : 32 * (((p : K) + 1) * (u * M)) ≤ M := by nlinarith
    have hpM : 0 ≤ p * M := by positivity
    have hu64 : 64 * u ≤ 1 := by nlinarith
    rw [List.length_map] at *
    set xs := l.map Prod.snd with hxs
    have hxl : xs.length = l.length := by simp [hxs]
    set i := l.length - 1 with hi
    have hxi : i < xs.length := by omega
    have hrsi := rsi_fin (p := p) (i := i) hp (xs := xs) hxi (by omega)
    rw [List.take_of_length_le (by simp; omega)] at hrsi
    have hG := gainAt_nonneg hp xs i
    have hL := lossAt_nonneg hp xs i
    -- the averages
    obtain ⟨m, e1, e2, hm⟩ := changes_close A hcM (by nlinarith) h
    have hml : p ≤ m.length := by
      have := congrArg List.length e1
      simp [changes] at this
      omega
    have hd3 : 2 * M + 3 * u * M ≤ 3 * M := by linarith
    have hav := averages_close A hp hpN hpu (M := 2 * M) (d := 3 * u * M) (by positivity) (by linarith) (by
      have := mul_le_mul_of_nonneg_left hd3 (by positivity : 0 ≤ 4 * ((p : K) + 1))
      linarith) hml hm
    rw [e1, e2] at hav
    have he : 9 * p * u * (2 * M + 3 * u * M) + 3 * u * M ≤ 22 * (p * (u * M)) := by
      have : u * M ≤ M / 64 := by nlinarith
      have := mul_le_mul_of_nonneg_left this (by positivity : 0 ≤ (p : K) * u)
      linarith
    obtain ⟨⟨G, hg1, hg2⟩, ⟨L, hl1, hl2⟩⟩ := hav
    change |G - gainAt p xs i| ≤ _ at hg2
    change |L - lossAt p xs i| ≤ _ at hl2
    have hD : ∀ x ∈ l.map Prod.fst, IsFinite x := by
      intro x hx
      obtain ⟨z, hz, rfl⟩ := List.mem_map.1 hx
      exact ⟨_, (h z hz).1⟩
    have hc : changes (l.map Prod.fst) ≠ [] := by
      intro e
      have := congrArg List.length e
      simp [changes] at this
      omega
    have hG0 : 0 ≤ G := by
      have := avgGain_nn hp (changes_num hD) hc
      rw [NotNeg, hg1] at this
      simpa [XR.lt] using this
    have hL0 : 0 ≤ L := by
      have := avgLoss_nn hp (changes_num hD) hc
      rw [NotNeg, hl1] at this
      simpa [XR.lt] using this
    have hmm : ∀ x ∈ moves xs i, |x| ≤ 2 * M := by
      rw [← e2]
      intro x hx
      obtain ⟨z, hz, rfl⟩ := List.mem_map.1 hx
      exact (hm z hz).2
    have hmi : (moves xs i).length = i := by simp [moves]
    have hgk : gainAt p xs i + lossAt p xs i ≤ 4 * M := by
      have h1 : |gainAt p xs i| ≤ 2 * M := by
        rw [gainAt, wilderAvg_eq hp (by simp [hmi]; omega)]
        refine recursiveAvgK_abs hp (rma_weight hp) (by linarith) fun y hy => ?_
        obtain ⟨x, hx, rfl⟩ := List.mem_map.1 hy
        rw [abs_of_nonneg (le_max_left _ _)]
        exact max_le (by linarith) ((le_abs_self _).trans (hmm x hx))
      have h2 : |lossAt p xs i| ≤ 2 * M := by
        rw [lossAt, wilderAvg_eq hp (by simp [hmi]; omega)]
        refine recursiveAvgK_abs hp (rma_weight hp) (by linarith) fun y hy => ?_
        obtain ⟨x, hx, rfl⟩ := List.mem_map.1 hy
        rw [abs_of_nonneg (le_max_left _ _)]
        exact max_le (by linarith) ((neg_le_abs _).trans (hmm x hx))
      have := le_abs_self (gainAt p xs i)
      have := le_abs_self (lossAt p xs i)
      linarith
    generalize gainAt p xs i = g at *
    generalize lossAt p xs i = k at *
    obtain ⟨hGL0, hr⟩ := ratio_close hG hL (hg2.trans he) (hl2.trans he) hpos (by linarith)
    refine ⟨100 * g / (g + k), ?_, rfl, ?_⟩
    · rw [hrsi]; exact rsi_exact hG hL hpos
    · rw [rsi, if_neg (by simp; omega)]
      refine ((rsi_close A hu64 hΩu hg1 hl1 hG0 hL0 hGL0).of (y := 100 * g / (g + k))).mono ?_
      have h3 : 600 * u ≤ 2400 * (p * (u * M)) / (g + k) := by
        rw [le_div_iff₀ hpos]
        have := mul_le_mul_of_nonneg_left hgk hu
        linarith
      have h4 : 7000 * p * u * M / (g + k) = 200 * (22 * (p * (u * M))) / (g + k) + 2400 * (p * (u * M)) / (g + k) + 200 * (p * (u * M)) / (g + k) := by
        rw [← add_div, ← add_div]; congr 1; ring
      have h5 : 0 ≤ 200 * (p * (u * M)) / (g + k) := by positivity
      linarith
example := C70_rsi (K := ℚ) (α := F32 ℚ) round32_accurate (p := 14) (by norm_num) (by norm_num) (by norm_num) (by norm_num) (M := 1000) (by norm_num) (by norm_num)

/-- **C70, relative strength index** in binary32. -/
theorem C70_rsi_binary32 [SqrtNonneg K] {p : Nat} (hp : 0 < p) (hp' : p < 2 ^ 18) {M : K} (h1 : 2 ^ (-126 : Int) ≤ M) (h2 : M ≤ 2 ^ 100) :
    ApproximatesAt (RSI (p : Int) : Operator (F32 K)) (RSI (p : Int) : Operator (XR K)) vSBuf finSeries vSBuf vSBuf (Is M) fun xs a x =>
      (xs.length ≤ p → val a = fin 0 ∧ x = fin 0) ∧
      (p < xs.length → 0 < gainAt p xs (xs.length - 1) + lossAt p xs (xs.length - 1) →
        88 * p * 2 ^ (-24 : Int) * M ≤ gainAt p xs (xs.length - 1) + lossAt p xs (xs.length - 1) →
        ∃ r, x = fin r ∧ r = 100 * gainAt p xs (xs.length - 1) / (gainAt p xs (xs.length - 1) + lossAt p xs (xs.length - 1)) ∧
          Close a r (7000 * p * 2 ^ (-24 : Int) * M / (gainAt p xs (xs.length - 1) + lossAt p xs (xs.length - 1)))) := by
  have hpK : (p : K) + 1 ≤ 2 ^ 18 := by exact_mod_cast hp'
  have hu : 32 * ((p : K) + 1) * 2 ^ (-24 : Int) ≤ 1 := by
    rw [zpow_neg, mul_inv_le_iff₀ (two_zpow_pos _), one_mul]
    refine (mul_le_mul_of_nonneg_left hpK (by norm_num)).trans ?_
    norm_num
  have hΩ : 12 * ((p : K) + 1) * M ≤ 2 ^ 127 := by
    have hM : 0 ≤ M := (two_zpow_pos _).le.trans h1
    refine (mul_le_mul (mul_le_mul_of_nonneg_left hpK (by norm_num)) h2 hM (by norm_num)).trans ?_
    norm_num
  exact C70_rsi (α := F32 K) round32_accurate hp (by omega) hu (by norm_num) h1 hΩ
example := C70_rsi_binary32 (K := ℚ) (p := 14) (by norm_num) (by norm_num) (M := 1000) (by norm_num) (by norm_num)

/-! ### Drawdown -/

theorem peak_is {l : List (α × K)} (h : ∀ z ∈ l, val z.1 = fin z.2) : val (peakOf (l.map Prod.fst)) = fin (peakK (l.map Prod.snd)) := by
  induction l using List.reverseRecOn with
  | nil => exact val_ofRat_zero
  | append_singleton l z ih =>
    have ih := ih fun z hz => h z (List.mem_append_left _ hz)
    have hz := h z (by simp)
    have e : peakOf ((l ++ [z]).map Prod.fst) = Arith.max z.1 (peakOf (l.map Prod.fst)) := by simp [peakOf]
    rw [e, List.map_append, List.map_singleton, peakK_snoc, F.max_eq _ _ (by rw [hz]; nofun) (by rw [ih]; nofun), hz, ih]
    exact XR.max_fin _ _

/-- one drawdown -/
theorem drawdownOf_close {u c Ω : K} {N : Nat} (A : Accurate (rnd (α := α)) u c Ω N) (hu : 64 * u ≤ 1) (hc : c ≤ 1 / 10000) (hΩ : 2 ≤ Ω) {peak x : α} {P X : K} (hP : val peak = fin P)
    (hX : val x = fin X) (hP0 : 0 ≤ P) (hX0 : 0 ≤ X) (hne : u / 5000 < |P - 1 / 10000|) : Close (drawdownOf peak x) (drawdownK P X) (3 * u) := by
  have hu0 := A.u_nonneg
  have hc0 := A.c_nonneg
  obtain ⟨ε, he1, he2⟩ := A.close (1 / 10000) (by rw [abs_of_pos (by norm_num)]; linarith)
  rw [abs_of_pos (a := (1 / 10000 : K)) (by norm_num)] at he2
  have he3 : |ε - 1 / 10000| ≤ u / 5000 := he2.trans (by nlinarith)
  have hv : val (Arith.ofRat (1 / 10000) : α) = fin ε := by rw [F.ofRat_eq]; push_cast; exact he1
  have hb : TFNum.lt (Arith.abs peak) (Arith.ofRat (1 / 10000) : α) = decide (|P| < 1 / 10000) := by
    rw [F.lt_eq, F.abs_eq, hP, hv]
    simp only [XR.abs, XR.lt, abs_of_nonneg hP0, decide_eq_decide]
    have := abs_le.1 he3
    rcases lt_abs.1 hne with h | h
    · constructor <;> intro h' <;> linarith
    · constructor <;> intro h' <;> linarith
  rw [drawdownOf, drawdownK, hb]
  by_cases hPs : |P| < 1 / 10000
  · rw [if_pos (by simpa using hPs), if_pos hPs]
    exact ((Close.exact val_ofRat_zero).mono (by linarith))
  · rw [if_neg (by simpa using hPs), if_neg hPs]
    rw [abs_of_nonneg hP0] at hPs
    have hPp : 0 < P := by linarith [not_lt.1 hPs, (by norm_num : (0 : K) < 1 / 10000)]
    have v1 : val (Arith.ofRat 1 : α) = fin (1 : K) := by simpa using val_ofInt (α := α) 1 (by decide)
    have hq : val (x / peak) = rnd (α := α) (fin (X / P)) := by
      rw [F.div_eq _ _ (by rw [hP]; simpa using hPp.ne'), hX, hP]
      exact congrArg _ (XR.fin_div _ _ hPp.ne')
    have r1 : rnd (α := α) (fin 1) = fin (1 : K) := by simpa using (rounds (α := α)).small 1 (by decide)
    by_cases hxp : X ≤ P
    · have hq0 : 0 ≤ X / P := by positivity
      have hq1 : X / P ≤ 1 := (div_le_one hPp).2 hxp
      have h1 : Close (x / peak) (X / P) (u * (1 + c)) := by
        refine (Accurate.round A (d := 0) (X := 1) hq (by simp) (by rw [abs_of_nonneg hq0]; exact hq1) (by linarith)).mono (by linarith)
      have huc : u * (1 + c) ≤ 1 / 32 := by nlinarith
      obtain ⟨y, hy1, hy2⟩ := Close.sub A h1 (Close.exact v1) (X := 1) (by rw [abs_le]; constructor <;> linarith) (by linarith)
      refine ⟨Min.min 0 y, ?_, ?_⟩
      · rw [F.min_eq _ _ (by rw [val_ofRat_zero]; nofun) (by rw [hy1]; nofun), val_ofRat_zero, hy1]
        exact XR.min_fin _ _
      · have h2 := abs_min_sub_min_le_max 0 y 0 (X / P - 1)
        rw [sub_self, abs_zero, max_eq_right (abs_nonneg _)] at h2
        refine h2.trans (hy2.trans ?_)
        have h3 := mul_le_mul_of_nonneg_left (by linarith : 1 + (u * (1 + c) + 0) + c ≤ 3 / 2) hu0
        have h4 := mul_le_mul_of_nonneg_left (by linarith : 1 + c ≤ 3 / 2) hu0
        linarith
    · rw [not_le] at hxp
      have hq1 : 1 ≤ X / P := (one_le_div hPp).2 hxp.le
      have h1 : XR.le (fin 1) (val (x / peak)) = true := by
        have := (rounds (α := α)).mono (fin 1) (fin (X / P)) (by simpa [XR.le] using hq1)
        rw [r1] at this
        rwa [hq]
      have h2 : XR.le (fin 0) (val (x / peak - Arith.ofRat 1)) = true := by
        rw [F.sub_eq, v1, ← (rounds (α := α)).zero]
        refine (rounds (α := α)).mono _ _ ?_
        revert h1
        cases val (x / peak) <;> simp [XR.le, XR.add, XR.neg]
      have hn : val (x / peak - Arith.ofRat 1) ≠ .nan := by rintro e; rw [e] at h2; cases h2
      refine ⟨0, ?_, by rw [min_eq_left (by linarith)]; simp; positivity⟩
      rw [F.min_eq _ _ (by rw [val_ofRat_zero]; nofun) hn, val_ofRat_zero]
      revert h2
      cases val (x / peak - Arith.ofRat 1) <;> simp [XR.le, XR.min, XR.lt]
      intro h
      exact fun h' => le_antisymm h'.le h |>.symm ▸ rfl

/-- **C70, drawdown** of prices that are not negative: an error of at most `3 u`, whenever the earlier peak is not so close to 0.0001 that the code, which compares it with the float
nearest to 0.0001, takes another branch. -/
theorem C70_drawdown {u c Ω : K} {N : Nat} (A : Accurate (rnd (α := α)) u c Ω N) (hu : 64 * u ≤ 1) (hc : c ≤ 1 / 10000) (hΩ : 2 ≤ Ω) :
    ApproximatesAt (Drawdown : Operator α) (Drawdown : Operator (XR K)) vSBuf finSeries numInts (fun l => numInts (l.map (Prod.map XR.fin id))) (fun a x => val a = fin x ∧ 0 ≤ x)
      fun xs a x => u / 5000 < |peakK xs.dropLast - 1 / 10000| → Close a.1 x.1 (3 * u) := by
  refine C47_drawdown_streams.approximatesAt dd_reals fun l hl h hne => ?_
  obtain ⟨l, z, rfl⟩ : ∃ l' z, l = l' ++ [z] := ⟨_, _, (List.dropLast_append_getLast hl).symm⟩
  have h1 := peak_is fun z hz => (h z (List.mem_append_left [_] hz)).1
  have hz := h z (by simp)
  simp only [ddK, List.map_append, List.map_singleton, List.dropLast_concat, List.getLastD_concat] at hne ⊢
  exact drawdownOf_close A hu hc hΩ h1 hz.1 (peakK_nonneg _) hz.2 hne
example := C70_drawdown (K := ℚ) (α := F32 ℚ) round32_accurate (by norm_num) (by norm_num) (by norm_num)

end TS
