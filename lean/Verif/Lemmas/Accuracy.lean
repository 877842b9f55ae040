import Verif.Spec.Accuracy
import Verif.Lemmas.Binary32
import Verif.Props.AveragesExact
import Mathlib.Tactic.Linarith
import Mathlib.Tactic.Positivity
/-
Errors of floating-point arithmetic: single operations, sums, recursive averages.
-/
namespace TS
open XR FloatArith
set_option linter.unusedSectionVars false
variable {K : Type} [Field K] [LinearOrder K] [IsStrictOrderedRing K]

section round
variable [FloorRing K]

theorem nearestEven_close (x : K) : |(nearestEven x : K) - x| ≤ 1 / 2 := by
  have h1 := Int.floor_le x
  have h2 := Int.lt_floor_add_one x
  unfold nearestEven
  rw [abs_le]
  split_ifs <;> push_cast <;> constructor <;> linarith

theorem roundPos_close {x : K} (hx : 0 < x) : |roundPos x - x| ≤ 2 ^ (-24 : Int) * (x + 2 ^ (-126 : Int)) := by
  have hp : (0 : K) < 2 ^ lastDigit x := two_zpow_pos _
  have e : roundPos x - x = ((nearestEven (x / 2 ^ lastDigit x) : K) - x / 2 ^ lastDigit x) * 2 ^ lastDigit x := by
    rw [sub_mul, div_mul_cancel₀ _ hp.ne', roundPos]
  rw [e, abs_mul, abs_of_pos hp]
  have h1 := mul_le_mul_of_nonneg_right (nearestEven_close (x / 2 ^ lastDigit x)) hp.le
  refine h1.trans ?_
  have h2 : (2 : K) ^ lastDigit x ≤ 2 ^ (-23 : Int) * (x + 2 ^ (-126 : Int)) := by
    unfold lastDigit
    rcases le_total (Int.log 2 x) (-126) with h | h
    · rw [max_eq_right h, show (-126 - 23 : Int) = -23 + -126 from rfl, zpow_add₀ (by norm_num)]
      exact mul_le_mul_of_nonneg_left (by linarith) (two_zpow_pos _).le
    · rw [max_eq_left h, sub_eq_neg_add, zpow_add₀ (by norm_num)]
      refine mul_le_mul_of_nonneg_left ?_ (two_zpow_pos _).le
      have := Int.zpow_log_le_self (b := 2) (by decide) hx
      have h3 : (2 : K) ^ Int.log 2 x ≤ x := by exact_mod_cast this
      have := two_zpow_pos (K := K) (-126)
      linarith
  have h3 : (2 : K) ^ (-24 : Int) = 1 / 2 * 2 ^ (-23 : Int) := by norm_num
  rw [h3, mul_assoc]
  exact mul_le_mul_of_nonneg_left h2 (by norm_num)

theorem roundFin_close (x : K) : |roundFin x - x| ≤ 2 ^ (-24 : Int) * (|x| + 2 ^ (-126 : Int)) := by
  unfold roundFin
  split_ifs with h h'
  · rw [abs_of_pos h]; exact roundPos_close h
  · have := roundPos_close (x := -x) (by linarith)
    rw [abs_of_neg h', show -roundPos (-x) - x = -(roundPos (-x) - -x) by ring, abs_neg]
    exact this
  · have : x = 0 := by linarith
    subst this
    simp only [sub_zero, abs_zero, zero_add]
    positivity

/-- Rounding to binary32 is accurate. -/
theorem round32_accurate : Accurate (round32 : XR K → XR K) (2 ^ (-24 : Int)) (2 ^ (-126 : Int)) (2 ^ 127) (2 ^ 23) where
  u_nonneg := (two_zpow_pos _).le
  c_nonneg := (two_zpow_pos _).le
  c_le := zpow_le_zpow_right₀ (by norm_num) (by norm_num)
  one_le := one_le_pow₀ (by norm_num)
  close x hx := by
    have h := roundFin_close x
    have h2 : (2 : K) ^ (-24 : Int) * (|x| + 2 ^ (-126 : Int)) < 2 ^ 127 := by
      have h3 : (2 : K) ^ (-24 : Int) ≤ 1 / 2 := by norm_num
      have h4 : (2 : K) ^ (-126 : Int) < 2 ^ 127 := by
        rw [← zpow_natCast]; exact zpow_lt_zpow_right₀ (by norm_num) (by norm_num)
      have h5 : |x| + 2 ^ (-126 : Int) < 2 * 2 ^ 127 := by linarith
      have h6 : (0 : K) ≤ |x| + 2 ^ (-126 : Int) := by positivity
      calc (2 : K) ^ (-24 : Int) * (|x| + 2 ^ (-126 : Int)) ≤ 1 / 2 * (|x| + 2 ^ (-126 : Int)) := mul_le_mul_of_nonneg_right h3 h6
        _ < 1 / 2 * (2 * 2 ^ 127) := mul_lt_mul_of_pos_left h5 (by norm_num)
        _ = 2 ^ 127 := by rw [← mul_assoc]; norm_num
    have h7 := abs_lt.1 (h.trans_lt h2)
    have h8 := abs_le.1 hx
    have e : (2 : K) ^ 128 = 2 ^ 127 + 2 ^ 127 := by norm_num
    refine ⟨roundFin x, ?_, h⟩
    show (if 2 ^ 128 ≤ roundFin x then pinf else if roundFin x ≤ - 2 ^ 128 then ninf else fin (roundFin x)) = _
    rw [if_neg (by rw [e]; linarith), if_neg (by rw [e]; linarith)]
  ints n hn := by
    have e : roundFin (n : K) = n := roundFin_int n (by exact_mod_cast hn)
    have h1 : |(n : K)| < 2 ^ 128 := by
      have : |(n : K)| ≤ 2 ^ 23 := by exact_mod_cast hn
      refine this.trans_lt ?_
      exact pow_lt_pow_right₀ (by norm_num) (by norm_num)
    have h2 := abs_lt.1 h1
    show (if 2 ^ 128 ≤ roundFin (n : K) then pinf else if roundFin (n : K) ≤ - 2 ^ 128 then ninf else fin (roundFin (n : K))) = _
    rw [e, if_neg (by linarith), if_neg (by linarith)]

end round

variable {α : Type} [TFNum α] [F : FloatArith α K]

theorem Close.mono {a : α} {x d e : K} (h : Close a x d) (hd : d ≤ e) : Close a x e := by
  obtain ⟨y, h1, h2⟩ := h
  exact ⟨y, h1, h2.trans hd⟩

theorem Close.exact {a : α} {x : K} (h : val a = fin x) : Close a x 0 := ⟨x, h, by simp⟩

theorem Close.of {a : α} {x d y : K} (h : Close a x d) : Close a y (d + |x - y|) := by
  obtain ⟨z, h1, h2⟩ := h
  exact ⟨z, h1, (abs_sub_le _ _ _).trans (by linarith)⟩

section
variable {u c Ω : K} {N : Nat} (A : Accurate (rnd (α := α)) u c Ω N)
include A

/-- an exact result up to `X` in size, computed from operands with errors and then rounded -/
theorem Accurate.round {a : α} {r x d X : K} (ha : val a = rnd (α := α) (fin r)) (hr : |r - x| ≤ d) (hx : |x| ≤ X) (hΩ : X + d ≤ Ω) :
    Close a x (d + u * (X + d + c)) := by
  have hrX : |r| ≤ X + d := by
    have := abs_add_le x (r - x)
    rw [add_sub_cancel] at this
    linarith
  obtain ⟨y, h1, h2⟩ := A.close r (hrX.trans hΩ)
  refine ⟨y, ha.trans h1, (abs_sub_le y r x).trans ?_⟩
  have := mul_le_mul_of_nonneg_left (add_le_add_left hrX c) A.u_nonneg
  linarith

theorem Close.add {a b : α} {x y d e X : K} (ha : Close a x d) (hb : Close b y e) (hx : |x + y| ≤ X) (hΩ : X + (d + e) ≤ Ω) :
    Close (a + b) (x + y) (d + e + u * (X + (d + e) + c)) := by
  obtain ⟨r, h1, h2⟩ := ha
  obtain ⟨t, h3, h4⟩ := hb
  refine A.round (r := r + t) (by rw [F.add_eq, h1, h3]; rfl) ?_ hx hΩ
  rw [add_sub_add_comm]
  exact (abs_add_le _ _).trans (add_le_add h2 h4)

theorem Close.sub {a b : α} {x y d e X : K} (ha : Close a x d) (hb : Close b y e) (hx : |x - y| ≤ X) (hΩ : X + (d + e) ≤ Ω) :
    Close (a - b) (x - y) (d + e + u * (X + (d + e) + c)) := by
  obtain ⟨r, h1, h2⟩ := ha
  obtain ⟨t, h3, h4⟩ := hb
  refine A.round (r := r - t) (by rw [F.sub_eq, h1, h3]; simp [XR.add, XR.neg, sub_eq_add_neg]) ?_ hx hΩ
  rw [sub_sub_sub_comm]
  exact (abs_sub _ _).trans (add_le_add h2 h4)

theorem Close.mul {a b : α} {x y d e X Y : K} (ha : Close a x d) (hb : Close b y e) (hx : |x| ≤ X) (hy : |y| ≤ Y)
    (hΩ : X * Y + (d * Y + X * e + d * e) ≤ Ω) :
    Close (a * b) (x * y) (d * Y + X * e + d * e + u * (X * Y + (d * Y + X * e + d * e) + c)) := by
  obtain ⟨r, h1, h2⟩ := ha
  obtain ⟨t, h3, h4⟩ := hb
  have hd := (abs_nonneg _).trans h2
  have hX := (abs_nonneg _).trans hx
  refine A.round (r := r * t) (by rw [F.mul_eq, h1, h3]; rfl) ?_ ?_ hΩ
  · have e1 : r * t - x * y = (r - x) * y + x * (t - y) + (r - x) * (t - y) := by ring
    rw [e1]
    refine (abs_add_le _ _).trans (add_le_add ((abs_add_le _ _).trans (add_le_add ?_ ?_)) ?_) <;> rw [abs_mul]
    · exact mul_le_mul h2 hy (abs_nonneg _) hd
    · exact mul_le_mul hx h4 (abs_nonneg _) hX
    · exact mul_le_mul h2 h4 (abs_nonneg _) hd
  · rw [abs_mul]
    exact mul_le_mul hx hy (abs_nonneg _) hX

/-- division by a small integer -/
theorem Close.div {a : α} {x d X : K} (ha : Close a x d) {n : Nat} (hn : 0 < n) (hN : n ≤ N) (hx : |x| / n ≤ X) (hΩ : X + d / n ≤ Ω) :
    Close (a / Arith.ofInt n) (x / n) (d / n + u * (X + d / n + c)) := by
  obtain ⟨r, h1, h2⟩ := ha
  have h0 : (n : K) ≠ 0 := by exact_mod_cast hn.ne'
  have hp : (0 : K) < n := by exact_mod_cast hn
  have hv : val (Arith.ofInt n : α) = fin (n : K) := by
    have := A.ints n (by simpa using hN)
    rw [Arith.ofInt, F.ofRat_eq]
    simpa using this
  refine A.round (r := r / n) ?_ ?_ (by rwa [abs_div, abs_of_pos hp]) hΩ
  · rw [F.div_eq _ _ (by rw [hv]; simpa using h0), h1, hv]
    simp [XR.div, h0]
  · rw [← sub_div, abs_div, abs_of_pos hp]
    exact div_le_div_of_nonneg_right h2 hp.le

theorem Close.ofRat {q : ℚ} (hq : |(q : K)| ≤ Ω) : Close (Arith.ofRat q : α) (q : K) (u * (|(q : K)| + c)) := by
  obtain ⟨y, h1, h2⟩ := A.close _ hq
  exact ⟨y, (F.ofRat_eq q).trans h1, h2⟩

theorem val_int {n : Int} (hn : |n| ≤ N) : val (Arith.ofInt n : α) = fin (n : K) := by
  rw [Arith.ofInt, F.ofRat_eq]
  simpa using A.ints n hn

end

section sum
variable {u c Ω : K} {N : Nat} {rnd : XR K → XR K} (R : Rounds rnd) (A : Accurate rnd u c Ω N)
include A R

theorem tree_close {r : Nat → K} {M : K} (hr : ∀ i, |r i| ≤ M) (hrr : ∀ i, rnd (fin (r i)) = fin (r i)) (n : Nat) (hΩ : (1 + u) ^ n * (n * (M + c)) ≤ Ω) :
    ∀ t : SumTree, t.elems.length ≤ n → ∃ y : K, t.eval (fin 0) (fun a b => rnd (XR.add a b)) (fun i => fin (r i)) = fin y ∧ rnd (fin y) = fin y ∧
      |(t.elems.map r).sum| ≤ t.elems.length * M ∧
      |y - (t.elems.map r).sum| ≤ ((1 + u) ^ (t.elems.length - 1) - 1) * (t.elems.length * (M + c)) := by
  have hu := A.u_nonneg
  have hc := A.c_nonneg
  have hM : 0 ≤ M := (abs_nonneg _).trans (hr 0)
  intro t
  induction t with
  | zero => intro _; exact ⟨0, rfl, R.zero, by simp [SumTree.elems], by simp [SumTree.elems]⟩
  | elem i => intro _; exact ⟨r i, rfl, hrr i, by simpa [SumTree.elems] using hr i, by simp [SumTree.elems]⟩
  | add a b iha ihb =>
    intro hl
    simp only [SumTree.elems, List.length_append] at hl ⊢
    obtain ⟨y, h1, h2, h3, h4⟩ := iha (by omega)
    obtain ⟨z, h5, h6, h7, h8⟩ := ihb (by omega)
    simp only [SumTree.eval, h1, h5, List.map_append, List.sum_append]
    rcases Nat.eq_zero_or_pos a.elems.length with ha | ha
    · rw [List.length_eq_zero_iff] at ha
      simp only [ha, List.map_nil, List.sum_nil, List.length_nil, Nat.cast_zero, zero_mul, mul_zero, sub_zero, abs_nonpos_iff] at h4
      subst h4
      simp only [ha, List.map_nil, List.sum_nil, List.length_nil, zero_add, XR.add]
      exact ⟨z, h6, h6, h7, h8⟩
    rcases Nat.eq_zero_or_pos b.elems.length with hb | hb
    · rw [List.length_eq_zero_iff] at hb
      simp only [hb, List.map_nil, List.sum_nil, List.length_nil, Nat.cast_zero, zero_mul, mul_zero, sub_zero, abs_nonpos_iff] at h8
      subst h8
      simp only [hb, List.map_nil, List.sum_nil, List.length_nil, add_zero, XR.add]
      exact ⟨y, h2, h2, h3, h4⟩
    generalize (a.elems.map r).sum = x at *
    generalize (b.elems.map r).sum = w at *
    generalize a.elems.length = k at *
    generalize b.elems.length = l at *
    set g : K := (1 + u) ^ (k + l - 2)
    have h1u : (1 : K) ≤ 1 + u := by linarith
    have hg1 : (1 + u) ^ (k - 1) ≤ g := pow_le_pow_right₀ h1u (by omega)
    have hg2 : (1 + u) ^ (l - 1) ≤ g := pow_le_pow_right₀ h1u (by omega)
    have hg : 1 ≤ g := one_le_pow₀ h1u
    have hg' : (1 + u) ^ (k + l - 1) = (1 + u) * g := by rw [← pow_succ']; congr 1; omega
    have hMc : 0 ≤ M + c := by linarith
    have hk : (0 : K) ≤ k * (M + c) := mul_nonneg (by positivity) hMc
    have hll : (0 : K) ≤ l * (M + c) := mul_nonneg (by positivity) hMc
    have h4' : |y - x| ≤ (g - 1) * (k * (M + c)) := h4.trans (mul_le_mul_of_nonneg_right (by linarith) hk)
    have h8' : |z - w| ≤ (g - 1) * (l * (M + c)) := h8.trans (mul_le_mul_of_nonneg_right (by linarith) hll)
    have hd : |y + z - (x + w)| ≤ (g - 1) * (((k + l : Nat) : K) * (M + c)) := by
      rw [add_sub_add_comm]
      refine (abs_add_le _ _).trans ((add_le_add h4' h8').trans (le_of_eq ?_))
      push_cast; ring
    have hs : |x + w| ≤ ((k + l : Nat) : K) * M := by
      refine (abs_add_le _ _).trans ((add_le_add h3 h7).trans (le_of_eq ?_))
      push_cast; ring
    have hkl : (1 : K) ≤ ((k + l : Nat) : K) := by exact_mod_cast (by omega : 1 ≤ k + l)
    have hyz : |y + z| + c ≤ g * (((k + l : Nat) : K) * (M + c)) := by
      have := abs_add_le (x + w) (y + z - (x + w))
      rw [add_sub_cancel] at this
      nlinarith
    have hov : |y + z| ≤ Ω := by
      refine le_trans ?_ hΩ
      have e1 : g * (((k + l : Nat) : K) * (M + c)) ≤ (1 + u) ^ n * (n * (M + c)) := by
        refine mul_le_mul (pow_le_pow_right₀ h1u (by omega)) (mul_le_mul_of_nonneg_right (by exact_mod_cast hl) hMc) ?_ (by positivity)
        exact mul_nonneg (by positivity) hMc
      linarith
    obtain ⟨v, hv1, hv2⟩ := A.close _ hov
    refine ⟨v, hv1, by rw [← hv1, R.idem], hs, (abs_sub_le v (y + z) (x + w)).trans ?_⟩
    rw [hg']
    have := mul_le_mul_of_nonneg_left hyz hu
    nlinarith
end sum

theorem pow_le {u : K} (hu : 0 ≤ u) {p : Nat} (h : 2 * p * u ≤ 1) : (1 + u) ^ p ≤ 1 + 2 * p * u := by
  induction p with
  | zero => simp
  | succ n ih =>
    push_cast at h ⊢
    have h1 : 2 * (n : K) * u ≤ 1 := by linarith
    have := ih h1
    rw [pow_succ]
    have h2 := mul_le_mul_of_nonneg_right this (by linarith : 0 ≤ 1 + u)
    have h3 := mul_le_mul_of_nonneg_right h1 hu
    linarith


section average
variable [Transc K] [FloorRing K] {u c Ω : K} {N : Nat} (A : Accurate (rnd (α := α)) u c Ω N)
include A

theorem sum_close {l : List (α × K)} {M : K} (hM : 0 ≤ M) (h : ∀ z ∈ l, val z.1 = fin z.2 ∧ |z.2| ≤ M) (hΩ : (1 + u) ^ l.length * (l.length * (M + c)) ≤ Ω) :
    Close (Arith.sum (l.map Prod.fst) : α) (l.map Prod.snd).sum (((1 + u) ^ (l.length - 1) - 1) * (l.length * (M + c))) := by
  obtain ⟨t, ht, hs⟩ := F.sum_eq l.length
  let r : Nat → K := fun i => ((l[i]?).map Prod.snd).getD 0
  have e1 : (fun i => (((l.map Prod.fst)[i]?).map val).getD (fin 0)) = fun i => fin (r i) := by
    funext i
    simp only [r, List.getElem?_map, Option.map_map]
    rcases hi : l[i]? with _ | z
    · rfl
    · simp only [Option.map_some, Function.comp_apply, Option.getD_some]
      exact (h z (List.mem_of_getElem? hi)).1
  have hr : ∀ i, |r i| ≤ M := by
    intro i
    simp only [r]
    rcases hi : l[i]? with _ | z
    · simpa using hM
    · exact (h z (List.mem_of_getElem? hi)).2
  have hrr : ∀ i, rnd (α := α) (fin (r i)) = fin (r i) := by
    intro i
    simp only [r]
    rcases hi : l[i]? with _ | z
    · exact F.rounds.zero
    · simp only [Option.map_some, Option.getD_some]
      rw [← (h z (List.mem_of_getElem? hi)).1]; exact F.val_rnd _
  have hl : t.elems.length = l.length := by rw [ht.length_eq, List.length_range]
  have e2 : (t.elems.map r).sum = (l.map Prod.snd).sum := by
    rw [(ht.map r).sum_eq]
    congr 1
    refine List.ext_getElem (by simp) fun i h1 h2 => ?_
    simp only [List.length_map] at h2
    simp [r, List.getElem?_eq_getElem h2]
  obtain ⟨y, h1, -, -, h4⟩ := tree_close F.rounds A hr hrr l.length hΩ t hl.le
  rw [e2, hl] at h4
  refine ⟨y, ?_, h4⟩
  rw [hs _ (by simp), e1, h1]

variable {p : Nat} (hp : 0 < p) (hpN : p ≤ N) (hpu : 32 * ((p : K) + 1) * u ≤ 1) {M : K} (hcM : c ≤ M) (hΩ : 4 * ((p : K) + 1) * M ≤ Ω)
include hp hpN hpu hcM hΩ

theorem movingAvg_close {l : List (α × K)} (h : ∀ z ∈ l, val z.1 = fin z.2 ∧ |z.2| ≤ M) :
    Close (movingAvg p (l.map Prod.fst) : α) (movingAvgK p (l.map Prod.snd)) (4 * p * u * M) := by
  have hu := A.u_nonneg
  have hc := A.c_nonneg
  have hM : 0 ≤ M := hc.trans hcM
  unfold movingAvg movingAvgK
  simp only [List.length_map]
  split
  · exact (Close.exact (val_zero (α := α))).mono (by positivity)
  rename_i hl
  have hw : ∀ z ∈ window p l, val z.1 = fin z.2 ∧ |z.2| ≤ M := fun z hz => h z (mem_of_mem_window hz)
  have hn : (window p l).length = p := by rw [window_length]; omega
  have hp' : (1 : K) ≤ p := by exact_mod_cast hp
  have h2 : 2 * (p : K) * u ≤ 1 / 16 := by linarith
  have hpow := pow_le hu (p := p) (by linarith)
  have hpow1 : (1 : K) ≤ (1 + u) ^ (p - 1) := one_le_pow₀ (by linarith)
  have hpe : (1 + u) ^ p = (1 + u) * (1 + u) ^ (p - 1) := by rw [← pow_succ']; congr 1; omega
  have hMc : M + c ≤ 2 * M := by linarith
  have hMc0 : 0 ≤ M + c := by linarith
  have key : ((1 + u) ^ p - 1) * (M + c) ≤ 4 * p * u * M := by
    refine (mul_le_mul (by linarith : (1 + u) ^ p - 1 ≤ 2 * p * u) hMc hMc0 (by positivity)).trans (le_of_eq (by ring))
  have hov : (1 + u) ^ p * (p * (M + c)) ≤ Ω := by
    refine le_trans ?_ hΩ
    refine (mul_le_mul (by linarith : (1 + u) ^ p ≤ 2) (mul_le_mul_of_nonneg_left hMc (by positivity)) (by positivity) (by norm_num)).trans ?_
    nlinarith
  have hs := sum_close A hM hw (by rw [hn]; exact hov)
  rw [hn] at hs
  have e1 : window p (l.map Prod.fst) = (window p l).map Prod.fst := by simp [window]
  have e2 : window p (l.map Prod.snd) = (window p l).map Prod.snd := by simp [window]
  rw [e1, e2, avg, List.length_map, hn]
  have hp0 : (p : K) ≠ 0 := by linarith
  have hab : |((window p l).map Prod.snd).sum| ≤ p * M := by
    have : ∀ w : List (α × K), (∀ z ∈ w, val z.1 = fin z.2 ∧ |z.2| ≤ M) → |(w.map Prod.snd).sum| ≤ w.length * M := by
      intro w hw
      induction w with
      | nil => simp
      | cons z w ih =>
        simp only [List.map_cons, List.sum_cons, List.length_cons, Nat.cast_succ]
        have := ih fun z hz => hw z (List.mem_cons_of_mem _ hz)
        have h1 := (hw z List.mem_cons_self).2
        refine (abs_add_le _ _).trans ?_
        linarith
    have := this _ hw
    rwa [hn] at this
  have hd : ((1 + u) ^ (p - 1) - 1) * (p * (M + c)) / p = ((1 + u) ^ (p - 1) - 1) * (M + c) := by field_simp
  have := Close.div A hs hp hpN (X := M) (by rw [div_le_iff₀ (by linarith)]; linarith) ?_
  · refine this.mono (le_trans (le_of_eq ?_) key)
    rw [hd, hpe]; ring
  · rw [hd]
    have : ((1 + u) ^ (p - 1) - 1) * (M + c) ≤ (1 + u) ^ p * (p * (M + c)) - (M + c) := by
      rw [hpe]
      have h3 : (M + c) ≤ p * (M + c) := by nlinarith
      have h4 : (1 + u) ^ (p - 1) * (M + c) ≤ (1 + u) * (1 + u) ^ (p - 1) * (p * (M + c)) := by
        refine mul_le_mul ?_ h3 hMc0 (by positivity)
        nlinarith
      linarith
    linarith

/-- repeated steps of an average that keep the error below `D` -/
theorem recursiveAvg_close {f : α → α → α} {g : K → K → K} {D : K} (hD : 4 * p * u * M ≤ D)
    (hstep : ∀ e E x X, Close e E D → |E| ≤ M → val x = fin X → |X| ≤ M → Close (f e x) (g E X) D ∧ |g E X| ≤ M)
    {l : List (α × K)} (h : ∀ z ∈ l, val z.1 = fin z.2 ∧ |z.2| ≤ M) :
    Close (recursiveAvg p f (l.map Prod.fst) : α) (recursiveAvgK p g (l.map Prod.snd)) D := by
  have hM : 0 ≤ M := A.c_nonneg.trans hcM
  unfold recursiveAvg recursiveAvgK
  have h0 := movingAvg_close A hp hpN hpu hcM hΩ (l := l.take p) fun z hz => h z (List.mem_of_mem_take hz)
  rw [List.map_take, List.map_take] at h0
  have hE : |movingAvgK p ((l.map Prod.snd).take p)| ≤ M := by
    by_cases hl : ((l.map Prod.snd).take p).length < p
    · rw [movingAvgK, if_pos hl]; simpa using hM
    · refine abs_le.2 (movingAvgK_bounds hp (not_lt.1 hl) fun x hx => ?_)
      have := List.mem_of_mem_take (mem_of_mem_window hx)
      obtain ⟨z, hz, rfl⟩ := List.mem_map.1 this
      exact abs_le.1 (h z hz).2
  rw [← List.map_drop, ← List.map_drop]
  have h' : ∀ z ∈ l.drop p, val z.1 = fin z.2 ∧ |z.2| ≤ M := fun z hz => h z (List.mem_of_mem_drop hz)
  have h0 := h0.mono hD
  revert h0 hE
  generalize movingAvg p ((l.map Prod.fst).take p) = e
  generalize movingAvgK p ((l.map Prod.snd).take p) = E
  revert h'
  generalize l.drop p = m
  intro hm
  induction m generalizing e E with
  | nil => intro _ h; exact h
  | cons z m ih =>
    intro hE he
    obtain ⟨h1, h2⟩ := hstep e E z.1 z.2 he hE (hm z List.mem_cons_self).1 (hm z List.mem_cons_self).2
    exact ih _ _ (fun z hz => hm z (List.mem_cons_of_mem _ hz)) h2 h1

omit hp hpN in
set_option maxHeartbeats 1000000 in
theorem expStep_close (hp : 0 < p) {e x : α} {E X d : K} (hd : 0 ≤ d) (hdM : d ≤ M) (he : Close e E d) (hE : |E| ≤ M) (hx : val x = fin X) (hX : |X| ≤ M) :
    Close (x * Arith.ofRat (2 / ((p : ℚ) + 1)) + e * Arith.ofRat (1 - 2 / ((p : ℚ) + 1))) (E + 2 / ((p : K) + 1) * (X - E))
      ((1 - 2 / ((p : K) + 1)) * d + u * (12 * M + 3 * d)) ∧ |E + 2 / ((p : K) + 1) * (X - E)| ≤ M := by
  have hu := A.u_nonneg
  have hc := A.c_nonneg
  have hM : 0 ≤ M := hc.trans hcM
  have hp' : (1 : K) ≤ p := by exact_mod_cast hp
  obtain ⟨hk0, hk1⟩ := ema_weight (K := K) hp
  have hkp : 64 * u ≤ 2 / ((p : K) + 1) := by rw [le_div_iff₀ (by linarith)]; linarith
  have hu64 : 64 * u ≤ 1 := hkp.trans hk1
  have ek : (((2 / ((p : ℚ) + 1)) : ℚ) : K) = 2 / ((p : K) + 1) := by push_cast; rfl
  have ej : (((1 - 2 / ((p : ℚ) + 1)) : ℚ) : K) = 1 - 2 / ((p : K) + 1) := by push_cast; rfl
  generalize 2 / ((p : K) + 1) = k at *
  have hj0 : 0 ≤ 1 - k := by linarith
  have hck : c ≤ k := by have := A.c_le; linarith
  have hone := A.one_le
  have hΩ8 : 8 * M ≤ Ω := by nlinarith
  have huM : 0 ≤ u * M := mul_nonneg hu hM
  have hud : 0 ≤ u * d := mul_nonneg hu hd
  have huM64 : 64 * (u * M) ≤ M := by nlinarith
  have hud64 : 64 * (u * d) ≤ d := by nlinarith
  have hMk : M * k ≤ M := by nlinarith
  have hMk0 : 0 ≤ M * k := mul_nonneg hM hk0
  have hg : |E + k * (X - E)| ≤ M := by
    have h1 := abs_le.1 hE
    have h2 := abs_le.1 hX
    rw [abs_le]
    constructor <;> nlinarith
  refine ⟨?_, hg⟩
  -- the weights
  have hK : Close (Arith.ofRat (2 / ((p : ℚ) + 1)) : α) k (2 * u * k) := by
    have := Close.ofRat A (q := 2 / ((p : ℚ) + 1)) (by rw [ek, abs_of_nonneg hk0]; linarith)
    rw [ek, abs_of_nonneg hk0] at this
    refine this.mono ?_
    have := mul_le_mul_of_nonneg_left hck hu
    linarith
  have hJ : Close (Arith.ofRat (1 - 2 / ((p : ℚ) + 1)) : α) (1 - k) u := by
    have := Close.ofRat A (q := 1 - 2 / ((p : ℚ) + 1)) (by rw [ej, abs_of_nonneg hj0]; linarith)
    rw [ej, abs_of_nonneg hj0] at this
    refine this.mono ?_
    have := mul_le_mul_of_nonneg_left (by linarith : 1 - k + c ≤ 1) hu
    linarith
  -- the products
  have h5 : M * (2 * u * k) ≤ 2 * (u * M) := by
    have := mul_le_mul_of_nonneg_left hMk hu
    linarith
  have h5' : 0 ≤ M * (2 * u * k) := by positivity
  have hA := Close.mul A (Close.exact hx) hK hX (abs_of_nonneg hk0).le (by linarith)
  have hA : Close (x * Arith.ofRat (2 / ((p : ℚ) + 1)) : α) (X * k) (5 * (u * M)) := by
    refine hA.mono ?_
    have := mul_le_mul_of_nonneg_left (by linarith : M * k + (0 * k + M * (2 * u * k) + 0 * (2 * u * k)) + c ≤ 3 * M) hu
    linarith
  have hdj : d * (1 - k) ≤ d := by nlinarith
  have hdj0 : 0 ≤ d * (1 - k) := mul_nonneg hd hj0
  have hMj : M * (1 - k) ≤ M := by nlinarith
  have hB := Close.mul A he hJ hE (abs_of_nonneg hj0).le (by linarith)
  have hB : Close (e * Arith.ofRat (1 - 2 / ((p : ℚ) + 1)) : α) (E * (1 - k)) ((1 - k) * d + u * (4 * M + 2 * d)) := by
    refine hB.mono ?_
    have := mul_le_mul_of_nonneg_left (by linarith : M * (1 - k) + (d * (1 - k) + M * u + d * u) + c ≤ 3 * M + d) hu
    linarith
  -- the sum
  have e1 : X * k + E * (1 - k) = E + k * (X - E) := by ring
  have hS := Close.add A hA hB (X := M) (by rw [e1]; exact hg) (by linarith)
  rw [e1] at hS
  refine hS.mono ?_
  have := mul_le_mul_of_nonneg_left (by linarith : M + (5 * (u * M) + ((1 - k) * d + u * (4 * M + 2 * d))) + c ≤ 3 * M + d) hu
  linarith

omit hpu hΩ hp hpN in
set_option maxHeartbeats 1000000 in
theorem rollStep_close (hp : 0 < p) (hpN : p ≤ N) (hpu : 32 * ((p : K) + 1) * u ≤ 1) (hΩ : 4 * ((p : K) + 1) * M ≤ Ω)
    {e x : α} {E X d : K} (hd : 0 ≤ d) (hdM : d ≤ M) (he : Close e E d) (hE : |E| ≤ M) (hx : val x = fin X) (hX : |X| ≤ M) :
    Close ((e * Arith.ofInt ((p : Int) - 1) + x) / Arith.ofInt p) (E + 1 / (p : K) * (X - E)) ((1 - 1 / (p : K)) * d + u * (7 * M + 5 * d)) ∧
      |E + 1 / (p : K) * (X - E)| ≤ M := by
  have hu := A.u_nonneg
  have hc := A.c_nonneg
  have hM : 0 ≤ M := hc.trans hcM
  have hp' : (1 : K) ≤ p := by exact_mod_cast hp
  have hp0 : (0 : K) < p := by linarith
  obtain ⟨hk0, hk1⟩ := rma_weight (K := K) hp
  have hu64 : 64 * u ≤ 1 := by nlinarith
  have huM : 0 ≤ u * M := mul_nonneg hu hM
  have hud : 0 ≤ u * d := mul_nonneg hu hd
  have huM64 : 64 * (u * M) ≤ M := by nlinarith
  have hud64 : 64 * (u * d) ≤ d := by nlinarith
  have hpM : M ≤ p * M := by nlinarith
  have hpd : d ≤ p * d := by nlinarith
  have hpdM : p * d ≤ p * M := by nlinarith
  have hupM : 64 * (u * (p * M)) ≤ p * M := by nlinarith
  have hupd : 64 * (u * (p * d)) ≤ p * d := by nlinarith
  have hupM0 : 0 ≤ u * (p * M) := by positivity
  have hupd0 : 0 ≤ u * (p * d) := by positivity
  have hg : |E + 1 / (p : K) * (X - E)| ≤ M := by
    have h1 := abs_le.1 hE
    have h2 := abs_le.1 hX
    rw [abs_le]
    constructor <;> nlinarith
  refine ⟨?_, hg⟩
  have hi : val (Arith.ofInt ((p : Int) - 1) : α) = fin ((p : K) - 1) := by
    have := val_int (α := α) A (n := (p : Int) - 1) (by rw [abs_of_nonneg (by omega)]; omega)
    rw [this]; push_cast; rfl
  have hB := Close.mul A he (Close.exact hi) hE (abs_of_nonneg (by linarith : (0 : K) ≤ p - 1)).le (by linarith)
  have hB : Close (e * Arith.ofInt ((p : Int) - 1) : α) (E * ((p : K) - 1)) ((p - 1) * d + u * (p * M + p * d)) := by
    refine hB.mono ?_
    have := mul_le_mul_of_nonneg_left (by linarith : M * ((p : K) - 1) + (d * (p - 1) + M * 0 + d * 0) + c ≤ p * M + p * d) hu
    linarith
  have hpX : |E * ((p : K) - 1) + X| ≤ p * M := by
    have h1 : |E * ((p : K) - 1)| ≤ M * (p - 1) := by
      rw [abs_mul, abs_of_nonneg (by linarith : (0 : K) ≤ p - 1)]
      exact mul_le_mul_of_nonneg_right hE (by linarith)
    refine (abs_add_le _ _).trans ?_
    linarith
  have hS := Close.add A hB (Close.exact hx) hpX (by linarith)
  have hS : Close (e * Arith.ofInt ((p : Int) - 1) + x : α) (E * ((p : K) - 1) + X) ((p - 1) * d + 4 * (u * (p * M + p * d))) := by
    refine hS.mono ?_
    have := mul_le_mul_of_nonneg_left (by linarith : p * M + ((p - 1) * d + u * (p * M + p * d) + 0) + c ≤ 3 * (p * M + p * d)) hu
    linarith
  have e2 : ((p - 1) * d + 4 * (u * (p * M + p * d))) / p = (1 - 1 / (p : K)) * d + 4 * (u * (M + d)) := by field_simp
  have e3 : (E * ((p : K) - 1) + X) / p = E + 1 / (p : K) * (X - E) := by field_simp; ring
  have hkd : (1 - 1 / (p : K)) * d ≤ d := by nlinarith
  have hT := Close.div A hS hp hpN (X := M) (by rw [div_le_iff₀ hp0]; linarith) (by rw [e2]; linarith)
  rw [e2, e3] at hT
  refine hT.mono ?_
  have := mul_le_mul_of_nonneg_left (by linarith : M + ((1 - 1 / (p : K)) * d + 4 * (u * (M + d))) + c ≤ 3 * M + d) hu
  linarith

theorem expAvg_close {l : List (α × K)} (h : ∀ z ∈ l, val z.1 = fin z.2 ∧ |z.2| ≤ M) :
    Close (expAvg p (l.map Prod.fst) : α) (recursiveAvgK p (fun m x => m + 2 / ((p : K) + 1) * (x - m)) (l.map Prod.snd)) (7 * (p + 1) * u * M) := by
  have hu := A.u_nonneg
  have hM : 0 ≤ M := A.c_nonneg.trans hcM
  have huM : 0 ≤ u * M := mul_nonneg hu hM
  have hpuM : 32 * (((p : K) + 1) * (u * M)) ≤ M := by nlinarith
  have hp0 : (0 : K) < p + 1 := by positivity
  refine recursiveAvg_close A hp hpN hpu hcM hΩ (by nlinarith) (fun e E x X he hE hx hX => ?_) h
  have h0 : 0 ≤ 7 * ((p : K) + 1) * u * M := by positivity
  obtain ⟨h1, h2⟩ := expStep_close A hpu hcM hΩ hp h0 (by linarith) he hE hx hX
  refine ⟨h1.mono ?_, h2⟩
  have e1 : (1 - 2 / ((p : K) + 1)) * (7 * (p + 1) * u * M) = 7 * (p + 1) * u * M - 14 * (u * M) := by field_simp; ring
  rw [e1]
  have := mul_le_mul_of_nonneg_left hpuM hu
  linarith

theorem rollAvg_close {l : List (α × K)} (h : ∀ z ∈ l, val z.1 = fin z.2 ∧ |z.2| ≤ M) :
    Close (rollAvg p (l.map Prod.fst) : α) (recursiveAvgK p (fun m x => m + 1 / (p : K) * (x - m)) (l.map Prod.snd)) (9 * p * u * M) := by
  have hu := A.u_nonneg
  have hM : 0 ≤ M := A.c_nonneg.trans hcM
  have huM : 0 ≤ u * M := mul_nonneg hu hM
  have hpuM : 32 * ((p : K) * (u * M)) ≤ M := by nlinarith
  have hp0 : (0 : K) < p := by exact_mod_cast hp
  have h0 : 0 ≤ (p : K) * (u * M) := by positivity
  refine recursiveAvg_close A hp hpN hpu hcM hΩ (by linarith) (fun e E x X he hE hx hX => ?_) h
  obtain ⟨h1, h2⟩ := rollStep_close A hcM hp hpN hpu hΩ (d := 9 * p * u * M) (by linarith) (by linarith) he hE hx hX
  refine ⟨h1.mono ?_, h2⟩
  have e1 : (1 - 1 / (p : K)) * (9 * p * u * M) = 9 * p * u * M - 9 * (u * M) := by field_simp
  rw [e1]
  have := mul_le_mul_of_nonneg_left hpuM hu
  linarith
end average

end TS
