import Verif.Lemmas.Accuracy
import Verif.Lemmas.Stats
/-
Errors of floating-point arithmetic: relative errors of sums of numbers of different size, square roots, standard deviations.
-/
namespace TS
open XR FloatArith
set_option linter.unusedSectionVars false

section
variable {K : Type} [Field K] [LinearOrder K] [IsStrictOrderedRing K]

section sum
variable {u c Ω : K} {N : Nat} {rnd : XR K → XR K} (R : Rounds rnd) (A : Accurate rnd u c Ω N)
include A R

/-- the error of a sum relative to the sum of the sizes -/
theorem tree_rel {r : Nat → K} (hrr : ∀ i, rnd (fin (r i)) = fin (r i)) (n : Nat) {T : K} (hΩ : (1 + u) ^ n * T ≤ Ω) :
    ∀ t : SumTree, t.elems.length ≤ n → (t.elems.map fun i => |r i| + c).sum ≤ T → ∃ y : K,
      t.eval (fin 0) (fun a b => rnd (XR.add a b)) (fun i => fin (r i)) = fin y ∧ rnd (fin y) = fin y ∧
      |(t.elems.map r).sum| + t.elems.length * c ≤ (t.elems.map fun i => |r i| + c).sum ∧
      |y - (t.elems.map r).sum| ≤ ((1 + u) ^ (t.elems.length - 1) - 1) * (t.elems.map fun i => |r i| + c).sum := by
  have hu := A.u_nonneg
  have hc := A.c_nonneg
  intro t
  induction t with
  | zero => intro _ _; exact ⟨0, rfl, R.zero, by simp [SumTree.elems], by simp [SumTree.elems]⟩
  | elem i => intro _ _; exact ⟨r i, rfl, hrr i, by simp [SumTree.elems], by simp [SumTree.elems]⟩
  | add a b iha ihb =>
    intro hl hT
    simp only [SumTree.elems, List.length_append, List.map_append, List.sum_append] at hl hT ⊢
    have hWa : 0 ≤ (a.elems.map fun i => |r i| + c).sum := List.sum_nonneg (by simp only [List.mem_map]; rintro _ ⟨i, -, rfl⟩; positivity)
    have hWb : 0 ≤ (b.elems.map fun i => |r i| + c).sum := List.sum_nonneg (by simp only [List.mem_map]; rintro _ ⟨i, -, rfl⟩; positivity)
    obtain ⟨y, h1, h2, h3, h4⟩ := iha (by omega) (by linarith)
    obtain ⟨z, h5, h6, h7, h8⟩ := ihb (by omega) (by linarith)
    simp only [SumTree.eval, h1, h5]
    rcases Nat.eq_zero_or_pos a.elems.length with ha | ha
    · rw [List.length_eq_zero_iff] at ha
      simp only [ha, List.map_nil, List.sum_nil, mul_zero, sub_zero, abs_nonpos_iff] at h4
      subst h4
      simp only [ha, List.map_nil, List.sum_nil, List.length_nil, zero_add, XR.add]
      exact ⟨z, h6, h6, h7, h8⟩
    rcases Nat.eq_zero_or_pos b.elems.length with hb | hb
    · rw [List.length_eq_zero_iff] at hb
      simp only [hb, List.map_nil, List.sum_nil, mul_zero, sub_zero, abs_nonpos_iff] at h8
      subst h8
      simp only [hb, List.map_nil, List.sum_nil, List.length_nil, add_zero, XR.add]
      exact ⟨y, h2, h2, h3, h4⟩
    generalize (a.elems.map r).sum = x at *
    generalize (b.elems.map r).sum = w at *
    generalize (a.elems.map fun i => |r i| + c).sum = V at *
    generalize (b.elems.map fun i => |r i| + c).sum = W at *
    generalize a.elems.length = k at *
    generalize b.elems.length = l at *
    set g : K := (1 + u) ^ (k + l - 2)
    have h1u : (1 : K) ≤ 1 + u := by linarith
    have hg1 : (1 + u) ^ (k - 1) ≤ g := pow_le_pow_right₀ h1u (by omega)
    have hg2 : (1 + u) ^ (l - 1) ≤ g := pow_le_pow_right₀ h1u (by omega)
    have hg : 1 ≤ g := one_le_pow₀ h1u
    have hg' : (1 + u) ^ (k + l - 1) = (1 + u) * g := by rw [← pow_succ']; congr 1; omega
    have h4' : |y - x| ≤ (g - 1) * V := h4.trans (mul_le_mul_of_nonneg_right (by linarith) hWa)
    have h8' : |z - w| ≤ (g - 1) * W := h8.trans (mul_le_mul_of_nonneg_right (by linarith) hWb)
    have hd : |y + z - (x + w)| ≤ (g - 1) * (V + W) := by
      rw [add_sub_add_comm]
      refine (abs_add_le _ _).trans ((add_le_add h4' h8').trans (le_of_eq ?_))
      ring
    have hs : |x + w| + ((k + l : Nat) : K) * c ≤ V + W := by
      have := abs_add_le x w
      push_cast
      linarith
    have hkl : (1 : K) ≤ ((k + l : Nat) : K) := by exact_mod_cast (by omega : 1 ≤ k + l)
    have hyz : |y + z| + c ≤ g * (V + W) := by
      have := abs_add_le (x + w) (y + z - (x + w))
      rw [add_sub_cancel] at this
      nlinarith
    have hov : |y + z| ≤ Ω := by
      refine le_trans ?_ hΩ
      have e1 : g * (V + W) ≤ (1 + u) ^ n * T := mul_le_mul (pow_le_pow_right₀ h1u (by omega)) hT (by linarith) (by positivity)
      linarith
    obtain ⟨v, hv1, hv2⟩ := A.close _ hov
    refine ⟨v, hv1, by rw [← hv1, R.idem], hs, (abs_sub_le v (y + z) (x + w)).trans ?_⟩
    rw [hg']
    have := mul_le_mul_of_nonneg_left hyz hu
    nlinarith
end sum

variable {α : Type} [TFNum α] [F : FloatArith α K] {u c Ω : K} {N : Nat} (A : Accurate (rnd (α := α)) u c Ω N)
include A

theorem sum_rel {l : List (α × K)} (h : ∀ z ∈ l, val z.1 = fin z.2) (hΩ : (1 + u) ^ l.length * (l.map fun z => |z.2| + c).sum ≤ Ω) :
    Close (Arith.sum (l.map Prod.fst) : α) (l.map Prod.snd).sum (((1 + u) ^ (l.length - 1) - 1) * (l.map fun z => |z.2| + c).sum) := by
  obtain ⟨t, ht, hs⟩ := F.sum_eq l.length
  let r : Nat → K := fun i => ((l[i]?).map Prod.snd).getD 0
  have e1 : (fun i => (((l.map Prod.fst)[i]?).map val).getD (fin 0)) = fun i => fin (r i) := by
    funext i
    simp only [r, List.getElem?_map, Option.map_map]
    rcases hi : l[i]? with _ | z
    · rfl
    · simp only [Option.map_some, Function.comp_apply, Option.getD_some]
      exact h z (List.mem_of_getElem? hi)
  have hrr : ∀ i, rnd (α := α) (fin (r i)) = fin (r i) := by
    intro i
    simp only [r]
    rcases hi : l[i]? with _ | z
    · exact F.rounds.zero
    · simp only [Option.map_some, Option.getD_some]
      rw [← h z (List.mem_of_getElem? hi)]; exact F.val_rnd _
  have hl : t.elems.length = l.length := by rw [ht.length_eq, List.length_range]
  have key : ∀ f : K → K, (t.elems.map fun i => f (r i)).sum = (l.map fun z => f z.2).sum := fun f => by
    rw [(ht.map _).sum_eq]
    congr 1
    refine List.ext_getElem (by simp) fun i h1 h2 => ?_
    simp only [List.length_map] at h2
    simp [r, List.getElem?_eq_getElem h2]
  have e2 := key id
  simp only [id] at e2
  have e3 := key fun x => |x| + c
  obtain ⟨y, h1, -, -, h4⟩ := tree_rel F.rounds A hrr l.length hΩ t hl.le e3.le
  rw [hl, e3] at h4
  rw [show (t.elems.map r).sum = (l.map Prod.snd).sum from e2] at h4
  refine ⟨y, ?_, h4⟩
  rw [hs _ (by simp), e1, h1]

end

/-! ### Means of squares -/

theorem sq_avg_le {A : Type} {l : List A} (hl : l ≠ []) (f : A → ℝ) : avg (l.map f) ^ 2 ≤ avg (l.map fun x => f x ^ 2) := by
  have h := variance_nonneg (l.map f)
  have hn : (l.length : ℝ) ≠ 0 := by exact_mod_cast (List.length_pos_iff.2 hl).ne'
  have key : ∀ (m : List A) (a : ℝ), (m.map fun x => (f x - a) ^ 2).sum = (m.map fun x => f x ^ 2).sum - 2 * a * (m.map f).sum + m.length * a ^ 2 := by
    intro m a
    induction m with
    | nil => simp
    | cons x m ih => simp only [List.map_cons, List.sum_cons, ih, List.length_cons]; push_cast; ring
  have e : variance (l.map f) = avg (l.map fun x => f x ^ 2) - avg (l.map f) ^ 2 := by
    rw [variance, List.map_map, Function.comp_def, avg.eq_1 (l.map fun x => (f x - avg (l.map f)) ^ 2), key, avg, avg]
    simp only [List.length_map]
    field_simp
    ring
  linarith

/-- Minkowski: when the elements differ by at most `e`, so do the roots of the means of the squares. -/
theorem rms_le {A : Type} {l : List A} (hl : l ≠ []) {f g : A → ℝ} {e : ℝ} (h : ∀ x ∈ l, |f x - g x| ≤ e) :
    Real.sqrt (avg (l.map fun x => f x ^ 2)) ≤ Real.sqrt (avg (l.map fun x => g x ^ 2)) + e := by
  have he : 0 ≤ e := by obtain ⟨x, l, rfl⟩ := List.exists_cons_of_ne_nil hl; exact (abs_nonneg _).trans (h x (by simp))
  have hn : (0 : ℝ) < l.length := by exact_mod_cast List.length_pos_iff.2 hl
  set s := Real.sqrt (avg (l.map fun x => g x ^ 2)) with es
  have h0 : 0 ≤ avg (l.map fun x => g x ^ 2) := avg_nonneg (by simp only [List.mem_map]; rintro _ ⟨x, -, rfl⟩; positivity)
  have hs : s ^ 2 = avg (l.map fun x => g x ^ 2) := Real.sq_sqrt h0
  have h1 : avg (l.map fun x => |g x|) ≤ s := by
    refine Real.le_sqrt_of_sq_le ?_
    have := sq_avg_le hl fun x => |g x|
    simpa only [sq_abs] using this
  refine Real.sqrt_le_iff.2 ⟨by positivity, ?_⟩
  have key : ∀ m : List A, (∀ x ∈ m, |f x - g x| ≤ e) → (m.map fun x => f x ^ 2).sum ≤ (m.map fun x => g x ^ 2).sum + 2 * e * (m.map fun x => |g x|).sum + m.length * e ^ 2 := by
    intro m hm
    induction m with
    | nil => simp
    | cons x m ih =>
      have := ih fun y hy => hm y (by simp [hy])
      have hx := hm x (by simp)
      have hfx : |f x| ≤ |g x| + e := by
        have := abs_add_le (g x) (f x - g x)
        rw [add_sub_cancel] at this
        linarith
      have hf2 : f x ^ 2 ≤ (|g x| + e) ^ 2 := by rw [← sq_abs]; exact pow_le_pow_left₀ (abs_nonneg _) hfx 2
      have hg2 : |g x| ^ 2 = g x ^ 2 := sq_abs _
      simp only [List.map_cons, List.sum_cons, List.length_cons]
      push_cast
      nlinarith
  have k := key l h
  have e1 : ∀ f : A → ℝ, (l.map f).sum = l.length * avg (l.map f) := fun f => by rw [avg, List.length_map]; field_simp
  rw [e1, e1, e1, ← hs] at k
  have k2 : avg (l.map fun x => f x ^ 2) ≤ s ^ 2 + 2 * e * avg (l.map fun x => |g x|) + e ^ 2 := by
    have : l.length * avg (l.map fun x => f x ^ 2) ≤ l.length * (s ^ 2 + 2 * e * avg (l.map fun x => |g x|) + e ^ 2) := by nlinarith
    exact le_of_mul_le_mul_left this hn
  nlinarith [mul_le_mul_of_nonneg_left h1 he]

/-- the error of a root -/
theorem sqrt_near {v q g c t : ℝ} (hv : 0 ≤ v) (hq : 0 ≤ q) (hg : 0 ≤ g) (ht : 0 ≤ t) (htc : g * c ≤ t ^ 2) (h : |v - q| ≤ g * (q + c)) :
    |Real.sqrt v - Real.sqrt q| ≤ g * Real.sqrt q + t := by
  set r := Real.sqrt v
  set s := Real.sqrt q
  have hr : r ^ 2 = v := Real.sq_sqrt hv
  have hs : s ^ 2 = q := Real.sq_sqrt hq
  have hr0 : 0 ≤ r := Real.sqrt_nonneg _
  have hs0 : 0 ≤ s := Real.sqrt_nonneg _
  have h1 : |r - s| * (r + s) ≤ g * (s ^ 2 + c) := by
    rw [← hr, ← hs] at h
    rwa [show r ^ 2 - s ^ 2 = (r - s) * (r + s) by ring, abs_mul, abs_of_nonneg (by positivity : 0 ≤ r + s)] at h
  have h2 : |r - s| ≤ r + s := by rw [abs_le]; constructor <;> linarith
  by_contra hc
  push Not at hc
  have ha := abs_nonneg (r - s)
  have hgs : 0 ≤ g * s := by positivity
  have h3 : g * s * s + t * t < |r - s| * (r + s) := by
    have h4 : t ≤ r + s := by linarith
    rcases eq_or_lt_of_le (add_nonneg hr0 hs0) with e | e
    · linarith
    · have : (g * s + t) * (r + s) < |r - s| * (r + s) := mul_lt_mul_of_pos_right hc e
      nlinarith [mul_nonneg hgs hr0, mul_le_mul_of_nonneg_left h4 ht]
  nlinarith

end TS
