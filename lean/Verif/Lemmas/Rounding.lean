import Verif.Spec.Rounding
import Verif.Lemmas.Streams
/-
Order and sign under rounding.
-/
namespace TS
set_option linter.unusedSectionVars false

namespace XR
variable {K : Type} [Field K] [LinearOrder K] [IsStrictOrderedRing K]

theorem lt_false_iff {a b : XR K} : lt a b = false ↔ a = nan ∨ b = nan ∨ le b a = true := by
  cases a <;> cases b <;> simp [lt, le]

theorem le_refl' {a : XR K} (h : a ≠ nan) : le a a = true := by
  cases a <;> simp_all [le]

theorem le_trans' {a b c : XR K} (h : le a b = true) (h' : le b c = true) : le a c = true := by
  cases a <;> cases b <;> cases c <;> simp_all [le]
  exact h.trans h'

theorem le_total' {a b : XR K} (ha : a ≠ nan) (hb : b ≠ nan) : le a b = true ∨ le b a = true := by
  cases a <;> cases b <;> simp_all [le]
  exact le_total _ _

theorem le_not_nan {a b : XR K} (h : le a b = true) : a ≠ nan ∧ b ≠ nan := by
  cases a <;> cases b <;> simp_all [le]

theorem le_antisymm' {a b : XR K} (h : le a b = true) (h' : le b a = true) : a = b := by
  cases a <;> cases b <;> simp_all [le]
  exact le_antisymm h h'

theorem infOf_nn {a : K} (h : 0 ≤ a) : lt (infOf a) (fin 0) = false := by
  unfold infOf
  split
  · rfl
  · rw [if_neg (not_lt.2 h)]; rfl

theorem add_nn {a b : XR K} (ha : lt a (fin 0) = false) (hb : lt b (fin 0) = false) : lt (add a b) (fin 0) = false := by
  cases a <;> cases b <;> simp_all [lt, add]
  exact add_nonneg ha hb

theorem mul_nn {a b : XR K} (ha : lt a (fin 0) = false) (hb : lt b (fin 0) = false) : lt (mul a b) (fin 0) = false := by
  cases a <;> cases b <;> simp_all [lt, mul]
  · exact mul_nonneg ha hb
  · exact infOf_nn ha
  · exact infOf_nn hb

theorem mul_self_nn (a : XR K) : lt (mul a a) (fin 0) = false := by
  cases a <;> simp [lt, mul]
  exact mul_self_nonneg _

theorem div_nn {a b : XR K} (hb0 : b ≠ fin 0) (ha : lt a (fin 0) = false) (hb : lt b (fin 0) = false) : lt (div a b) (fin 0) = false := by
  cases a <;> cases b <;> simp_all [lt, div]
  · exact div_nonneg ha hb

theorem div_np {a b : XR K} (hb0 : b ≠ fin 0) (ha : lt (fin 0) a = false) (hb : lt b (fin 0) = false) : lt (fin 0) (div a b) = false := by
  cases a <;> cases b <;> simp_all [lt, div]
  · exact div_nonpos_of_nonpos_of_nonneg ha hb

theorem neg_nn {a : XR K} (ha : lt (fin 0) a = false) : lt (neg a) (fin 0) = false := by
  cases a <;> simp_all [lt, neg]

theorem neg_np {a : XR K} (ha : lt a (fin 0) = false) : lt (fin 0) (neg a) = false := by
  cases a <;> simp_all [lt, neg]

theorem abs_nn (a : XR K) : lt (abs a) (fin 0) = false := by
  cases a <;> simp [lt, abs]

theorem add_ge {m d : XR K} (hd : lt d (fin 0) = false) : lt (add m d) m = false := by
  cases m <;> cases d <;> simp_all [lt, add]

theorem sub_le {m d : XR K} (hd : lt d (fin 0) = false) : lt m (add m (neg d)) = false := by
  cases m <;> cases d <;> simp_all [lt, add, neg]

theorem foldr_max_le {l : List (XR K)} (h : ∀ x ∈ l, x ≠ nan) : l.foldr max ninf ≠ nan ∧ ∀ x ∈ l, le x (l.foldr max ninf) = true := by
  induction l with
  | nil => simp
  | cons a l ih =>
    obtain ⟨h1, h2⟩ := ih fun x hx => h x (by simp [hx])
    have ha := h a (by simp)
    have key : max a (l.foldr max ninf) ≠ nan ∧ le a (max a (l.foldr max ninf)) = true ∧ le (l.foldr max ninf) (max a (l.foldr max ninf)) = true := by
      generalize l.foldr max ninf = b at h1
      have e : max a b = if lt a b then b else a := by cases a <;> cases b <;> simp_all [max]
      rw [e]
      cases hl : lt a b with
      | true =>
        have : le a b = true := by cases a <;> cases b <;> simp_all [lt, le]; exact hl.le
        simp [h1, this, le_refl' h1]
      | false =>
        rcases lt_false_iff.1 hl with h | h | h
        · exact absurd h ha
        · exact absurd h h1
        · simp [ha, h, le_refl' ha]
    refine ⟨key.1, ?_⟩
    simp only [List.mem_cons, forall_eq_or_imp, List.foldr_cons]
    exact ⟨key.2.1, fun x hx => le_trans' (h2 x hx) key.2.2⟩

theorem foldr_min_le {l : List (XR K)} (h : ∀ x ∈ l, x ≠ nan) : l.foldr min pinf ≠ nan ∧ ∀ x ∈ l, le (l.foldr min pinf) x = true := by
  induction l with
  | nil => simp
  | cons a l ih =>
    obtain ⟨h1, h2⟩ := ih fun x hx => h x (by simp [hx])
    have ha := h a (by simp)
    have key : min a (l.foldr min pinf) ≠ nan ∧ le (min a (l.foldr min pinf)) a = true ∧ le (min a (l.foldr min pinf)) (l.foldr min pinf) = true := by
      generalize l.foldr min pinf = b at h1
      have e : min a b = if lt b a then b else a := by cases a <;> cases b <;> simp_all [min]
      rw [e]
      cases hl : lt b a with
      | true =>
        have : le b a = true := by cases a <;> cases b <;> simp_all [lt, le]; exact hl.le
        simp [h1, this, le_refl' h1]
      | false =>
        rcases lt_false_iff.1 hl with h | h | h
        · exact absurd h h1
        · exact absurd h ha
        · simp [ha, h, le_refl' ha]
    refine ⟨key.1, ?_⟩
    simp only [List.mem_cons, forall_eq_or_imp, List.foldr_cons]
    exact ⟨key.2.1, fun x hx => le_trans' key.2.2 (h2 x hx)⟩

theorem max_spec {a b : XR K} (ha : a ≠ nan) (hb : b ≠ nan) : max a b ≠ nan ∧ le a (max a b) = true ∧ le b (max a b) = true := by
  have h := foldr_max_le (l := [a, b]) (by simp [ha, hb])
  have e : max b ninf = b := by cases b <;> simp_all [max, lt]
  simp only [List.foldr_cons, List.foldr_nil, e, List.mem_cons, List.not_mem_nil, or_false, forall_eq_or_imp, forall_eq] at h
  exact h

theorem min_spec {a b : XR K} (ha : a ≠ nan) (hb : b ≠ nan) : min a b ≠ nan ∧ le (min a b) a = true ∧ le (min a b) b = true := by
  have h := foldr_min_le (l := [a, b]) (by simp [ha, hb])
  have e : min b pinf = b := by cases b <;> simp_all [min, lt]
  simp only [List.foldr_cons, List.foldr_nil, e, List.mem_cons, List.not_mem_nil, or_false, forall_eq_or_imp, forall_eq] at h
  exact h

theorem min_cases' {a b : XR K} (ha : a ≠ nan) (hb : b ≠ nan) : min a b = a ∨ min a b = b := by
  have e : min a b = if lt b a then b else a := by cases a <;> cases b <;> simp_all [min]
  rw [e]
  split
  · exact .inr rfl
  · exact .inl rfl

end XR

open XR
section
variable {K : Type} [Field K] [LinearOrder K] [IsStrictOrderedRing K]

namespace Rounds
variable {rnd : XR K → XR K} (R : Rounds rnd)
include R

theorem ge {c x : XR K} (hc : rnd c = c) (h : XR.lt x c = false) : XR.lt (rnd x) c = false := by
  rcases lt_false_iff.1 h with rfl | rfl | h
  · rw [(R.nan _).2 rfl]; cases c <;> rfl
  · cases h : rnd x <;> rfl
  · exact lt_false_iff.2 (.inr (.inr (by have := R.mono _ _ h; rwa [hc] at this)))

theorem le {c x : XR K} (hc : rnd c = c) (h : XR.lt c x = false) : XR.lt c (rnd x) = false := by
  rcases lt_false_iff.1 h with rfl | rfl | h
  · cases h : rnd x <;> rfl
  · rw [(R.nan _).2 rfl]; cases c <;> rfl
  · exact lt_false_iff.2 (.inr (.inr (by have := R.mono _ _ h; rwa [hc] at this)))

theorem zero : rnd (fin (0 : K)) = fin 0 := by simpa using R.small 0 (by decide)
theorem one : rnd (fin (1 : K)) = fin 1 := by simpa using R.small 1 (by decide)
theorem hundred : rnd (fin (100 : K)) = fin 100 := by simpa using R.small 100 (by decide)

end Rounds

open FloatArith
variable {α : Type} [TFNum α] [FloatArith α K]

/-- not below zero: zero, positive or NaN -/
def NotNeg (a : α) : Prop := XR.lt (val a) (fin 0) = false

/-- a float that is not NaN -/
def IsNum (a : α) : Prop := val a ≠ .nan

theorem IsFinite.isNum {a : α} (h : IsFinite a) : IsNum a := by
  obtain ⟨x, h⟩ := h
  rw [IsNum, h]; exact nofun

theorem val_ofInt (n : Int) (h : |n| ≤ 256) : val (Arith.ofRat n : α) = fin (n : K) := by
  rw [FloatArith.ofRat_eq, Rat.cast_intCast, (rounds (α := α)).small n h]

theorem val_zero : val (Arith.zero : α) = fin (0 : K) := by
  rw [Arith.zero, FloatArith.ofRat_eq, Rat.cast_zero, (rounds (α := α)).zero]

theorem val_ofRat_zero : val (Arith.ofRat 0 : α) = fin (0 : K) := val_zero

theorem lt_zero_iff {a : α} : TFNum.lt a (Arith.zero : α) = false ↔ NotNeg a := by
  rw [lt_eq, val_zero, NotNeg]

theorem NotNeg.zero : NotNeg (Arith.zero : α) := by
  rw [NotNeg, val_zero]; simp [XR.lt]

theorem NotNeg.ofRat {q : ℚ} (h : 0 ≤ q) : NotNeg (Arith.ofRat q : α) := by
  rw [NotNeg, FloatArith.ofRat_eq]
  exact (rounds (α := α)).ge (rounds (α := α)).zero (by simpa [XR.lt] using h)

theorem NotNeg.add {a b : α} (ha : NotNeg a) (hb : NotNeg b) : NotNeg (a + b) := by
  rw [NotNeg, add_eq]
  exact (rounds (α := α)).ge (rounds (α := α)).zero (add_nn ha hb)

theorem NotNeg.mul {a b : α} (ha : NotNeg a) (hb : NotNeg b) : NotNeg (a * b) := by
  rw [NotNeg, mul_eq]
  exact (rounds (α := α)).ge (rounds (α := α)).zero (mul_nn ha hb)

theorem NotNeg.sq (a : α) : NotNeg (a * a) := by
  rw [NotNeg, mul_eq]
  exact (rounds (α := α)).ge (rounds (α := α)).zero (mul_self_nn _)

theorem NotNeg.div {a b : α} (hb0 : val b ≠ fin 0) (ha : NotNeg a) (hb : NotNeg b) : NotNeg (a / b) := by
  rw [NotNeg, div_eq _ _ hb0]
  exact (rounds (α := α)).ge (rounds (α := α)).zero (div_nn hb0 ha hb)

theorem NotNeg.sqrt (a : α) : NotNeg (Arith.sqrt a) := sqrt_ok a

theorem NotNeg.abs (a : α) : NotNeg (Arith.abs a) := by
  rw [NotNeg, FloatArith.abs_eq]; exact abs_nn _

theorem val_period {p : Nat} (hp : 0 < p) : NotNeg (Arith.ofInt p : α) ∧ val (Arith.ofInt p : α) ≠ fin (0 : K) := by
  refine ⟨NotNeg.ofRat (by simp), ?_⟩
  rw [Arith.ofInt, FloatArith.ofRat_eq]
  have h := (rounds (α := α)).mono (fin 1) (fin (((p : Int) : ℚ) : K)) (by simpa [XR.le] using Nat.succ_le_of_lt hp)
  rw [(rounds (α := α)).one] at h
  intro e
  rw [e] at h
  simp only [XR.le, decide_eq_true_eq] at h
  exact absurd h (by simp)

theorem SumTree.eval_pred {V : Type} {z : V} {f : V → V → V} {P : V → Prop} (hz : P z) (hf : ∀ a b, P a → P b → P (f a b)) {x : Nat → V} (hx : ∀ i, P (x i)) (t : SumTree) :
    P (t.eval z f x) := by
  induction t with
  | zero => exact hz
  | elem i => exact hx i
  | add a b iha ihb => exact hf _ _ iha ihb

theorem sum_pred {P : XR K → Prop} (hz : P (fin 0)) (hf : ∀ a b, P a → P b → P (rnd (α := α) (XR.add a b))) {l : List α} (hl : ∀ a ∈ l, P (val a)) : P (val (Arith.sum l)) := by
  obtain ⟨t, -, ht⟩ := sum_eq (α := α) l.length
  rw [ht l rfl]
  refine t.eval_pred hz hf fun i => ?_
  rcases lt_or_ge i l.length with hi | hi
  · rw [List.getElem?_eq_getElem hi]; exact hl _ (List.getElem_mem hi)
  · rw [List.getElem?_eq_none hi]; exact hz

theorem NotNeg.sum {l : List α} (h : ∀ a ∈ l, NotNeg a) : NotNeg (Arith.sum l) :=
  sum_pred (P := fun v => XR.lt v (fin 0) = false) (by simp [XR.lt]) (fun _ _ ha hb => (rounds (α := α)).ge (rounds (α := α)).zero (add_nn ha hb)) h

theorem NotNeg.mean {l : List α} (h : ∀ a ∈ l, NotNeg a) (hl : l ≠ []) : NotNeg (Arith.mean l) :=
  .div (val_period (List.length_pos_iff.2 hl)).2 (.sum h) (val_period (List.length_pos_iff.2 hl)).1

theorem IsNum.ofRat (q : ℚ) : IsNum (Arith.ofRat q : α) := by
  rw [IsNum, FloatArith.ofRat_eq, Ne, (rounds (α := α)).nan]; exact nofun

theorem IsFinite.sub {a b : α} (ha : IsFinite a) (hb : IsFinite b) : IsNum (a - b) := by
  obtain ⟨x, hx⟩ := ha
  obtain ⟨y, hy⟩ := hb
  rw [IsNum, FloatArith.sub_eq, Ne, (rounds (α := α)).nan, hx, hy]; exact nofun

theorem IsNum.abs {a : α} (ha : IsNum a) : IsNum (Arith.abs a) := by
  rw [IsNum, FloatArith.abs_eq]
  rw [IsNum] at ha
  cases h : val a <;> simp_all [XR.abs]

theorem IsNum.neg {a : α} (ha : IsNum a) : IsNum (-a) := by
  rw [IsNum, FloatArith.neg_eq]
  rw [IsNum] at ha
  cases h : val a <;> simp_all [XR.neg]

theorem NotNeg.neg {a : α} (h : XR.lt (fin 0) (val a) = false) : NotNeg (-a) := by
  rw [NotNeg, FloatArith.neg_eq]; exact neg_nn h

/-- zero or positive -/
def NonNeg (a : α) : Prop := XR.le (fin 0) (val a) = true

theorem NonNeg.iff {a : α} : NonNeg a ↔ NotNeg a ∧ IsNum a := by
  rw [NonNeg, NotNeg, IsNum, lt_false_iff]
  constructor
  · intro h; exact ⟨.inr (.inr h), (le_not_nan h).2⟩
  · rintro ⟨h | h | h, h'⟩
    · exact absurd h h'
    · cases h
    · exact h

theorem NonNeg.add {a b : α} (ha : NonNeg a) (hb : NonNeg b) : NonNeg (a + b) := by
  rw [NonNeg, add_eq]
  have h := (rounds (α := α)).mono (fin 0) (XR.add (val a) (val b)) (by
    rw [NonNeg] at ha hb
    cases h : val a <;> cases h' : val b <;> simp_all [XR.le, XR.add]
    exact add_nonneg ha hb)
  rwa [(rounds (α := α)).zero] at h

theorem NonNeg.div {a b : α} (ha : NonNeg a) (hb : IsFinite b) (hb' : NonNeg b) (h0 : val b ≠ fin 0) : NonNeg (a / b) := by
  rw [NonNeg, div_eq _ _ h0]
  obtain ⟨y, hy⟩ := hb
  have h := (rounds (α := α)).mono (fin 0) (XR.div (val a) (val b)) (by
    rw [NonNeg] at ha hb'
    rw [hy] at h0 hb' ⊢
    cases h : val a <;> simp_all [XR.le, XR.div]
    exact div_nonneg ha hb')
  rwa [(rounds (α := α)).zero] at h

theorem NonNeg.sum {l : List α} (h : ∀ a ∈ l, NonNeg a) : NonNeg (Arith.sum l) :=
  sum_pred (P := fun v => XR.le (fin 0) v = true) (by simp [XR.le]) (fun u v hu hv => by
    have := (rounds (α := α)).mono (fin 0) (XR.add u v) (by
      cases u <;> cases v <;> simp_all [XR.le, XR.add]
      exact add_nonneg hu hv)
    rwa [(rounds (α := α)).zero] at this) h

theorem sum_np {l : List α} (h : ∀ a ∈ l, XR.lt (fin 0) (val a) = false) : XR.lt (fin 0) (val (Arith.sum l)) = false :=
  sum_pred (P := fun v => XR.lt (fin 0) v = false) (by simp [XR.lt]) (fun u v hu hv => (rounds (α := α)).le (rounds (α := α)).zero (by
    cases u <;> cases v <;> simp_all [XR.lt, XR.add]
    exact add_nonpos hu hv)) h

/-- From the history function to bounds. -/
theorem StreamsAs.within {A B : Type} {op : Operator α} {ser : List A → Val α} {outs : List B → Val α} {y : List A → B} (h : StreamsAs op ser outs y)
    {D : A → Prop} {P : B → Prop} (e : ∀ l, l ≠ [] → (∀ x ∈ l, D x) → P (y l)) : Within op ser outs D P := by
  obtain ⟨st, h1, h2⟩ := h
  have key : ∀ h xs : List A, (∀ x ∈ h ++ xs, D x) → ∀ o ∈ scan y h xs, P o := by
    intro h xs hD o ho
    obtain ⟨i, hi, rfl⟩ := List.getElem_of_mem ho
    rw [scan_getElem]
    refine e _ ?_ fun x hx => hD x ?_
    · rw [scan_length] at hi
      intro e
      have := congrArg List.length e
      simp only [List.length_append, List.length_take, List.length_nil] at this
      omega
    · rcases List.mem_append.1 hx with h | h
      · exact List.mem_append_left _ h
      · exact List.mem_append_right _ (List.mem_of_mem_take h)
  exact ⟨st, fun xs hx hD => ⟨_, h1 xs hx, key [] xs (by simpa using hD)⟩, fun h xs hx hD => ⟨_, h2 h xs hx, key h xs hD⟩⟩

end
end TS
