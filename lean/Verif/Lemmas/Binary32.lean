import Verif.Spec.Binary32
import Verif.Lemmas.Rounding
import Verif.Lemmas.Stats
/-
Rounding to binary32 keeps the order and is idempotent.
-/
namespace TS
set_option linter.unusedSectionVars false
open XR
variable {K : Type} [Field K] [LinearOrder K] [IsStrictOrderedRing K] [FloorRing K]

theorem nearestEven_bounds (x : K) : ⌊x⌋ ≤ nearestEven x ∧ nearestEven x ≤ ⌊x⌋ + 1 := by
  unfold nearestEven
  split_ifs <;> omega

theorem nearestEven_mono {x y : K} (h : x ≤ y) : nearestEven x ≤ nearestEven y := by
  have hf := Int.floor_mono h
  rcases hf.lt_or_eq with hf | hf
  · have h1 := (nearestEven_bounds x).2
    have h2 := (nearestEven_bounds y).1
    omega
  · unfold nearestEven
    rw [hf]
    have : x - (⌊y⌋ : K) ≤ y - ⌊y⌋ := by linarith
    split_ifs <;> first | omega | (exfalso; linarith)

theorem nearestEven_intCast (n : Int) : nearestEven (n : K) = n := by
  simp [nearestEven]

theorem lastDigit_le {x : K} (hx : 0 < x) {e : Int} (he : -149 ≤ e) (h : x < 2 ^ (e + 24)) : lastDigit x ≤ e := by
  have : Int.log 2 x < e + 24 := (Int.lt_zpow_iff_log_lt (b := 2) (by decide) hx).1 (by exact_mod_cast h)
  unfold lastDigit
  omega

theorem lastDigit_ge (x : K) : -149 ≤ lastDigit x := by unfold lastDigit; omega

theorem lt_lastDigit (x : K) : x < 2 ^ (lastDigit x + 24) := by
  have h := Int.lt_zpow_succ_log_self (b := 2) (by decide) x
  refine (by exact_mod_cast h : x < 2 ^ (Int.log 2 x + 1)).trans_le ?_
  exact zpow_le_zpow_right₀ (by norm_num) (by unfold lastDigit; omega)

theorem two_zpow_pos (e : Int) : (0 : K) < 2 ^ e := zpow_pos (by norm_num) e

theorem roundPos_exact {x : K} (hx : 0 < x) {m e : Int} (h : x = m * 2 ^ e) (he : lastDigit x ≤ e) : roundPos x = x := by
  have h2 : (2 : K) ≠ 0 := by norm_num
  obtain ⟨k, hk⟩ := Int.eq_ofNat_of_zero_le (by omega : 0 ≤ e - lastDigit x)
  have e1 : x / 2 ^ lastDigit x = ((m * 2 ^ k : Int) : K) := by
    rw [div_eq_iff (zpow_ne_zero _ h2)]
    push_cast
    rw [mul_assoc, ← zpow_natCast, ← zpow_add₀ h2]
    conv_lhs => rw [h]
    congr 2
    omega
  rw [roundPos, e1, nearestEven_intCast, ← e1, div_mul_cancel₀ _ (zpow_ne_zero _ h2)]

theorem roundPos_form {x : K} (hx : 0 < x) : 0 ≤ nearestEven (x / 2 ^ lastDigit x) ∧ nearestEven (x / 2 ^ lastDigit x) ≤ 2 ^ 24 := by
  have hp : (0 : K) < 2 ^ lastDigit x := two_zpow_pos _
  constructor
  · have := nearestEven_mono (K := K) (x := ((0 : Int) : K)) (y := x / 2 ^ lastDigit x) (by simpa using (div_pos hx hp).le)
    rwa [nearestEven_intCast] at this
  · have := nearestEven_mono (K := K) (x := x / 2 ^ lastDigit x) (y := ((2 ^ 24 : Int) : K)) (by
      rw [div_le_iff₀ hp]
      have h := (lt_lastDigit x).le
      rw [zpow_add₀ (by norm_num : (2 : K) ≠ 0)] at h
      push_cast
      rw [mul_comm]
      exact_mod_cast h)
    rwa [nearestEven_intCast] at this

theorem roundPos_nonneg {x : K} (hx : 0 < x) : 0 ≤ roundPos x :=
  mul_nonneg (by exact_mod_cast (roundPos_form hx).1) (two_zpow_pos _).le

theorem roundPos_idem {x : K} (hx : 0 < x) (h0 : 0 < roundPos x) : roundPos (roundPos x) = roundPos x := by
  obtain ⟨h1, h2⟩ := roundPos_form hx
  rcases h2.lt_or_eq with h2 | h2
  · refine roundPos_exact h0 (e := lastDigit x) rfl (lastDigit_le h0 (lastDigit_ge x) ?_)
    rw [roundPos, add_comm, zpow_add₀ (by norm_num)]
    refine mul_lt_mul_of_pos_right ?_ (two_zpow_pos _)
    exact_mod_cast h2
  · refine roundPos_exact h0 (m := 2 ^ 23) (e := lastDigit x + 1) ?_ (lastDigit_le h0 (by have := lastDigit_ge x; omega) ?_)
    · rw [roundPos, h2, zpow_add₀ (by norm_num : (2 : K) ≠ 0)]
      push_cast
      ring
    · rw [roundPos, h2]
      rw [show lastDigit x + 1 + 24 = 24 + 1 + lastDigit x by ring, zpow_add₀ (by norm_num : (2 : K) ≠ 0)]
      refine mul_lt_mul_of_pos_right ?_ (two_zpow_pos _)
      norm_num

theorem roundPos_mono {x y : K} (hx : 0 < x) (h : x ≤ y) : roundPos x ≤ roundPos y := by
  have hy := hx.trans_le h
  have h2 : (2 : K) ≠ 0 := by norm_num
  have hl : Int.log 2 x ≤ Int.log 2 y := Int.log_mono_right hx h
  have hd : lastDigit x ≤ lastDigit y := by unfold lastDigit; omega
  rcases hd.lt_or_eq with hd | hd
  · have hly : lastDigit y = Int.log 2 y - 23 := by unfold lastDigit at hd ⊢; omega
    have a1 : roundPos x ≤ 2 ^ (lastDigit x + 24) := by
      rw [roundPos, add_comm, zpow_add₀ h2]
      refine mul_le_mul_of_nonneg_right ?_ (two_zpow_pos _).le
      exact_mod_cast (roundPos_form hx).2
    have a2 : (2 : K) ^ (lastDigit x + 24) ≤ 2 ^ (lastDigit y + 23) := zpow_le_zpow_right₀ (by norm_num) (by omega)
    have a3 : (2 : K) ^ (lastDigit y + 23) ≤ roundPos y := by
      rw [roundPos, add_comm, zpow_add₀ h2]
      refine mul_le_mul_of_nonneg_right ?_ (two_zpow_pos _).le
      have b1 : (2 : K) ^ (lastDigit y + 23) ≤ y := by
        rw [hly, sub_add_cancel]
        exact_mod_cast Int.zpow_log_le_self (b := 2) (by decide) hy
      have b2 := nearestEven_mono (K := K) (x := ((2 ^ 23 : Int) : K)) (y := y / 2 ^ lastDigit y) (by
        rw [le_div_iff₀ (two_zpow_pos _)]
        rw [add_comm, zpow_add₀ h2] at b1
        exact_mod_cast b1)
      rw [nearestEven_intCast] at b2
      exact_mod_cast b2
    exact a1.trans (a2.trans a3)
  · rw [roundPos, roundPos, hd]
    refine mul_le_mul_of_nonneg_right ?_ (two_zpow_pos _).le
    exact_mod_cast nearestEven_mono (div_le_div_of_nonneg_right h (two_zpow_pos _).le)

theorem roundFin_neg (x : K) : roundFin (-x) = - roundFin x := by
  unfold roundFin
  rcases lt_trichotomy x 0 with h | rfl | h
  · simp [h, not_lt.2 h.le]
  · simp
  · simp [h, not_lt.2 h.le]

theorem roundFin_pos {x : K} (h : 0 < x) : roundFin x = roundPos x := by simp [roundFin, h]

theorem roundFin_nonneg {x : K} (h : 0 ≤ x) : 0 ≤ roundFin x := by
  rcases h.lt_or_eq with h | rfl
  · rw [roundFin_pos h]; exact roundPos_nonneg h
  · simp [roundFin]

theorem roundFin_mono {x y : K} (h : x ≤ y) : roundFin x ≤ roundFin y := by
  have key : ∀ {x y : K}, 0 < x → x ≤ y → roundFin x ≤ roundFin y := fun hx h => by
    rw [roundFin_pos hx, roundFin_pos (hx.trans_le h)]; exact roundPos_mono hx h
  rcases lt_or_ge 0 x with hx | hx
  · exact key hx h
  · rcases le_or_gt 0 y with hy | hy
    · refine le_trans ?_ (roundFin_nonneg hy)
      have := roundFin_nonneg (neg_nonneg.2 hx)
      rw [roundFin_neg] at this
      linarith
    · have := key (neg_pos.2 hy) (neg_le_neg h)
      rw [roundFin_neg, roundFin_neg] at this
      linarith

theorem roundFin_idem (x : K) : roundFin (roundFin x) = roundFin x := by
  have key : ∀ {x : K}, 0 ≤ x → roundFin (roundFin x) = roundFin x := by
    intro x hx
    rcases (roundFin_nonneg hx).lt_or_eq with h | h
    · rcases hx.lt_or_eq with hx | rfl
      · rw [roundFin_pos hx] at h ⊢
        rw [roundFin_pos h]
        exact roundPos_idem hx h
      · simp [roundFin]
    · rw [← h]; simp [roundFin]
  rcases le_total 0 x with h | h
  · exact key h
  · have := key (neg_nonneg.2 h)
    rwa [roundFin_neg, roundFin_neg, neg_inj] at this

theorem roundFin_int (n : Int) (h : |n| ≤ 2 ^ 23) : roundFin (n : K) = n := by
  have key : ∀ n : Int, 0 < n → n ≤ 2 ^ 23 → roundFin (n : K) = n := by
    intro n h0 h1
    have h0' : (0 : K) < n := by exact_mod_cast h0
    rw [roundFin_pos h0']
    refine roundPos_exact h0' (m := n) (e := 0) (by simp) (lastDigit_le h0' (by norm_num) ?_)
    have : (n : K) ≤ ((2 ^ 23 : Int) : K) := by exact_mod_cast h1
    refine this.trans_lt ?_
    norm_num
  rcases lt_trichotomy n 0 with hn | rfl | hn
  · have := key (-n) (by omega) (by rw [abs_of_neg hn] at h; exact h)
    push_cast at this
    rwa [roundFin_neg, neg_inj] at this
  · simp [roundFin]
  · exact key n hn (by rw [abs_of_pos hn] at h; exact h)

theorem round32_rounds : Rounds (round32 : XR K → XR K) := by
  have h128 : (0 : K) < 2 ^ 128 := by positivity
  refine ⟨?_, ?_, ?_, ?_⟩
  · intro x
    cases x <;> simp [round32]
    split_ifs <;> simp
  · intro x y h
    cases x <;> cases y <;> simp only [XR.le, Bool.false_eq_true, decide_eq_true_eq] at h <;> simp only [round32]
    · have := roundFin_mono h
      split_ifs <;> simp only [XR.le, decide_eq_true_eq] <;> linarith
    all_goals first | rfl | (split_ifs <;> rfl)
  · intro x
    cases x <;> simp only [round32]
    split_ifs with h1 h2
    · rfl
    · rfl
    · simp only [roundFin_idem, h1, h2, if_false]
  · intro n hn
    have e : roundFin (n : K) = n := roundFin_int n (hn.trans (by norm_num))
    have h1 : |(n : K)| ≤ 256 := by exact_mod_cast hn
    have h2 := abs_le.1 h1
    have h3 : (256 : K) < 2 ^ 128 := by norm_num
    simp only [round32, e]
    rw [if_neg (by linarith [h2.2]), if_neg (by linarith [h2.1])]

/-! ### The instances -/

/-- rounding a value -/
def F32.of (x : XR K) : F32 K := ⟨round32 x, round32_rounds.idem x⟩

instance [DecidableEq K] : DecidableEq (F32 K) := fun a b =>
  decidable_of_iff (a.val = b.val) ⟨fun h => by cases a; cases b; cases h; rfl, fun h => by rw [h]⟩

variable [Transc K]

/-- binary32 arithmetic: exact results, rounded; `reduce_sum` adds from the end -/
instance : TFNum (F32 K) where
  add a b := .of (a.val + b.val)
  sub a b := .of (a.val - b.val)
  mul a b := .of (a.val * b.val)
  div a b := .of (a.val / b.val)
  neg a := .of (- a.val)
  ofRat q := .of (Arith.ofRat q)
  abs a := .of (Arith.abs a.val)
  sqrt a := .of (Arith.sqrt a.val)
  log a := .of (Arith.log a.val)
  pow a n := .of (Arith.pow a.val n)
  max a b := .of (Arith.max a.val b.val)
  min a b := .of (Arith.min a.val b.val)
  sum l := l.foldr (fun a s => .of (a.val + s.val)) (.of (Arith.ofRat 0))
  redMin l := .of (Arith.redMin (l.map F32.val))
  redMax l := .of (Arith.redMax (l.map F32.val))
  lt a b := TFNum.lt a.val b.val
  le a b := TFNum.le a.val b.val
  eq a b := TFNum.eq a.val b.val
  isNaN a := TFNum.isNaN a.val
  sign a := .of (TFNum.sign a.val)
  toInt a := TFNum.toInt a.val

/-- adds from the end -/
def fromEnd : Nat → Nat → SumTree
  | _, 0 => .zero
  | k, n + 1 => .add (.elem k) (fromEnd (k + 1) n)

omit [Field K] [LinearOrder K] [IsStrictOrderedRing K] [FloorRing K] [Transc K] in
theorem fromEnd_elems (k n : Nat) : (fromEnd k n).elems = List.range' k n := by
  induction n generalizing k with
  | zero => rfl
  | succ n ih => simp [fromEnd, SumTree.elems, ih, List.range'_succ]

omit [Field K] [LinearOrder K] [IsStrictOrderedRing K] [FloorRing K] [Transc K] in
theorem fromEnd_eval {V A : Type} (z : V) (f : V → V → V) (g : A → V) (l : List A) (n k : Nat) (h : n + k = l.length) :
    (fromEnd k n).eval z f (fun i => ((l[i]?).map g).getD z) = (l.drop k).foldr (fun a s => f (g a) s) z := by
  induction n generalizing k with
  | zero => rw [List.drop_of_length_le (by omega)]; rfl
  | succ n ih =>
    rw [List.drop_eq_getElem_cons (by omega : k < l.length)]
    simp only [fromEnd, SumTree.eval, List.foldr_cons, ih (k + 1) (by omega), List.getElem?_eq_getElem (by omega : k < l.length), Option.map_some, Option.getD_some]

theorem round32_neg {x : XR K} (h : round32 x = x) : round32 (XR.neg x) = XR.neg x := by
  cases x <;> simp only [round32, XR.neg] at h ⊢
  rw [roundFin_neg]
  split_ifs at h with h1 h2
  have := XR.fin.inj h
  rw [this] at h1 h2 ⊢
  rw [if_neg (by intro h; apply h2; linarith), if_neg (by intro h; apply h1; linarith)]

theorem round32_abs {x : XR K} (h : round32 x = x) : round32 (XR.abs x) = XR.abs x := by
  have hn := round32_neg h
  cases x with
  | fin a =>
    rcases abs_choice a with e | e
    · rw [XR.abs, e]; exact h
    · rw [XR.abs, e]; exact hn
  | _ => rfl

theorem round32_max {x y : XR K} (hx : round32 x = x) (hy : round32 y = y) : round32 (XR.max x y) = XR.max x y := by
  by_cases h : x = .nan ∨ y = .nan
  · have : XR.max x y = .nan := by rcases h with rfl | rfl; · rfl
                                   · cases x <;> rfl
    rw [this]; rfl
  · rw [not_or] at h
    have e : XR.max x y = if XR.lt x y then y else x := by cases x <;> cases y <;> simp_all [XR.max]
    rw [e]; split <;> assumption

theorem round32_min {x y : XR K} (hx : round32 x = x) (hy : round32 y = y) : round32 (XR.min x y) = XR.min x y := by
  by_cases h : x = .nan ∨ y = .nan
  · have : XR.min x y = .nan := by rcases h with rfl | rfl; · rfl
                                   · cases x <;> rfl
    rw [this]; rfl
  · rw [not_or] at h
    have e : XR.min x y = if XR.lt y x then y else x := by cases x <;> cases y <;> simp_all [XR.min]
    rw [e]; split <;> assumption

theorem sqrt_nn [SqrtNonneg K] (x : XR K) : XR.lt (XR.sqrt x) (fin 0) = false := by
  cases x with
  | fin a =>
    rw [XR.sqrt]
    split
    · rfl
    · rename_i h
      simpa [XR.lt] using SqrtNonneg.nonneg a (not_lt.1 h)
  | _ => rfl

theorem div_zero_inf {a : XR K} (h1 : a ≠ .nan) (h0 : a ≠ fin 0) : XR.div a (fin 0) = .pinf ∨ XR.div a (fin 0) = .ninf := by
  cases a with
  | fin x =>
    rcases lt_trichotomy x 0 with h | rfl | h
    · simp [XR.div, infOf, h, not_lt.2 h.le]
    · exact absurd rfl h0
    · simp [XR.div, infOf, h]
  | nan => exact absurd rfl h1
  | _ => simp [XR.div]

theorem zero_div_nan {a : XR K} (h : a = .nan ∨ a = fin 0) : XR.div a (fin 0) = .nan := by
  rcases h with rfl | rfl
  · rfl
  · simp [XR.div, infOf]

/-- Exact arithmetic is a floating-point arithmetic. -/
instance [SqrtNonneg K] : FloatArith (XR K) K where
  val := id
  rnd := id
  rounds := ⟨fun _ => Iff.rfl, fun _ _ h => h, fun _ => rfl, fun _ _ => rfl⟩
  val_rnd _ := rfl
  lt_eq _ _ := rfl
  le_eq _ _ := rfl
  eq_eq _ _ := rfl
  add_eq _ _ := rfl
  sub_eq _ _ := rfl
  mul_eq _ _ := rfl
  div_eq _ _ _ := rfl
  div_zero a b h h1 h2 := by cases h; exact div_zero_inf h1 h2
  zero_div_zero a b h h1 := by cases h; exact zero_div_nan h1
  neg_eq _ := rfl
  ofRat_eq _ := rfl
  abs_eq _ := rfl
  sqrt_ok a := sqrt_nn a
  max_eq _ _ _ _ := rfl
  min_eq _ _ _ _ := rfl
  redMax_eq l _ := by rw [List.map_id]; rfl
  redMin_eq l _ := by rw [List.map_id]; rfl
  sum_eq n := ⟨fromEnd 0 n, by rw [fromEnd_elems, List.range_eq_range'], fun l h => by
    subst h
    have := fromEnd_eval (fin (0 : K)) (fun a b => id (XR.add a b)) id l l.length 0 (by omega)
    rw [List.drop_zero] at this
    exact this.symm⟩

/-- So is binary32. -/
instance [SqrtNonneg K] : FloatArith (F32 K) K where
  val := F32.val
  rnd := round32
  rounds := round32_rounds
  val_rnd a := a.isRound
  lt_eq _ _ := rfl
  le_eq _ _ := rfl
  eq_eq _ _ := rfl
  add_eq _ _ := rfl
  sub_eq _ _ := rfl
  mul_eq _ _ := rfl
  div_eq _ _ _ := rfl
  div_zero a b h h1 h2 := by
    have : (a / b).val = round32 (XR.div a.val b.val) := rfl
    rw [this, h]
    rcases div_zero_inf h1 h2 with e | e <;> rw [e]
    · exact .inl rfl
    · exact .inr rfl
  zero_div_zero a b h h1 := by
    have : (a / b).val = round32 (XR.div a.val b.val) := rfl
    rw [this, h, zero_div_nan h1]; rfl
  neg_eq a := round32_neg a.isRound
  ofRat_eq _ := rfl
  abs_eq a := round32_abs a.isRound
  sqrt_ok a := round32_rounds.ge round32_rounds.zero (sqrt_nn a.val)
  max_eq a b _ _ := round32_max a.isRound b.isRound
  min_eq a b _ _ := round32_min a.isRound b.isRound
  redMax_eq l _ := by
    have : ∀ l : List (F32 K), round32 ((l.map F32.val).foldr XR.max .ninf) = (l.map F32.val).foldr XR.max .ninf := by
      intro l
      induction l with
      | nil => rfl
      | cons a l ih => exact round32_max a.isRound ih
    exact this l
  redMin_eq l _ := by
    have : ∀ l : List (F32 K), round32 ((l.map F32.val).foldr XR.min .pinf) = (l.map F32.val).foldr XR.min .pinf := by
      intro l
      induction l with
      | nil => rfl
      | cons a l ih => exact round32_min a.isRound ih
    exact this l
  sum_eq n := ⟨fromEnd 0 n, by rw [fromEnd_elems, List.range_eq_range'], fun l h => by
    subst h
    have := fromEnd_eval (fin (0 : K)) (fun a b => round32 (XR.add a b)) F32.val l l.length 0 (by omega)
    rw [List.drop_zero] at this
    rw [this]
    have key : ∀ l : List (F32 K), F32.val (l.foldr (fun a s => .of (a.val + s.val)) (.of (Arith.ofRat 0))) = l.foldr (fun a s => round32 (XR.add a.val s)) (fin 0) := by
      intro l
      induction l with
      | nil =>
        show round32 (fin ((0 : ℚ) : K)) = _
        rw [Rat.cast_zero, round32_rounds.zero]; rfl
      | cons a l ih => rw [List.foldr_cons, List.foldr_cons, ← ih]; rfl
    exact key l⟩

instance : SqrtNonneg ℚ := ⟨fun a _ => by
  show (0 : ℚ) ≤ (Nat.sqrt a.num.toNat : ℚ) / (Nat.sqrt a.den : ℚ)
  positivity⟩

noncomputable instance : SqrtNonneg ℝ := ⟨fun a _ => Real.sqrt_nonneg a⟩

end TS
