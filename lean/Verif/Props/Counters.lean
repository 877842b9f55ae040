import Verif.Lemmas.GradedTyped
import Verif.Props.Progress
import Verif.Lemmas.Binary32
/-
C71: how large the counters get.
-/
namespace TS
open PyVal
variable {α : Type}

theorem holds_within {B : Nat} {v : Val α} : Holds (fun n => n.natAbs ≤ B) v ↔ IntsWithin B v := by
  constructor
  · intro h t ht c; exact h _ ht c
  · intro h l hl
    cases l with
    | i t => exact fun c => h t hl c
    | _ => trivial

section
variable [TFNum α]

/-- **C71**: any operator of the type system -- all operators of the library, chains, banks, forward filling and Map in any nesting -- whose
`SetDuring`s put in no int beyond `c`: over `n` samples no int in the outputs or in the final state goes beyond `M + n`, where `M` bounds `c` and the
ints of the input (and is at least 1, the signals).  The initial state has no int beyond `M`. -/
theorem C71_counters (E : SignsExact α) {c : Nat} {op : Operator α} {X O S} (h : TypedIn (fun n => n.natAbs ≤ c) op X O S) : CountsFrom op X (max c 1) := by
  intro v n ⟨hw, hl, xs, hin, hx, hn, hX⟩ M hM hv
  have g : Grading c (fun k n => n.natAbs ≤ M + k) := ⟨fun k n h => by omega, fun k n h => by omega⟩
  obtain ⟨z, sf, s0, os, h1, h2, h3, h4, h5, h6⟩ := graded_call g (h.graded E g) hw hl hin hx fun x hxm => ⟨hin.mem_WF hw x hxm, hX x hxm,
    ((holds_series hin).1 (holds_within.2 hv) x hxm).mono fun n h => by omega⟩
  subst hn
  refine ⟨z, sf, s0, h1, holds_within.1 ((holds_series h2).2 fun o ho => (h4 o ho).2.2), holds_within.1 h5.2.2, holds_within.1 ?_⟩
  exact h6.2.2
/-- In particular nothing leaves the range of int32 within `2^31 - 1 - M` samples. -/
theorem C71_int32 (E : SignsExact α) {c : Nat} {op : Operator α} {X O S} (h : TypedIn (fun n => n.natAbs ≤ c) op X O S) {v : Val α} {n : Nat} (hv : SeriesOf X v n)
    {M : Nat} (hc : c ≤ M) (h1 : 1 ≤ M) (hM : IntsWithin M v) (hn : M + n < 2 ^ 31) :
    ∃ z sf s0, call op v none = .ok (z, sf, s0) ∧ IntsWithin (2 ^ 31 - 1) z ∧ IntsWithin (2 ^ 31 - 1) sf ∧ IntsWithin (2 ^ 31 - 1) s0 := by
  obtain ⟨z, sf, s0, e, a, b, d⟩ := C71_counters E h v n hv M (by omega) hM
  exact ⟨z, sf, s0, e, fun t ht c => by have := a t ht c; omega, fun t ht c => by have := b t ht c; omega, fun t ht c => by have := d t ht c; omega⟩

theorem within_of_floats {X : PyVal (DType × List Nat)} (hX : AllFloat X) {v : Val α} {n : Nat} (hv : SeriesOf X v n) (M : Nat) : IntsWithin M v := by
  obtain ⟨hw, hl, xs, hin, hx, hn, hX'⟩ := hv
  have hs := hin.hasSig hx hX'
  intro t ht
  have := leaf_of_dtype (d := .float) (X := tMany xs.length X) (by
    intro l hl
    rw [flatten_map, List.mem_map] at hl
    obtain ⟨l, hl, rfl⟩ := hl
    exact hX l hl) hs _ ht
  simp [Leaf.dtype] at this

/-- On float inputs, an operator without int constants beyond 1 counts no further than the samples, plus one. -/
theorem C71_floats (E : SignsExact α) {op : Operator α} {X O S} (h : TypedIn (fun n => n.natAbs ≤ 1) op X O S) (hX : AllFloat X) {v : Val α} {n : Nat} (hv : SeriesOf X v n) :
    ∃ z sf s0, call op v none = .ok (z, sf, s0) ∧ IntsWithin (n + 1) z ∧ IntsWithin (n + 1) sf ∧ IntsWithin 1 s0 := by
  obtain ⟨z, sf, s0, e, a, b, d⟩ := C71_counters E h v n hv 1 (by simp) (within_of_floats hX hv 1)
  rw [Nat.add_comm] at a b
  exact ⟨z, sf, s0, e, a, b, d⟩

/-- The trading signals of the library: their states count the samples, whatever the prices. -/
theorem C71_signals (E : SignsExact α) {slow fast m : Nat} (hs : 0 < slow) (hf : 0 < fast) (hm : 0 < m) (s : List Nat) {v : Val α} {n : Nat} (hv : SeriesOf (tF s) v n) :
    (∃ z sf s0, call (SMACrossoverSignal (slow : Int) fast) v none = .ok (z, sf, s0) ∧ IntsWithin (n + 1) z ∧ IntsWithin (n + 1) sf ∧ IntsWithin 1 s0) ∧
    (∃ z sf s0, call (MACDSignal (slow : Int) fast m) v none = .ok (z, sf, s0) ∧ IntsWithin (n + 1) z ∧ IntsWithin (n + 1) sf ∧ IntsWithin 1 s0) :=
  ⟨C71_floats E (C56_smaSignal_typed (by simp) hs hf s) (by simp [AllFloat, flatten]) hv,
    C71_floats E (C56_macdSignal_typed (by simp) hs hf hm s) (by simp [AllFloat, flatten]) hv⟩

end

/-! #### the arithmetics -/

section
variable {K : Type} [Field K] [LinearOrder K] [IsStrictOrderedRing K] [FloorRing K] [Transc K]

theorem C71_signs_exact : SignsExact (XR K) where
  neg_one := by show XR.neg (XR.fin _) = XR.fin _; simp [XR.neg]
  neg_neg_one := by show XR.neg (XR.fin _) = XR.fin _; simp [XR.neg]
  zero := by show XR.toInt (XR.fin _) = _; simp [XR.toInt]
  one := by show XR.toInt (XR.fin _) = _; simp [XR.toInt]
  minus_one := by
    show XR.toInt (XR.fin _) = _
    have n1 : ¬ ((1 : K) ≤ 0) := not_le.2 one_pos
    have n2 : ⌈(-1 : K)⌉ = -1 := by exact_mod_cast Int.ceil_intCast (R := K) (-1)
    simp [XR.toInt, n1, n2]
example := C71_counters (α := XR ℚ) C71_signs_exact (c := 1) (TypedIn.sma [] (p := 2) (by norm_num))
example := C71_int32 (α := XR ℚ) C71_signs_exact (c := 1) (TypedIn.sma [] (p := 2) (by norm_num)) (v := series [4, 3, 2]) (n := 3)
  ⟨(nums_ok _).1, (nums_ok _).2.1, _, (nums_ok _).2.2, by simp, rfl, by simp only [List.mem_map]; rintro _ ⟨a, -, rfl⟩; rfl⟩
  (M := 7) (by norm_num) (by norm_num) (by simp [IntsWithin, series, vSBuf, flatten]) (by norm_num)
example := C71_signals (α := XR ℚ) C71_signs_exact (slow := 3) (fast := 2) (m := 2) (by norm_num) (by norm_num) (by norm_num) [] (v := series [4, 3, 2]) (n := 3)
  ⟨(nums_ok _).1, (nums_ok _).2.1, _, (nums_ok _).2.2, by simp, rfl, by simp only [List.mem_map]; rintro _ ⟨a, -, rfl⟩; rfl⟩

theorem f32_int (n : Int) (h : |n| ≤ 256) : (Arith.ofRat (n : ℚ) : F32 K).val = XR.fin (n : K) := by
  show round32 (XR.fin ((n : ℚ) : K)) = _
  rw [Rat.cast_intCast, round32_rounds.small n h]

theorem C71_signs_binary32 : SignsExact (F32 K) := by
  have ext : ∀ a b : F32 K, a.val = b.val → a = b := fun a b h => by cases a; cases b; cases h; rfl
  have h1 : (Arith.ofRat 1 : F32 K).val = XR.fin 1 := by simpa using f32_int (K := K) 1 (by decide)
  have h2 : (Arith.ofRat (-1) : F32 K).val = XR.fin (-1) := by simpa using f32_int (K := K) (-1) (by decide)
  have h0 : (Arith.zero : F32 K).val = XR.fin 0 := by have := f32_int (K := K) 0 (by decide); simp only [Int.cast_zero] at this; exact this
  have r1 : round32 (XR.fin (1 : K)) = XR.fin 1 := by simpa using round32_rounds.small (K := K) 1 (by decide)
  have r2 : round32 (XR.fin (-1 : K)) = XR.fin (-1) := by simpa using round32_rounds.small (K := K) (-1) (by decide)
  have n1 : ¬ ((1 : K) ≤ 0) := not_le.2 one_pos
  have n2 : ⌈(-1 : K)⌉ = -1 := by exact_mod_cast Int.ceil_intCast (R := K) (-1)
  refine ⟨ext _ _ ?_, ext _ _ ?_, ?_, ?_, ?_⟩
  · show round32 (XR.neg (Arith.ofRat 1 : F32 K).val) = _
    rw [h1, h2]; exact r2
  · show round32 (XR.neg (Arith.ofRat (-1) : F32 K).val) = _
    rw [h1, h2]; simp only [XR.neg, neg_neg]; exact r1
  · show XR.toInt (Arith.zero : F32 K).val = _
    rw [h0]; simp [XR.toInt]
  · show XR.toInt (Arith.ofRat 1 : F32 K).val = _
    rw [h1]; simp [XR.toInt]
  · show XR.toInt (Arith.ofRat (-1) : F32 K).val = _
    rw [h2]; simp [XR.toInt, n1, n2]

end

/-- Drawdown over falling prices: after four samples the state has counted three steps since the peak, which the theorem bounds by 5. -/
example : (call Drawdown (series [4, 3, 2, 1]) none).map (·.2.1) = .ok (.tup [vS (XR.fin (4 : ℚ)), vI 3]) := by decide +kernel
example : ∃ z sf s0, call Drawdown (series [4, 3, 2, 1]) none = .ok (z, sf, s0) ∧ IntsWithin (4 + 1) z ∧ IntsWithin (4 + 1) sf ∧ IntsWithin 1 s0 :=
  C71_floats C71_signs_exact .drawdown (by simp [AllFloat, flatten])
    ⟨(nums_ok _).1, (nums_ok _).2.1, _, (nums_ok _).2.2, by simp, rfl, by simp only [List.mem_map]; rintro _ ⟨a, -, rfl⟩; rfl⟩
/-- The counter of SMA does reach the number of samples. -/
example : (call (SMA 2) (series [4, 3, 2]) none).map (·.2.1) = .ok (.tup [vI 3, vSBuf [XR.fin (2 : ℚ), XR.fin 3]]) := by decide +kernel
/-- Adding ints is not in the type system, and its outputs are not bounded by what the theorem says: 100 + 100. -/
example : (call Add (.tup [vIBuf [100], vIBuf [100]]) none : Res (Step (XR ℚ))).map (·.1) = .ok (vIBuf [200]) := by decide +kernel

end TS
