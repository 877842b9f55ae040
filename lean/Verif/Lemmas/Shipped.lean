import Verif.Lemmas.Library
/-
The composite operators of finance/ belong to the catalogue.
-/
namespace TS
open PyVal
variable {α : Type} [TFNum α]

theorem isArgs_leaf : IsArgs 1 (.leaf ()) := rfl

theorem Volatility_lib (m r : Int) : Lib (Volatility (α := α) m r) (IsArgs 1) (· = .leaf ()) := by
  refine Lib.compose (Ds := fun k => match k with | 0 => IsArgs 1 | _ + 1 => (· = .leaf ())) ?_
  intro k hk
  match k with
  | 0 => exact .basic (.logReturn r)
  | 1 => exact (Lib.basic (.msd m)).weaken (by rintro _ rfl; exact isArgs_leaf) (by simp)
  | 2 => exact .setDuring _ _ _

theorem Momentum_lib (p : Int) : Lib (Momentum (α := α) p) (IsArgs 1) (· = .leaf ()) := by
  refine Lib.compose (Ds := fun k => match k with
    | 0 => IsArgs 1 | 1 => (· = .tup [.leaf (), .leaf ()]) | 2 => (· = .tup [.leaf (), .leaf ()]) | _ + 3 => (· = .leaf ())) ?_
  intro k hk
  match k with
  | 0 => exact .fork 2
  | 1 =>
    refine (Lib.join (ops := [Identity, Lag p]) (Ds := fun _ => (· = .leaf ())) (Es := fun _ => (· = .leaf ())) ?_).weaken ?_ ?_
    · intro k hk
      match k with
      | 0 => exact (Lib.identity (· = .leaf ())).weaken (by rintro _ rfl; exact ⟨_, rfl, rfl⟩) (by simp)
      | 1 => exact (Lib.basic (.lag p)).weaken (by rintro _ rfl; exact isArgs_leaf) (by simp)
    · rintro _ rfl
      exact ⟨_, .inl rfl, rfl, fun k hk => by match k with | 0 => rfl | 1 => rfl⟩
    · rintro _ ⟨l, rfl, hl, h⟩
      obtain ⟨a, b, rfl⟩ := List.length_eq_two.1 hl
      have h0 : a = _ := h 0 (by simp)
      have h1 : b = _ := h 1 (by simp)
      subst h0 h1
      rfl
  | 2 => exact (Lib.basic .sub).weaken (by rintro _ rfl; rfl) (by simp)
  | 3 => exact .setDuring _ _ _

theorem SMACrossover_lib (slow fast : Int) : Lib (SMACrossover (α := α) slow fast) (IsArgs 1) (· = .leaf ()) := by
  refine Lib.compose (Ds := fun k => match k with
    | 0 => IsArgs 1 | 1 => (· = .tup [.leaf (), .leaf ()]) | 2 => (· = .tup [.leaf (), .leaf ()]) | _ + 3 => (· = .leaf ())) ?_
  intro k hk
  match k with
  | 0 => exact .fork 2
  | 1 =>
    refine (Lib.join (ops := [Compose [SetDuring (.f (Tensor.scalar Arith.zero)) (slow - 1), SMA fast], SMA slow])
      (Ds := fun _ => (· = .leaf ())) (Es := fun _ => (· = .leaf ())) ?_).weaken ?_ ?_
    · intro k hk
      match k with
      | 0 =>
        refine Lib.compose (Ds := fun _ => (· = .leaf ())) ?_
        intro k hk
        match k with
        | 0 => exact (Lib.basic (.sma fast)).weaken (by rintro _ rfl; exact isArgs_leaf) (by simp)
        | 1 => exact .setDuring _ _ _
      | 1 => exact (Lib.basic (.sma slow)).weaken (by rintro _ rfl; exact isArgs_leaf) (by simp)
    · rintro _ rfl
      exact ⟨_, .inl rfl, rfl, fun k hk => by match k with | 0 => rfl | 1 => rfl⟩
    · rintro _ ⟨l, rfl, hl, h⟩
      obtain ⟨a, b, rfl⟩ := List.length_eq_two.1 hl
      have h0 : a = _ := h 0 (by simp)
      have h1 : b = _ := h 1 (by simp)
      subst h0 h1
      rfl
  | 2 => exact (Lib.basic .sub).weaken (by rintro _ rfl; rfl) (by simp)

theorem SMACrossoverSignal_lib (slow fast : Int) :
    Lib (SMACrossoverSignal (α := α) slow fast) (IsArgs 1) (· = .leaf ()) := by
  refine Lib.compose (Ds := fun k => match k with | 0 => IsArgs 1 | _ + 1 => (· = .leaf ())) ?_
  intro k hk
  match k with
  | 0 => exact SMACrossover_lib slow fast
  | 1 => exact (Lib.basic .zeroCrossover).weaken (by rintro _ rfl; exact isArgs_leaf) (by simp)
  | 2 => exact .setDuring _ _ _

theorem MACDSignal_lib (slow fast macd : Int) :
    Lib (MACDSignal (α := α) slow fast macd) (IsArgs 1) (· = .leaf ()) := by
  refine Lib.compose (Ds := fun k => match k with
    | 0 => IsArgs 1 | 1 => (· = .tup [.leaf (), .leaf (), .leaf (), .leaf (), .leaf ()]) | _ + 2 => (· = .leaf ())) ?_
  intro k hk
  match k with
  | 0 => exact .basic (.macd slow fast macd)
  | 1 => exact (Lib.selectInt 5 4).weaken (by rintro _ rfl; rfl) (by simp)
  | 2 => exact (Lib.basic .zeroCrossover).weaken (by rintro _ rfl; exact isArgs_leaf) (by simp)
  | 3 => exact .setDuring _ _ _

end TS
