import Verif.Props.Contract
import Verif.Props.Helpers

/-!
Concrete cases that meet the hypotheses of the theorems of Props/Helpers and Props/Streaming, which cannot stand beside them because the operators used here are defined and proved well-behaved with the help of these theorems.
-/

namespace TS

/-- C09_any_value -/
example := C09_any_value (α := XR ℚ) (.fin 2) (inputs := .tup [vS (.fin 2), series [3, 1]]) (by simp [WF_tup]) (by simp [flatten, flattens, vS, series, vSBuf])
/-- C09_any_nan -/
example := C09_any_nan (α := XR ℚ) (inputs := .tup [vS .nan, series [3, 1]]) (by simp [WF_tup]) (by simp [flatten, flattens, vS, series, vSBuf])
/-- C01_streaming_eq_stepping -/
example := C01_streaming_eq_stepping (α := XR ℚ) (op := SMA 2) (Lib.basic (.sma 2)).ok.sane (Lib.basic (.sma 2)).ok.uniform (inputs := series [3, 5]) (nums_ok _).1 (st := none) (by simp)
/-- C02_chunked_resumption -/
example := C02_chunked_resumption (α := XR ℚ) (op := SMA 2) (Lib.basic (.sma 2)).ok.sane (Lib.basic (.sma 2)).ok.uniform (v := series [3, 5, 1]) (v1 := series [3, 5]) (v2 := series [1])
  (a := [vS (.fin 3), vS (.fin 5)]) (b := [vS (.fin 1)]) (by simp) (by simp) (nums_ok _).2.2 (nums_ok _).2.2 (nums_ok _).2.2 (nums_ok _).1 (nums_ok _).2.1 (st := none) (by simp)
/-- C03_causality -/
example := C03_causality (α := XR ℚ) (op := SMA 2) (Lib.basic (.sma 2)).ok.sane (Lib.basic (.sma 2)).ok.uniform (v := series [3, 5, 1]) (v' := series [3, 5, 7]) (nums_ok _).1 (nums_ok _).1
  (st := none) (by simp) (outs := series [0, 4, 3]) (sf := .tup [vI 3, series [1, 5]]) (s0 := .tup [vI 0, series [0, 0]]) (outs' := series [0, 4, 6]) (sf' := .tup [vI 3, series [7, 5]])
  (s0' := .tup [vI 0, series [0, 0]]) (by decide +kernel) (by decide +kernel) 2 (by norm_num)
  (by rintro (_ | _ | i) hi
      · exact ⟨vS (.fin 3), by decide +kernel, by decide +kernel⟩
      · exact ⟨vS (.fin 5), by decide +kernel, by decide +kernel⟩
      · omega)
/-- C04_size_mismatch -/
example := C04_size_mismatch (α := XR ℚ) (op := Add) (inputs := .tup [series [1, 2, 3], series [4, 5]]) (by simp [WF_tup]) (st := none) (by simp)
  (by simp [flatten, flattens, series, vSBuf, Leaf.size0]) (l := .f (Tensor.pack [] [pt (.fin 1), pt (.fin 2), pt (.fin 3)])) (l' := .f (Tensor.pack [] [pt (.fin 4), pt (.fin 5)])) (n := 3) (n' := 2)
  (by simp [flatten, flattens, series, vSBuf]) (by simp [flatten, flattens, series, vSBuf]) rfl rfl (by norm_num)
/-- C04_output_length -/
example := C04_output_length (α := XR ℚ) (op := SMA 2) (Lib.basic (.sma 2)).ok.sane (Lib.basic (.sma 2)).ok.uniform (inputs := series [3, 5, 1]) (nums_ok _).1
  (st := none) (by simp) (outs := series [0, 4, 3]) (sf := .tup [vI 3, series [1, 5]]) (s0 := .tup [vI 0, series [0, 0]]) (by decide +kernel)
/-- C05_state_types -/
example := C05_state_types (α := XR ℚ) (op := SMA 2) (Lib.basic (.sma 2)).ok.sane (Lib.basic (.sma 2)).ok.uniform (inputs := series [3, 5, 1]) (nums_ok _).1
  (st := none) (by simp) (outs := series [0, 4, 3]) (sf := .tup [vI 3, series [1, 5]]) (s0 := .tup [vI 0, series [0, 0]]) (by decide +kernel)
/-- C05_type_change_rejected -/
example := C05_type_change_rejected (α := XR ℚ) (op := FFill (SetDuring (.f (Tensor.scalar (.fin 0))) 1)) (FFill_sane (SetDuring_sane _ _)) (FFill_uniform (SetDuring_sane _ _) (SetDuring_uniform _ _))
  (inputs := series [1]) (nums_ok _).1 (nums_ok _).2.1 (st := none) (by simp) (x := vS (.fin 1)) (xs := []) (nums_ok _).2.2 (o := vS (.fin 0)) (n := .tup [vS (.fin 0), vI 1]) (i := .tup [vS (.fin 0), .tup [vI 0]])
  (by decide +kernel) (tr := [(vS (.fin 0), .tup [vS (.fin 0), vI 1])]) (by decide +kernel) (List.mem_singleton.2 rfl) (by intro h; cases h)
/-- C05_type_change_error -/
example := C05_type_change_error (α := XR ℚ) (op := FFill (SetDuring (.f (Tensor.scalar (.fin 0))) 1)) (FFill_sane (SetDuring_sane _ _))
  (inputs := series [1, 2]) (nums_ok _).1 (nums_ok _).2.1 (st := none) (by simp) (x := vS (.fin 1)) (xs := [vS (.fin 2)]) (nums_ok _).2.2 (o := vS (.fin 0)) (n := .tup [vS (.fin 0), vI 1]) (i := .tup [vS (.fin 0), .tup [vI 0]])
  (o' := vS (.fin 0)) (n' := .tup [vS (.fin 0), vI 1]) (i' := .tup [vS (.fin 0), .tup [vI 0]])
  (by decide +kernel) (by simp [Tensors, flatten]) (by decide +kernel) (by simp [Tensors, flatten, flattens]) (by intro h; cases h)

end TS
