import Verif.Base.XR
import Verif.Spec.Common
/-
Finite values of exact arithmetic.
-/
namespace TS
namespace XR
variable {K : Type} [Field K] [LinearOrder K] [Transc K] [FloorRing K]

theorem runMin_fin {l : List K} (hl : l ≠ []) : ∃ m, runMin (l.map fin) = fin m ∧ IsLeastOf m l := by
  obtain ⟨x, l, rfl⟩ := List.exists_cons_of_ne_nil hl
  clear hl
  simp only [List.map_cons, runMin]
  induction l using List.reverseRecOn with
  | nil => exact ⟨x, rfl, by simp [IsLeastOf]⟩
  | append_singleton l y ih =>
    obtain ⟨m, h1, h2, h3⟩ := ih
    rw [List.map_append, List.foldl_append, h1]
    simp only [List.map_cons, List.map_nil, List.foldl_cons, List.foldl_nil, lt_fin, decide_eq_true_eq]
    by_cases h : y < m
    · refine ⟨y, by simp [h], by simp, fun z hz => ?_⟩
      simp only [List.mem_cons, List.mem_append, List.not_mem_nil, or_false] at hz
      rcases hz with rfl | hz | rfl
      · exact (h.trans_le (h3 _ (by simp))).le
      · exact (h.trans_le (h3 _ (by simp [hz]))).le
      · exact le_refl _
    · refine ⟨m, by simp [h], ?_, fun z hz => ?_⟩
      · simp only [List.mem_cons] at h2 ⊢
        rcases h2 with h2 | h2 <;> simp [h2]
      · simp only [List.mem_cons, List.mem_append, List.not_mem_nil, or_false] at hz
        rcases hz with rfl | hz | rfl
        · exact h3 _ (by simp)
        · exact h3 _ (by simp [hz])
        · exact not_lt.1 h

theorem runMax_fin {l : List K} (hl : l ≠ []) : ∃ m, runMax (l.map fin) = fin m ∧ IsGreatestOf m l := by
  obtain ⟨x, l, rfl⟩ := List.exists_cons_of_ne_nil hl
  clear hl
  simp only [List.map_cons, runMax]
  induction l using List.reverseRecOn with
  | nil => exact ⟨x, rfl, by simp [IsGreatestOf]⟩
  | append_singleton l y ih =>
    obtain ⟨m, h1, h2, h3⟩ := ih
    rw [List.map_append, List.foldl_append, h1]
    simp only [List.map_cons, List.map_nil, List.foldl_cons, List.foldl_nil, lt_fin, decide_eq_true_eq]
    by_cases h : m < y
    · refine ⟨y, by simp [h], by simp, fun z hz => ?_⟩
      simp only [List.mem_cons, List.mem_append, List.not_mem_nil, or_false] at hz
      rcases hz with rfl | hz | rfl
      · exact ((h3 _ (by simp)).trans_lt h).le
      · exact ((h3 _ (by simp [hz])).trans_lt h).le
      · exact le_refl _
    · refine ⟨m, by simp [h], ?_, fun z hz => ?_⟩
      · simp only [List.mem_cons] at h2 ⊢
        rcases h2 with h2 | h2 <;> simp [h2]
      · simp only [List.mem_cons, List.mem_append, List.not_mem_nil, or_false] at hz
        rcases hz with rfl | hz | rfl
        · exact h3 _ (by simp)
        · exact h3 _ (by simp [hz])
        · exact not_lt.1 h

theorem redMin_cons (x : XR K) (l : List (XR K)) : (Arith.redMin (x :: l) : XR K) = Arith.min x (Arith.redMin l) := rfl
theorem redMax_cons (x : XR K) (l : List (XR K)) : (Arith.redMax (x :: l) : XR K) = Arith.max x (Arith.redMax l) := rfl
theorem min_pinf (a : K) : (Arith.min (fin a) pinf : XR K) = fin a := rfl
theorem max_ninf (a : K) : (Arith.max (fin a) ninf : XR K) = fin a := rfl

theorem redMin_fin {l : List K} (hl : l ≠ []) : ∃ m, Arith.redMin (l.map fin) = fin m ∧ IsLeastOf m l := by
  obtain ⟨x, l, rfl⟩ := List.exists_cons_of_ne_nil hl
  clear hl
  induction l generalizing x with
  | nil => exact ⟨x, by rw [List.map_cons, redMin_cons]; exact min_pinf x, by simp [IsLeastOf]⟩
  | cons y l ih =>
    obtain ⟨m, h1, h2, h3⟩ := ih y
    rw [List.map_cons, redMin_cons, h1, min_fin]
    refine ⟨_, rfl, ?_, fun z hz => ?_⟩
    · rcases min_choice x m with h | h <;> rw [h]
      · simp
      · exact List.mem_cons_of_mem _ h2
    · rw [List.mem_cons] at hz
      rcases hz with rfl | hz
      · exact min_le_left _ _
      · exact (min_le_right _ _).trans (h3 z hz)

theorem redMax_fin {l : List K} (hl : l ≠ []) : ∃ m, Arith.redMax (l.map fin) = fin m ∧ IsGreatestOf m l := by
  obtain ⟨x, l, rfl⟩ := List.exists_cons_of_ne_nil hl
  clear hl
  induction l generalizing x with
  | nil => exact ⟨x, by rw [List.map_cons, redMax_cons]; exact max_ninf x, by simp [IsGreatestOf]⟩
  | cons y l ih =>
    obtain ⟨m, h1, h2, h3⟩ := ih y
    rw [List.map_cons, redMax_cons, h1, max_fin]
    refine ⟨_, rfl, ?_, fun z hz => ?_⟩
    · rcases max_choice x m with h | h <;> rw [h]
      · simp
      · exact List.mem_cons_of_mem _ h2
    · rw [List.mem_cons] at hz
      rcases hz with rfl | hz
      · exact le_max_left _ _
      · exact (h3 z hz).trans (le_max_right _ _)

end XR
end TS
