import Verif.Lemmas.History
import Verif.Lemmas.Decode
/-
Rolling buffers hold the last samples of the history.
-/
namespace TS
variable {A : Type}

@[simp] theorem padded_length (z : A) (p : Nat) (h : List A) : (padded z p h).length = p := by simp [padded]

theorem padded_nil (z : A) (p : Nat) : padded z p [] = List.replicate p z := by simp [padded]

theorem window_length (p : Nat) (h : List A) : (window p h).length = min p h.length := by simp [window]

theorem padded_eq_window {z : A} {p : Nat} {h : List A} (hp : p ≤ h.length) : padded z p h = window p h := by
  simp only [padded, window]
  rw [List.take_append_of_le_length (by simpa using hp)]

theorem take_padded {z : A} {p k : Nat} {h : List A} (hk : k ≤ p) (hh : k ≤ h.length) : (padded z p h).take k = window k h := by
  simp only [padded, window, List.take_take, Nat.min_eq_left hk]
  rw [List.take_append_of_le_length (by simpa using hh)]

theorem padded_getElem {z : A} {p i : Nat} {h : List A} (hi : i < p) :
    (padded z p h)[i]'(by simpa using hi) = h.reverse[i]?.getD z := by
  simp only [padded, List.getElem_take]
  by_cases hh : i < h.length
  · rw [List.getElem_append_left (by simpa using hh), List.getElem?_eq_getElem (by simpa using hh)]; rfl
  · rw [List.getElem_append_right (by simpa using hh), List.getElem?_eq_none (by simpa using hh)]; simp

theorem roll_padded {z : A} {p : Nat} (hp : 0 < p) (h : List A) (x : A) : roll x (padded z p h) = padded z p (h ++ [x]) := by
  obtain ⟨q, rfl⟩ : ∃ q, p = q + 1 := ⟨p - 1, by omega⟩
  have h1 : roll x (padded z (q + 1) h) = x :: (h.reverse ++ List.replicate (q + 1) z).take q := by
    simp only [roll, padded, List.dropLast_eq_take, List.length_take, List.take_take]
    congr 2
    simp
  rw [h1]
  simp only [padded, List.reverse_append, List.reverse_cons, List.reverse_nil, List.nil_append, List.cons_append,
    List.take_succ_cons]

theorem shift_padded {z : A} {p : Nat} (hp : 0 < p) (h : List A) (x : A) : shift x (padded z p h) = padded z p (h ++ [x]) := by
  rw [← roll_padded hp]
  simp only [shift, roll, padded_length, if_neg hp.ne', List.dropLast_eq_take]

/-- The window is made of the samples at the last positions. -/
theorem window_take {p i : Nat} {xs : List A} (hi : i < xs.length) (hp : p ≤ i + 1) :
    window p (xs.take (i + 1)) = List.ofFn fun j : Fin p => xs[i - j]'(by omega) := by
  apply List.ext_getElem
  · simp only [window_length, List.length_take, List.length_ofFn]; omega
  · intro j h1 h2
    simp only [List.length_ofFn] at h2
    simp only [window, List.getElem_take, List.getElem_reverse, List.length_take, List.getElem_ofFn]
    congr 1
    omega

theorem zerosBuf_natCast {E : Type} [Arith E] (p : Nat) : (zerosBuf (p : Int) : Res (List E)) = .ok (padded Arith.zero p []) := by
  simp [zerosBuf, padded_nil]

end TS
