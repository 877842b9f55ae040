import Verif.Lemmas.Steady
import Verif.Lemmas.MapStream
import Verif.Spec.Typed
/-
Signatures of rows.
-/
namespace TS
open PyVal
variable {α : Type}
set_option linter.unusedSimpArgs false

theorem Leaf.sig_series {l u : Leaf α} {i n : Nat} {d : DType} {s : List Nat} (hn : l.size0 = .ok n) (hu : l.index i = .ok u) :
    u.sig = some (d, s) ↔ l.sig = some (d, n :: s) := by
  cases l with
  | gen => simp [Leaf.size0] at hn
  | f t | i t | b t =>
    obtain ⟨sh, v⟩ := t
    cases sh with
    | nil => simp [Leaf.size0, Tensor.size0] at hn
    | cons k sh =>
      simp only [Leaf.size0, Tensor.size0, Except.ok.injEq] at hn
      subst hn
      by_cases hi : i < k
      · simp only [Leaf.index, Tensor.index, hi, dite_true] at hu
        cases hu
        simp [Leaf.sig]
      · simp only [Leaf.index, Tensor.index, hi, dite_false] at hu
        cases hu

theorem tMany_skel (m : Nat) (X : PyVal (DType × List Nat)) : (tMany m X).skel = X.skel := by simp [tMany, PyVal.skel_map]

/-- Slices and signatures. -/
theorem hasSig_slice {v x : Val α} {i n : Nat} {X} (hn : ∀ l ∈ flatten v, l.size0 = .ok n) (hx : sliceAt i v = .ok x) :
    HasSig x X ↔ HasSig v (tMany n X) := by
  obtain ⟨h1, h2⟩ := sliceAt_ok.1 hx
  rw [mapM_eq_ok_iff_get] at h2
  obtain ⟨hl, h2⟩ := h2
  rw [HasSig_iff, HasSig_iff, tMany_skel, h1]
  refine and_congr_right fun _ => ?_
  simp only [tMany, flatten_map, List.map_map]
  constructor
  · intro h
    have hl' := congrArg List.length h
    simp only [List.length_map] at hl'
    refine List.ext_getElem (by simp; omega) fun j j1 j2 => ?_
    have := congrArg (fun l => l[j]?) h
    simp only [List.length_map] at j1 j2
    simp only [List.getElem?_map, List.getElem?_eq_getElem (by omega : j < (flatten x).length), List.getElem?_eq_getElem j2, Option.map_some, Option.some.injEq] at this
    simp only [List.getElem_map, Function.comp]
    exact (Leaf.sig_series (hn _ (List.getElem_mem _)) (h2 j j1)).1 this
  · intro h
    have hl' := congrArg List.length h
    simp only [List.length_map] at hl'
    refine List.ext_getElem (by simp; omega) fun j j1 j2 => ?_
    have := congrArg (fun l => l[j]?) h
    simp only [List.length_map] at j1 j2
    simp only [List.getElem?_map, List.getElem?_eq_getElem (by omega : j < (flatten v).length), List.getElem?_eq_getElem j2, Option.map_some, Option.some.injEq, Function.comp] at this
    simp only [List.getElem_map]
    exact (Leaf.sig_series (hn _ (List.getElem_mem _)) (h2 j (by omega))).2 this

theorem IsSeries.hasSig {v : Val α} {xs : List (Val α)} {X} (h : IsSeries v xs) (hne : xs ≠ []) (hX : ∀ x ∈ xs, HasSig x X) : HasSig v (tMany xs.length X) :=
  (hasSig_slice h.size (h.slice 0 (List.length_pos_iff.2 hne))).1 (hX _ (List.getElem_mem _))

theorem exists_rows_of_sig {v : Val α} {X} {m : Nat} (h : HasSig v (tMany m X)) :
    ∃ xs, xs.length = m ∧ IsSeries v xs ∧ ∀ x ∈ xs, HasSig x X := by
  have hs : ∀ l ∈ flatten v, l.size0 = .ok m := by
    intro l hl
    obtain ⟨k, hk, rfl⟩ := List.mem_iff_getElem.1 hl
    have h2 := (HasSig_iff.1 h).2
    have hlen := congrArg List.length h2
    simp only [List.length_map, tMany, flatten_map] at hlen
    have h3 := congrArg (fun l => l[k]?) h2
    simp only [List.getElem?_map, tMany, flatten_map, List.map_map] at h3
    rw [List.getElem?_eq_getElem hk, List.getElem?_eq_getElem (by omega : k < (flatten X).length)] at h3
    simp only [Option.map_some, Option.some.injEq] at h3
    cases e : (flatten v)[k] <;> rw [e] at h3 <;> simp only [Leaf.sig, Option.some.injEq, reduceCtorEq, Prod.mk.injEq, Function.comp] at h3 <;>
      simp [Leaf.size0, Tensor.size0, h3.2]
  obtain ⟨xs, hl, hx⟩ := exists_isSeries hs
  refine ⟨xs, hl, hx, fun x hx' => ?_⟩
  obtain ⟨i, hi, rfl⟩ := List.mem_iff_getElem.1 hx'
  exact (hasSig_slice hs (hx.slice i hi)).2 h

theorem tile_total {m : Nat} {v : Val α} (h : Tensors v) : ∃ w, v.traverse (tileLeaf (m : Int)) = .ok w ∧ IsSeries w (List.replicate m v) := by
  have key : ∀ l ∈ flatten v, ∃ l', tileLeaf (m : Int) l = .ok l' ∧ l'.size0 = .ok m ∧ ∀ i < m, l'.index i = .ok l := by
    intro l hl
    have ht := h l hl
    have e : ¬ (m : Int) < 0 := by omega
    cases l with
    | gen => exact absurd rfl ht
    | f t | i t | b t =>
      refine ⟨_, by simp [tileLeaf, e]; rfl, by simp [Leaf.size0], fun i hi => ?_⟩
      simp [Leaf.index, Tensor.index_pack, hi]
  choose! f hf using key
  have ht := traverse_ok (tileLeaf (m : Int)) f v fun l hl => (hf l hl).1
  refine ⟨_, ht, ?_, ?_⟩
  · intro l hl
    simp only [flatten_map, List.mem_map] at hl
    obtain ⟨l, hl, rfl⟩ := hl
    simpa using (hf l hl).2.1
  · intro i hi
    rw [sliceAt_ok]
    simp only [List.length_replicate] at hi
    simp only [List.getElem_replicate]
    refine ⟨by simp, ?_⟩
    rw [flatten_map, mapM_eq_ok_iff_get]
    refine ⟨by simp, fun j hj => ?_⟩
    simp only [List.getElem_map]
    exact (hf _ (List.getElem_mem _)).2.2 i hi

end TS
