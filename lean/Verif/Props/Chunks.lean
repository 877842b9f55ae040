import Verif.Spec.Chunks
import Verif.Props.Contract
import Verif.Props.Progress
/-
C02 for any number of chunks.
-/
namespace TS
open PyVal
variable {α : Type}

theorem isSeries_same {w : Val α} {p q : List (Val α)} (hpq : p.length = q.length) (hp : IsSeries w p) (hq : IsSeries w q) : p = q := by
  refine List.ext_getElem hpq fun i a b => ?_
  have := (hp.slice i a).symm.trans (hq.slice i b)
  simpa using this

/-- The state a call returns is well-formed. -/
theorem call_final_WF {op : Operator α} (hsane : op.Sane) (hu : op.Uniform) {v : Val α} (hw : v.WF) {st : Option (Val α)} (hst : ∀ s ∈ st, s.WF)
    {z sf s0 : Val α} (h : call op v st = .ok (z, sf, s0)) : sf.WF := by
  obtain ⟨_, x, xs, hin, o, n, i, h1, rfl, h2, h3, t, h4, h5, h6, h7⟩ := (C01_streaming_eq_stepping hsane hu hw hst _ _ _).1 h
  have hsst : SameType sf (st.getD i) := by
    obtain ⟨e, he, h⟩ := List.mem_map.1 (List.mem_of_getLast? h7)
    exact h ▸ (h5 e he).2
  have : sf.skel = (st.getD i).skel := by simpa using congrArg PyVal.skel hsst
  rw [WF_of_skel_eq this]
  have hxw := hin.mem_WF hw x (by simp)
  have ht := call_ok_tensors hxw hst h1
  rw [call_eq false hxw (hin.mem_tensors x (by simp)) fun s hs => ⟨hst s hs, ht.2 s hs⟩] at h1
  simp only [Bool.false_eq_true, if_false] at h1
  have hwf := hsane _ _ _ _ _ hxw hst h1
  cases st with
  | none => exact hwf.2.2
  | some s => exact hst s rfl

/-- **C02 Chunked resumption**, any number of chunks: if `v` is the series of all the slices of the chunks `vs`, streaming `v` succeeds with `(outs, sf, s0)` exactly when
streaming the chunks one after the other does, each from the state returned for the one before, and `outs` is the series of all the slices of their outputs. -/
theorem C02_chunks {op : Operator α} (hsane : op.Sane) (hu : op.Uniform) {vs : List (Val α)} {as : List (List (Val α))} (hvs : vs ≠ [])
    (hc : List.Forall₂ (fun v a => a ≠ [] ∧ IsSeries v a) vs as) {v : Val α} (hv : IsSeries v as.flatten) (hw : v.WF) (hl : flatten v ≠ [])
    {st : Option (Val α)} (hst : ∀ s ∈ st, s.WF) (outs sf s0 : Val α) :
    call op v st = .ok (outs, sf, s0) ↔
      ∃ zs oss, Resumed op st vs zs sf s0 ∧ List.Forall₂ IsSeries zs oss ∧ IsSeries outs oss.flatten ∧ oss.map List.length = as.map List.length := by
  induction hc generalizing v st outs sf s0 with
  | nil => exact absurd rfl hvs
  | @cons v1 a vs as h hc ih =>
    by_cases hvs' : vs = []
    · subst hvs'
      cases hc
      simp only [List.flatten_cons, List.flatten_nil, List.append_nil] at hv
      have hlen : ∀ {op : Operator α} {w z sf s0 : Val α} {b : List (Val α)}, op.Sane → op.Uniform → w.WF → IsSeries w b → flatten w ≠ [] →
          call op w st = .ok (z, sf, s0) → ∃ os, IsSeries z os ∧ os.length = b.length := by
        intro op w z sf s0 b hsane hu hw hs hl h
        obtain ⟨_, x, xs, hin, o, n, i, h1, rfl, h2, h3, t, h4, h5, h6, h7⟩ := (C01_streaming_eq_stepping hsane hu hw hst _ _ _).1 h
        have e := hin.det hl hs
        exact ⟨_, h6, by rw [← e]; simpa using stepAll_length h4⟩
      have hsk : v1 = v := h.2.unique h.1 hv
      subst hsk
      constructor
      · intro hcall
        obtain ⟨os, ho, hl'⟩ := hlen hsane hu hw hv hl hcall
        exact ⟨[outs], [os], .last hcall, .cons ho .nil, by simpa using ho, by simpa using hl'⟩
      · rintro ⟨zs, oss, hr, hz, ho, hl'⟩
        cases hr with
        | last hcall =>
          obtain ⟨os, ho', hl''⟩ := hlen hsane hu hw hv hl hcall
          cases hz with
          | cons hz hz' =>
            cases hz'
            simp only [List.flatten_cons, List.flatten_nil, List.append_nil, List.map_cons, List.map_nil, List.cons.injEq, and_true] at ho hl'
            rename_i z os' 
            have : os' ≠ [] := by rintro rfl; simp at hl'; exact h.1 (List.length_eq_zero_iff.1 hl'.symm)
            rw [hcall, hz.unique this ho]
        | cons hcall ht => cases ht
    · obtain ⟨v2, hv2, -⟩ : ∃ w, IsSeries w as.flatten ∧ w.skel = v.skel := by
        have hne : as.flatten ≠ [] := by
          cases hc with
          | nil => exact absurd rfl hvs'
          | cons h _ => simp [h.1]
        exact IsSeries.exists_sub (a := a) (b := as.flatten) (c := []) (by simpa using hv) hne
      have hne : as.flatten ≠ [] := by
        cases hc with
        | nil => exact absurd rfl hvs'
        | cons h _ => simp [h.1]
      obtain ⟨x, a', rfl⟩ := List.exists_cons_of_ne_nil h.1
      obtain ⟨y, b', hb⟩ := List.exists_cons_of_ne_nil hne
      have hx : sliceAt 0 v = .ok x := hv.slice 0 (by simp)
      have hx1 : sliceAt 0 v1 = .ok x := h.2.slice 0 (by simp)
      have hy : sliceAt (a'.length + 1) v = .ok y := by
        have := hv.slice (a'.length + 1) (by simp [hb])
        rw [this]; simp [hb]
      have hy2 : sliceAt 0 v2 = .ok y := by
        have := hv2.slice 0 (by simp [hb])
        rw [this]; simp [hb]
      have hw1 : v1.WF := (sliceAt_WF hx1).1 ((sliceAt_WF hx).2 hw)
      have hw2 : v2.WF := (sliceAt_WF hy2).1 ((sliceAt_WF hy).2 hw)
      have hl2 : flatten v2 ≠ [] := flatten_ne_of_slice hy2 hy hl
      rw [C02_chunked_resumption hsane hu h.1 hne (by simpa using hv) h.2 hv2 hw hl hst]
      constructor
      · rintro ⟨o1, s1, o2, c1, c2, os1, os2, ho1, ho2, ho, l1, l2⟩
        have hs1 := call_final_WF hsane hu hw1 hst c1
        obtain ⟨zs, oss, hr, hz, ho2', hl'⟩ := (ih hvs' hv2 hw2 hl2 (st := some s1) (by simpa using hs1) o2 sf s1).1 c2
        have e : os2 = oss.flatten := isSeries_same (by rw [l2, List.length_flatten, List.length_flatten, hl']) ho2 ho2'
        subst e
        exact ⟨o1 :: zs, os1 :: oss, .cons c1 hr, .cons ho1 hz, by simpa using ho, by simp [l1, hl']⟩
      · rintro ⟨zs, oss, hr, hz, ho, hl'⟩
        cases hr with
        | last hcall => exact absurd rfl hvs'
        | @cons _ _ z s1 _ _ _ zs c1 ht =>
          cases hz with
          | @cons _ os1 _ oss hz1 hz =>
            have hs1 := call_final_WF hsane hu hw1 hst c1
            simp only [List.map_cons, List.cons.injEq] at hl'
            have hofl : oss.flatten ≠ [] := by
              rw [← List.length_pos_iff, List.length_flatten, hl'.2, ← List.length_flatten]
              exact List.length_pos_iff.2 hne
            obtain ⟨o2, ho2, -⟩ := IsSeries.exists_sub (a := os1) (b := oss.flatten) (c := []) (by simpa using ho) hofl
            have c2 := (ih hvs' hv2 hw2 hl2 (st := some s1) (by simpa using hs1) o2 sf s1).2 ⟨zs, oss, ht, hz, ho2, hl'.2⟩
            exact ⟨z, s1, o2, c1, c2, os1, oss.flatten, hz1, ho2, by simpa using ho, hl'.1, by rw [List.length_flatten, List.length_flatten, hl'.2]⟩
example := C02_chunks (α := XR ℚ) (op := EMA 2) (Lib.basic (.ema 2)).ok.sane (Lib.basic (.ema 2)).ok.uniform
  (vs := [series [3, 5], series [1]]) (as := [_, _]) (by simp)
  (.cons ⟨by simp, (nums_ok _).2.2⟩ (.cons ⟨by simp, (nums_ok _).2.2⟩ .nil)) (v := series [3, 5, 1]) (nums_ok _).2.2 (nums_ok _).1 (nums_ok _).2.1
  (st := none) (by simp)

/-- **C02, any number of chunks, for the library.** -/
theorem C02_chunks_library [TFNum α] {op : Operator α} {D E : PyVal Unit → Prop} (h : Lib op D E) {vs : List (Val α)} {as : List (List (Val α))} (hvs : vs ≠ [])
    (hc : List.Forall₂ (fun v a => a ≠ [] ∧ IsSeries v a) vs as) {v : Val α} (hv : IsSeries v as.flatten) (hw : v.WF) (hl : flatten v ≠ [])
    {st : Option (Val α)} (hst : ∀ s ∈ st, s.WF) (outs sf s0 : Val α) :
    call op v st = .ok (outs, sf, s0) ↔
      ∃ zs oss, Resumed op st vs zs sf s0 ∧ List.Forall₂ IsSeries zs oss ∧ IsSeries outs oss.flatten ∧ oss.map List.length = as.map List.length :=
  C02_chunks h.ok.sane h.ok.uniform hvs hc hv hw hl hst outs sf s0

/-- EMA(2) over 3, 5, 1, 4, 2 in three chunks. -/
example : (call (EMA 2) (series [3, 5, 1, 4, 2]) none).map (·.1) = .ok (series [0, 4, 2, 10 / 3, 22 / 9]) := by decide +kernel
example : streamChunks (EMA 2) none [series [3, 5], series [1], series [4, 2]] = .ok [series [0, 4], series [2], series [10 / 3, 22 / 9]] := by decide +kernel
example (outs sf s0 : Val (XR ℚ)) (h : call (EMA 2) (series [3, 5, 1, 4, 2]) none = .ok (outs, sf, s0)) :
    ∃ zs, Resumed (EMA 2) none [series [3, 5], series [1], series [4, 2]] zs sf s0 := by
  obtain ⟨zs, _, h, -⟩ := (C02_chunks_library (.basic (.ema 2)) (vs := [series [3, 5], series [1], series [4, 2]])
    (as := [_, _, _]) (by simp) (.cons ⟨by simp, (nums_ok _).2.2⟩ (.cons ⟨by simp, (nums_ok _).2.2⟩ (.cons ⟨by simp, (nums_ok _).2.2⟩ .nil)))
    (nums_ok _).2.2 (nums_ok _).1 (nums_ok _).2.1 (by simp) outs sf s0).1 h
  exact ⟨zs, h⟩

end TS
