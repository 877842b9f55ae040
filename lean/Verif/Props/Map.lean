import Verif.Lemmas.MapStream
import Verif.Props.Contract
/-
C14: Map works column by column.
-/
namespace TS
open PyVal
variable {α : Type}
set_option linter.unusedSimpArgs false

theorem SameType.slice {v w x y : Val α} {i j : Nat} (h : SameType v w) (hx : sliceAt i v = .ok x) (hy : sliceAt j w = .ok y)
    (hw : Tensors w) : SameType x y := by
  obtain ⟨ty, hty⟩ := tensors_iff.1 hw
  have h1 := (hty.sameType).2 h
  have h2 := (HasType_sliceAt hx ty).2 h1
  exact ((HasType_sliceAt hy ty).2 hty).sameType.1 h2

theorem SameType.symm {v w : Val α} (h : SameType v w) : SameType w v := Eq.symm h
theorem SameType.trans {u v w : Val α} (h : SameType u v) (h' : SameType v w) : SameType u w := Eq.trans h h'

/-- **C14 Map works column by column, from a state.**  `S` holds one state per column.  The inputs have
columns `0, ..., m - 1`, and for each of them: streaming `op` over column `k` of the inputs from row `k` of the
state gives column `k` of the outputs and row `k` of the final state. -/
theorem C14_map_columns_resume {op : Operator α} (hop : op.Sane) (hu : op.Uniform) {size : Int} {v S z sf s0 : Val α} (hw : v.WF)
    (hS : S.WF) (h : call (Map op size) v (some (.tup [S])) = .ok (z, sf, s0)) :
    ∃ (SF : Val α) (m : Nat), sf = .tup [SF] ∧ s0 = .tup [S] ∧ 0 < m ∧
      (∀ x, sliceAt 0 v = .ok x → ∀ l ∈ flatten x, l.size0 = .ok m) ∧ (∀ l ∈ flatten S, l.size0 = .ok m) ∧
      ∀ k < m, ∃ c s zc sfk, columnOf k v = .ok c ∧ sliceAt k S = .ok s ∧ call op c (some s) = .ok (zc, sfk, s) ∧
        columnOf k z = .ok zc ∧ sliceAt k SF = .ok sfk := by
  have hsw : ∀ s ∈ some (PyVal.tup [S]), s.WF := by rintro _ ⟨⟩; exact WF_tup.2 (by simpa using hS)
  have hms : (Map op size).Sane := Map_sane hop size
  obtain ⟨hl, x, xs, hin, o, n, i, h1, rfl, h2, h3, tr, h4, h5, h6, h7⟩ :=
    (C01_streaming_eq_stepping hms (Map_uniform hop hu size) hw hsw _ _ _).1 h
  have hx := hin.mem_WF hw
  change stepAll _ _ (PyVal.tup [S]) = _ at h4
  change ∀ e ∈ tr, SameType e.1 o ∧ SameType e.2 (PyVal.tup [S]) at h5
  have hfx : ∀ y ∈ x :: xs, flatten y ≠ [] := by
    intro y hy e
    obtain ⟨i, hi⟩ := hin.mem hy
    have := length_flatten_of_skel_eq (sliceAt_skel hi)
    rw [e] at this
    exact hl (List.length_eq_zero_iff.1 this.symm)
  -- the rows of the first slice
  obtain ⟨ps, hps, hrow0, hS0⟩ : ∃ ps : List (Val α × Val α), ps ≠ [] ∧ IsSeries x (ps.map (·.1)) ∧ IsSeries S (ps.map (·.2)) := by
    obtain ⟨ps, x0, ov, nx, init, prev, oty, sty, rows, o', n', a1, a2, a3, a4, a5, a6, a7, -⟩ :=
      (Map_ok hop (hx x (by simp)) hsw).1 ((call_step_ok (hx x (by simp)) hsw).1 h1).2.2
    simp only [MapPrev] at a7
    cases a7
    exact ⟨ps, a1, a3, a4⟩
  have hm : 0 < ps.length := List.length_pos_iff.2 hps
  have hsize0 : ∀ l ∈ flatten x, l.size0 = .ok ps.length := by simpa using hrow0.size
  -- every slice is a series of rows of the same length
  obtain ⟨g, hg, hgl⟩ : ∃ g : List (List (Val α)), List.Forall₂ IsSeries (x :: xs) g ∧ ∀ r ∈ g, r.length = ps.length := by
    have key : ∀ y ∈ x :: xs, ∃ row, row.length = ps.length ∧ IsSeries y row := by
      intro y hy
      obtain ⟨j, hj⟩ := hin.mem hy
      refine exists_isSeries ?_
      intro l hl'
      obtain ⟨q, hq, rfl⟩ := List.mem_iff_getElem.1 hl'
      have b0 := (sliceAt_ok.1 (hin.slice 0 (by simp))).2
      have bj := (sliceAt_ok.1 hj).2
      rw [mapM_eq_ok_iff_get] at b0 bj
      obtain ⟨c0, d0⟩ := b0
      obtain ⟨cj, dj⟩ := bj
      simp only [List.getElem_cons_zero] at c0 d0
      rw [Leaf.size0_index (dj q (by omega)) (d0 q (by omega))]
      exact hsize0 _ (List.getElem_mem _)
    clear h4 h5 h6 h7 hin hfx hx h1 hrow0 hsize0
    generalize x :: xs = ys at key
    induction ys with
    | nil => exact ⟨[], .nil, by simp⟩
    | cons y ys ih =>
      obtain ⟨r, hr1, hr2⟩ := key y (by simp)
      obtain ⟨g, hg1, hg2⟩ := ih fun y h => key y (by simp [h])
      exact ⟨r :: g, .cons hr2 hg1, by simpa [hr1] using hg2⟩
  have hSl : (ps.map (·.2)).length = ps.length := by simp
  obtain ⟨R, hR, hcol⟩ := map_trace hop (fun y hy => ⟨hx y hy, hfx y hy⟩) hS hg hgl hS0 hSl h4
  have lenR := hR.length_eq
  have lentr := stepAll_length h4
  have leng := hg.length_eq
  have hRl : ∀ r ∈ R, r.length = ps.length := by
    intro r hr
    obtain ⟨t, ht, rfl⟩ := List.mem_iff_getElem.1 hr
    exact ((List.forall₂_iff_get.1 hR).2 t (by omega) ht).1
  have Rt : ∀ t (h : t < tr.length) (h' : t < R.length), IsSeries tr[t].1 (R[t].map (·.1)) ∧
      ∃ S', tr[t].2 = .tup [S'] ∧ IsSeries S' (R[t].map (·.2)) := fun t h h' => ((List.forall₂_iff_get.1 hR).2 t h h').2
  have trne : tr ≠ [] := by rintro rfl; simp at lentr
  have trpos := List.length_pos_iff.2 trne
  -- the final state
  obtain ⟨SF, hSF, hSFs⟩ : ∃ SF, sf = .tup [SF] ∧ IsSeries SF ((R[tr.length - 1]'(by omega)).map (·.2)) := by
    rw [List.getLast?_eq_getElem?, List.getElem?_map, List.length_map, List.getElem?_eq_getElem (by omega)] at h7
    obtain ⟨-, S', e, h⟩ := Rt (tr.length - 1) (by omega) (by omega)
    simp only [Option.map_some, Option.some.injEq] at h7
    exact ⟨S', by rw [← h7, e], h⟩
  refine ⟨SF, ps.length, hSF, rfl, hm, ?_, by simpa using hS0.size, ?_⟩
  · intro y hy
    have := hin.slice 0 (by simp)
    rw [hy] at this
    cases this
    exact hsize0
  intro k hk
  have hkS : k < (ps.map (·.2)).length := by omega
  obtain ⟨c, hc1, hc2⟩ := columnOf_series (by simp) hin hg (k := k) (fun r hr => by rw [hgl r hr]; exact hk)
  obtain ⟨zc, hz1, hz2⟩ := columnOf_series (v := z) (xs := tr.map (·.1)) (g := R.map (·.map (·.1))) (by simpa using trne) h6 (by
      rw [List.forall₂_iff_get]
      refine ⟨by simp [lenR], fun t t1 t2 => ?_⟩
      simpa using (Rt t (by simpa using t1) (by simpa using t2)).1) (k := k) (by
      intro r hr
      obtain ⟨r', hr', rfl⟩ := List.mem_map.1 hr
      rw [List.length_map, hRl r' hr']; exact hk)
  have hkR : ∀ r ∈ R, k < r.length := fun r hr => by rw [hRl r hr]; exact hk
  have ecol : colList k (R.map (·.map (·.1))) = (colList k R).map (·.1) := by
    clear hcol hz1 hz2 hR lenR Rt hSFs hRl hkR
    induction R with
    | nil => rfl
    | cons r R ih =>
      simp only [colList, List.map_cons, List.filterMap_cons, List.getElem?_map] at ih ⊢
      cases r[k]? <;> simp [ih]
  rw [ecol] at hz2
  have hs : sliceAt k S = .ok ((List.map (fun e : Val α × Val α => e.2) ps)[k]) := hS0.slice k hkS
  have hsf : sliceAt k SF = .ok (((R[tr.length - 1]'(by omega)).map (·.2))[k]'(by rw [List.length_map, hRl _ (List.getElem_mem _)]; exact hk)) :=
    hSFs.slice k _
  refine ⟨c, _, zc, _, hc1, hs, ?_, hz1, hsf⟩
  have hcw : c.WF := (WF_of_skel_eq (columnOf_ok.1 hc1).1).2 hw
  have hcl : flatten c ≠ [] := by
    intro e
    have := length_flatten_of_skel_eq (columnOf_ok.1 hc1).1
    rw [e] at this
    exact hl (List.length_eq_zero_iff.1 this.symm)
  have hskw : ((List.map (fun e : Val α × Val α => e.2) ps)[k]).WF := (sliceAt_WF hs).2 hS
  have hcolk := hcol k hk hkS
  have gpos : ∀ r ∈ g, k < r.length := fun r hr => by rw [hgl r hr]; exact hk
  obtain ⟨y, ys, hys⟩ : ∃ y ys, colList k g = y :: ys := by
    cases hh : colList k g with
    | nil =>
      have := colList_length gpos
      rw [hh] at this
      simp at this leng
      omega
    | cons y ys => exact ⟨y, ys, rfl⟩
  rw [hys] at hc2 hcolk
  obtain ⟨o1, n1, i1, tr1, k1, k2, k3⟩ := stepAll_cons_ok.1 hcolk
  have Tz : ∀ e ∈ colList k R, ∃ t, ∃ (ht : t < tr.length), ∃ S', tr[t].2 = .tup [S'] ∧ sliceAt k tr[t].1 = .ok e.1 ∧ sliceAt k S' = .ok e.2 := by
    intro e he
    obtain ⟨t, ht, rfl⟩ := List.mem_iff_getElem.1 he
    have ht' : t < R.length := by rw [← colList_length hkR]; exact ht
    rw [colList_getElem hkR ht' ht]
    obtain ⟨a, S', b, d⟩ := Rt t (by omega) ht'
    refine ⟨t, by omega, S', b, ?_, ?_⟩
    · rw [a.slice k (by rw [List.length_map]; exact hkR _ (List.getElem_mem _))]; simp
    · rw [d.slice k (by rw [List.length_map]; exact hkR _ (List.getElem_mem _))]; simp
  have hTS : Tensors S := tensors_tup.1 h2 S (by simp)
  obtain ⟨t1, ht1, S1, a1, a2, a3⟩ := Tz (o1, n1) (by rw [k3]; simp)
  have hT1 : Tensors tr[t1].1 := h6.mem_tensors _ (List.mem_map_of_mem (List.getElem_mem ht1))
  refine (C01_streaming_eq_stepping hop hu hcw (by rintro _ ⟨⟩; exact hskw) _ _ _).2
    ⟨hcl, y, ys, hc2, o1, n1, i1, k1, rfl, sliceAt_tensors hs hTS, sliceAt_tensors a2 hT1, _, hcolk, ?_, hz2, ?_⟩
  · intro e he
    obtain ⟨t, ht, S', b1, b2, b3⟩ := Tz e he
    have c1 := (h5 _ (List.getElem_mem ht))
    have c2 := (h5 _ (List.getElem_mem ht1))
    refine ⟨(c1.1.trans c2.1.symm).slice b2 a2 hT1, ?_⟩
    have c3 := c1.2
    rw [b1, sameType_cons] at c3
    exact c3.1.slice b3 hs hTS
  · have hcl' := colList_length hkR
    rw [List.getLast?_map, List.getLast?_eq_getElem?, hcl', List.getElem?_eq_getElem (by omega), colList_getElem hkR (by omega)]
    simp [lenR]

/-- Starting without a state is starting from the state `i0`, for inputs in `D`: the operator's initial state
does not depend on the values of the inputs. -/
def Operator.StartsFrom (op : Operator α) (i0 : Val α) (D : Val α → Prop) : Prop :=
  ∀ x, D x → call op x none false = call op x (some i0) false ∧ ∀ r, call op x none false = .ok r → r.2.2 = i0

theorem call_none_of_some {op : Operator α} (hop : op.Sane) (hu : op.Uniform) {i0 : Val α} {D : Val α → Prop} (hs : op.StartsFrom i0 D)
    (hi : i0.WF) {v z sf s0 : Val α} (hw : v.WF) (hD : ∀ x, sliceAt 0 v = .ok x → D x)
    (h : call op v (some i0) = .ok (z, sf, s0)) : call op v none = .ok (z, sf, i0) := by
  obtain ⟨hl, x, xs, hin, o, n, i, h1, hs0, h2, h3, tr, h4, h5, h6, h7⟩ :=
    (C01_streaming_eq_stepping hop hu hw (by rintro _ ⟨⟩; exact hi) _ _ _).1 h
  have hx := hs x (hD x (hin.slice 0 (by simp)))
  have h1' := hx.1.trans h1
  have e : i = i0 := hx.2 _ h1'
  change s0 = i0 at hs0
  subst hs0
  rw [e] at h1'
  exact (C01_streaming_eq_stepping hop hu hw (by simp) _ _ _).2
    ⟨hl, x, xs, hin, o, n, s0, h1', rfl, h2, h3, tr, h4, h5, h6, h7⟩

/-- **C14 Map works column by column, without a state**, for operators whose initial state does not depend on
the values: every column is what streaming `op` over that column without a state gives. -/
theorem C14_map_columns {op : Operator α} (hop : op.Sane) (hu : op.Uniform) {i0 : Val α} {D : Val α → Prop} (hs : op.StartsFrom i0 D)
    {size : Int} {v z sf s0 : Val α} (hw : v.WF) (hD : ∀ x, sliceAt 0 v = .ok x → ∀ k y, sliceAt k x = .ok y → D y)
    (h : call (Map op size) v none = .ok (z, sf, s0)) :
    ∃ (SF S : Val α) (m : Nat), sf = .tup [SF] ∧ s0 = .tup [S] ∧ 0 < m ∧
      (∀ x, sliceAt 0 v = .ok x → ∀ l ∈ flatten x, l.size0 = .ok m) ∧
      ∀ k < m, sliceAt k S = .ok i0 ∧ ∃ c zc sfk, columnOf k v = .ok c ∧ call op c none = .ok (zc, sfk, i0) ∧
        columnOf k z = .ok zc ∧ sliceAt k SF = .ok sfk := by
  have hms : (Map op size).Sane := Map_sane hop size
  have hmu : (Map op size).Uniform := Map_uniform hop hu size
  obtain ⟨hl, x, xs, hin, o, n, i, h1, hs0, h2, h3, tr, h4, h5, h6, h7⟩ :=
    (C01_streaming_eq_stepping hms hmu hw (by simp) _ _ _).1 h
  change s0 = i at hs0
  subst hs0
  have hx := hin.mem_WF hw x (by simp)
  have hx0 := hin.slice 0 (by simp)
  have hi := (hms.call hx (by simp) h1).2.2
  -- the same run from the reported state
  have hcont : (Map op size).Contract (fun _ => True) := Map_contract hop size _
  have hres : call (Map op size) v (some s0) = .ok (z, sf, s0) :=
    (C01_streaming_eq_stepping hms hmu hw (by rintro _ ⟨⟩; exact hi) _ _ _).2
      ⟨hl, x, xs, hin, o, n, s0, hcont.call_fresh hms hx trivial h1, rfl, h2, h3, tr, h4, h5, h6, h7⟩
  obtain ⟨ps, x0, ov, nx, init, prev, oty, sty, rows, o', n', a1, a2, a3, a4, a5, a6, a7, a8, a9, a10, a11, a12, e⟩ :=
    (Map_ok hop hx (by simp)).1 ((call_step_ok hx (by simp)).1 h1).2.2
  cases e
  have einit : init = i0 := (hs x0 (hD x hx0 0 x0 a5)).2 _ a6
  subst einit
  have hprev : prev.WF := WF_tup.1 hi prev (by simp)
  obtain ⟨SF, m, e1, e2, e3, e4, e5, e6⟩ := C14_map_columns_resume hop hu hw hprev hres
  -- rows of the tiled state
  have tile : ∀ k s, k < m → sliceAt k prev = .ok s → s = init := by
    intro k s hk hks
    simp only [MapPrev] at a7
    have t1 := (traverse_eq_ok_iff _ _ _).1 a7
    have t2 := sliceAt_ok.1 hks
    refine eq_of_skel_of_flatten _ _ (t2.1.trans t1.1) ?_
    have t1' := t1.2
    have t2' := t2.2
    rw [mapM_eq_ok_iff_get] at t1' t2'
    obtain ⟨c1, d1⟩ := t1'
    obtain ⟨c2, d2⟩ := t2'
    refine List.ext_getElem (by omega) fun j j1 j2 => ?_
    have b1 := d1 j j2
    have b2 := d2 j (by omega)
    exact Leaf.tile_index b1 b2
  have hinitw : init.WF := (WF_of_skel_eq (by rw [tile_skel a7] : prev.skel = init.skel)).1 hprev
  refine ⟨SF, prev, m, e1, rfl, e3, e4, fun k hk => ?_⟩
  obtain ⟨c, s, zc, sfk, f1, f2, f3, f4, f5⟩ := e6 k hk
  have := tile k s hk f2
  subst this
  refine ⟨f2, c, zc, sfk, f1, ?_, f4, f5⟩
  have hcw : c.WF := (WF_of_skel_eq (columnOf_ok.1 f1).1).2 hw
  refine call_none_of_some hop hu hs hinitw hcw ?_ f3
  intro y hy
  refine hD x hx0 k y ?_
  -- the first entry of column k is row k of the first slice
  have hsz := exists_isSeries (e4 x hx0)
  obtain ⟨row, hrl, hrow⟩ := hsz
  have f1' := columnOf_ok.1 f1
  have y' := sliceAt_ok.1 hy
  rw [sliceAt_ok]
  have x' := sliceAt_ok.1 hx0
  refine ⟨y'.1.trans (f1'.1.trans x'.1.symm), ?_⟩
  have q1 := f1'.2
  have q2 := y'.2
  have q3 := x'.2
  rw [mapM_eq_ok_iff_get] at q1 q2 q3 ⊢
  obtain ⟨l1, q1⟩ := q1
  obtain ⟨l2, q2⟩ := q2
  obtain ⟨l3, q3⟩ := q3
  simp only [List.getElem_cons_zero] at l3 q3
  refine ⟨by omega, fun j hj => ?_⟩
  exact Leaf.index_col (q3 j (by omega)) (q1 j (by omega)) (q2 j (by omega))

/-! ### Non-vacuity -/

/-- `SMA(p)` starts from iteration 0 and a buffer of zeros, whatever the first number is. -/
theorem SMA_startsFrom [TFNum α] {p : Int} (hp : 0 ≤ p) :
    (SMA p : Operator α).StartsFrom (.tup [vI 0, vSBuf (List.replicate p.toNat Arith.zero)]) (fun x => ∃ a : α, x = vS a) := by
  have e : (vSBuf (List.replicate p.toNat Arith.zero) : Val α) = vBuf (s := []) (List.replicate p.toNat Arith.zero) := by
    unfold vSBuf
    rw [List.map_replicate]
    rfl
  rintro _ ⟨a, rfl⟩
  have z : (zerosBuf p : Res (List (Idx [] → α))) = .ok (List.replicate p.toNat Arith.zero) := by simp [zerosBuf, not_lt.2 hp]
  rw [e]
  have l : call (SMA p) (vS a) none false = call (SMA p) (vS a)
      (some (.tup [vI 0, vBuf (s := []) (List.replicate p.toNat Arith.zero)])) false := by
    simp [call_none, call_some, SMA, bufferOp, streamable, unpackArgs, arity, smaStep, z]
  refine ⟨l, ?_⟩
  rintro r hr
  simp [call_none, SMA, bufferOp, streamable, unpackArgs, arity, smaStep, z] at hr
  rw [← hr]

/-- A matrix of `n` columns over ℚ given by its rows. -/
abbrev matrix (n : Nat) (l : List (List ℚ)) : Val (XR ℚ) := vBuf (s := [n]) (l.map fun r c => .fin (r[c.1.1]?.getD 0))
example := C14_map_columns_resume (α := XR ℚ) (Lib.basic (.sma 2)).ok.sane (Lib.basic (.sma 2)).ok.uniform (size := 2) (v := matrix 2 [[1, 10], [3, 20]])
  (S := .tup [.leaf (.i ⟨[2], fun _ => 3⟩), matrix 2 [[5, 3], [40, 20]]]) (z := matrix 2 [[3, 25], [2, 15]]) (sf := .tup [.tup [.leaf (.i ⟨[2], fun _ => 5⟩), matrix 2 [[3, 1], [20, 10]]]])
  (s0 := .tup [.tup [.leaf (.i ⟨[2], fun _ => 3⟩), matrix 2 [[5, 3], [40, 20]]]]) (by simp [matrix]) (by simp [matrix, WF_tup]) (by decide +kernel)

/-- Three steps of two numbers each: column 0 is 1, 3, 5 and column 1 is 10, 20, 40. -/
example : call (Map (SMA 2) 2) (matrix 2 [[1, 10], [3, 20], [5, 40]]) none =
    .ok (matrix 2 [[0, 0], [2, 15], [4, 30]],
      .tup [.tup [.leaf (.i ⟨[2], fun _ => 3⟩), matrix 2 [[5, 3], [40, 20]]]],
      .tup [.tup [.leaf (.i ⟨[2], fun _ => 0⟩), matrix 2 [[0, 0], [0, 0]]]]) := by decide +kernel
example : call (SMA 2) (series [10, 20, 40]) none =
    .ok (series [0, 15, 30], .tup [vI 3, series [40, 20]], .tup [vI 0, series [0, 0]]) := by decide +kernel
example : columnOf 1 (matrix 2 [[1, 10], [3, 20], [5, 40]]) = .ok (series [10, 20, 40]) := by decide +kernel
/-- Resuming from the state left by another run. -/
example : call (Map (SMA 2) 2) (matrix 2 [[1, 10], [3, 20]])
      (some (.tup [.tup [.leaf (.i ⟨[2], fun _ => 3⟩), matrix 2 [[5, 3], [40, 20]]]])) =
    .ok (matrix 2 [[3, 25], [2, 15]],
      .tup [.tup [.leaf (.i ⟨[2], fun _ => 5⟩), matrix 2 [[3, 1], [20, 10]]]],
      .tup [.tup [.leaf (.i ⟨[2], fun _ => 3⟩), matrix 2 [[5, 3], [40, 20]]]]) := by decide +kernel

/-- An operator whose initial state is its first input: it reports how far the input is from where it started. -/
def sinceStart : Operator (XR ℚ) := streamable fun args => match args with
  | [.leaf (.f ⟨[], x⟩)] => .ok (vS (.fin 0), vS (x ()), vS (x ()))
  | [.leaf (.f ⟨[], x⟩), .leaf (.f ⟨[], s⟩)] => .ok (vS (x () - s ()), vS (s ()), vS (s ()))
  | _ => .error .typeError

/-- Why `C14_map_columns` asks that the initial state does not depend on the values: `Map` gives every column
the initial state of column 0 (meta/map.py:17-24).  The second column starts at 10 - 1 = 9, not at 0. -/
theorem C14_map_shares_initial_state :
    call (Map sinceStart 2) (matrix 2 [[1, 10], [3, 20]]) none =
      .ok (matrix 2 [[0, 9], [2, 19]], .tup [series [1, 1]], .tup [series [1, 1]]) ∧
    call sinceStart (series [10, 20]) none = .ok (series [0, 10], vS (.fin 10), vS (.fin 10)) :=
  ⟨by decide +kernel, by decide +kernel⟩
example := C14_map_shares_initial_state

end TS
