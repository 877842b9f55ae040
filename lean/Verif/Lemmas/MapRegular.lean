import Verif.Lemmas.MetaRegular
/-
Map: `tf.map_fn` runs the rows one by one; regularity of Map and FFill.
-/
namespace TS
open PyVal
variable {α : Type}
set_option linter.unusedSimpArgs false
set_option linter.unusedSectionVars false

/-- One row: `apply_op` of meta/map.py:32-38. -/
def mapRow (op : Operator α) (p : Val α × Val α) : Res (Val α × Val α) := do
  let (o, n, _) ← call op p.1 (some p.2) false
  .ok (o, n)

theorem mapRow_ok {op : Operator α} {p q : Val α × Val α} : mapRow op p = .ok q ↔
    ∃ i, call op p.1 (some p.2) false = .ok (q.1, q.2, i) := by
  simp only [mapRow, bind_eq_ok]
  constructor
  · rintro ⟨⟨o, n, i⟩, h, e⟩
    cases e
    exact ⟨i, h⟩
  · rintro ⟨i, h⟩
    exact ⟨_, h, rfl⟩

/-- All rows succeed with results `rows` of the declared types. -/
def RowsOK (op : Operator α) (outTy stTy : PyVal DType) (ps rows : List (Val α × Val α)) : Prop :=
  List.Forall₂ (fun p q => mapRow op p = .ok q ∧ HasType q.1 outTy ∧ HasType q.2 stTy) ps rows

theorem write_skel {i : Nat} {o : Val α} {outs outs' : PyVal (TArr α)} (ho : o.WF) (hsk : o.skel = outs.skel)
    (h : mapFn (writeFn i) o [o.map .inl, outs.map .inr] = .ok outs') : outs'.skel = outs.skel := by
  rw [mapFn_map_zip _ _ _ _ ho outs hsk, zipM_eq_ok_iff _ _ _ _ hsk] at h
  exact h.1.trans hsk

theorem writeAll_cons_ok {i : Nat} {o : Val α} {os : List (Val α)} {outs outs' : PyVal (TArr α)} :
    writeAll i (o :: os) outs = .ok outs' ↔ ∃ u, mapFn (writeFn i) o [o.map .inl, outs.map .inr] = .ok u ∧
      u.skel = outs.skel ∧ writeAll (i + 1) os u = .ok outs' := by
  simp only [writeAll, bind_eq_ok]
  constructor
  · rintro ⟨u, h1, h2⟩
    by_cases e : u.skel = outs.skel
    · rw [if_neg (by simpa using e)] at h2
      exact ⟨u, h1, e, h2⟩
    · rw [if_pos e] at h2; cases h2
  · rintro ⟨u, h1, h2, h3⟩
    exact ⟨u, h1, by rw [if_neg (by simpa using h2)]; exact h3⟩

theorem mapLoop_ok {op : Operator α} (hop : op.Sane) {inputs state : Val α} (hi : inputs.WF) (hst : state.WF)
    {outTy stTy : PyVal DType} (ps : List (Val α × Val α)) (i : Nat)
    (hx : ∀ j (h : j < ps.length), sliceAt (i + j) inputs = .ok ps[j].1)
    (hs : ∀ j (h : j < ps.length), sliceAt (i + j) state = .ok ps[j].2)
    {outs sts outs' sts' : PyVal (TArr α)} (ho : outs.skel = outTy.skel) (hs' : sts.skel = stTy.skel) :
    mapLoop op inputs state outTy stTy ps.length i outs sts = .ok (outs', sts') ↔
    ∃ rows, RowsOK op outTy stTy ps rows ∧ writeAll i (rows.map (·.1)) outs = .ok outs' ∧
      writeAll i (rows.map (·.2)) sts = .ok sts' := by
  induction ps generalizing i outs sts with
  | nil =>
    simp only [List.length_nil, mapLoop, Except.ok.injEq, Prod.mk.injEq, RowsOK]
    constructor
    · rintro ⟨rfl, rfl⟩; exact ⟨[], .nil, rfl, rfl⟩
    · rintro ⟨rows, h, h1, h2⟩
      cases h
      cases h1; cases h2
      exact ⟨rfl, rfl⟩
  | cons p ps ih =>
    have hx0 : mapFn (fn1 (Leaf.index i)) inputs [inputs] = .ok p.1 := by
      rw [mapFn_fn1_self _ _ hi]; exact hx 0 (by simp)
    have hs0 : mapFn (fn1 (Leaf.index i)) state [state] = .ok p.2 := by
      rw [mapFn_fn1_self _ _ hst]; exact hs 0 (by simp)
    have hx1 : ∀ j (h : j < ps.length), sliceAt (i + 1 + j) inputs = .ok ps[j].1 := by
      intro j h
      have := hx (j + 1) (by simpa using h)
      rw [show i + 1 + j = i + (j + 1) by omega]
      simpa using this
    have hs1 : ∀ j (h : j < ps.length), sliceAt (i + 1 + j) state = .ok ps[j].2 := by
      intro j h
      have := hs (j + 1) (by simpa using h)
      rw [show i + 1 + j = i + (j + 1) by omega]
      simpa using this
    have w1 : p.1.WF := (sliceAt_WF (hx 0 (by simp))).2 hi
    have w2 : ∀ s ∈ some p.2, s.WF := by
      rintro _ ⟨⟩; exact (sliceAt_WF (hs 0 (by simp))).2 hst
    simp only [List.length_cons, mapLoop, hx0, hs0, ok_bind, bind_eq_ok]
    constructor
    · rintro ⟨⟨o, n, i0⟩, h1, h⟩
      have hw := hop.call w1 w2 h1
      simp only [bind_eq_ok] at h
      obtain ⟨oty, h2, h⟩ := h
      by_cases e1 : oty = outTy
      · subst e1
        rw [if_neg (by simp)] at h
        simp only [bind_eq_ok] at h
        obtain ⟨sty, h3, h⟩ := h
        by_cases e2 : sty = stTy
        · subst e2
          rw [if_neg (by simp)] at h
          simp only [bind_eq_ok] at h
          obtain ⟨u, h4, v, h5, h6⟩ := h
          have t1 := (toType_ok hw.1).1 h2
          have t2 := (toType_ok hw.2.1).1 h3
          have su := write_skel hw.1 (t1.1.trans ho.symm) h4
          have sv := write_skel hw.2.1 (t2.1.trans hs'.symm) h5
          obtain ⟨rows, r1, r2, r3⟩ := (ih (i + 1) hx1 hs1 (su.trans ho) (sv.trans hs')).1 h6
          exact ⟨(o, n) :: rows, .cons ⟨mapRow_ok.2 ⟨i0, h1⟩, t1, t2⟩ r1,
            writeAll_cons_ok.2 ⟨u, h4, su, r2⟩, writeAll_cons_ok.2 ⟨v, h5, sv, r3⟩⟩
        · rw [if_pos e2] at h; cases h
      · rw [if_pos e1] at h; cases h
    · rintro ⟨rows, h, r2, r3⟩
      cases h with
      | cons h hr =>
        rename_i q rows
        obtain ⟨o, n⟩ := q
        obtain ⟨h1, t1, t2⟩ := h
        obtain ⟨i0, h1⟩ := mapRow_ok.1 h1
        have hw := hop.call w1 w2 h1
        obtain ⟨u, h4, su, r2⟩ := writeAll_cons_ok.1 r2
        obtain ⟨v, h5, sv, r3⟩ := writeAll_cons_ok.1 r3
        refine ⟨(o, n, i0), h1, outTy, (toType_ok hw.1).2 t1, ?_⟩
        rw [if_neg (by simp), (toType_ok hw.2.1).2 t2, ok_bind, if_neg (by simp)]
        simp only [h4, h5, ok_bind]
        exact (ih (i + 1) hx1 hs1 (su.trans ho) (sv.trans hs')).2 ⟨rows, hr, r2, r3⟩

/-- Rows of a successful run are well-formed values. -/
theorem RowsOK.wf {op : Operator α} (hop : op.Sane) {outTy stTy : PyVal DType} {ps rows : List (Val α × Val α)}
    (h : RowsOK op outTy stTy ps rows) (hp : ∀ p ∈ ps, p.1.WF ∧ p.2.WF) : ∀ q ∈ rows, q.1.WF ∧ q.2.WF := by
  induction h with
  | nil => simp
  | cons h _ ih =>
    rename_i p q ps rows _
    have hp0 := hp p (by simp)
    obtain ⟨i, h1⟩ := mapRow_ok.1 h.1
    have := hop.call hp0.1 (by rintro _ ⟨⟩; exact hp0.2) h1
    intro q' hq
    rcases List.mem_cons.1 hq with rfl | hq
    · exact ⟨this.1, this.2.1⟩
    · exact ih (fun p hp' => hp p (by simp [hp'])) q' hq

theorem RowsOK.length {op : Operator α} {outTy stTy : PyVal DType} {ps rows : List (Val α × Val α)}
    (h : RowsOK op outTy stTy ps rows) : ps.length = rows.length := List.Forall₂.length_eq h

theorem RowsOK.types {op : Operator α} {outTy stTy : PyVal DType} {ps rows : List (Val α × Val α)}
    (h : RowsOK op outTy stTy ps rows) : ∀ q ∈ rows, HasType q.1 outTy ∧ HasType q.2 stTy := by
  induction h with
  | nil => simp
  | cons h _ ih => intro q hq; rcases List.mem_cons.1 hq with rfl | hq; exact h.2; exact ih q hq

/-- Arrays of the right type: writing the values and stacking gives exactly the series of the values. -/
theorem write_stack {n : Nat} {ty : PyVal DType} {os : List (Val α)} {outs : PyVal (TArr α)} (hw : outs.WF)
    (hn : os.length = n) (hpos : 0 < n) (hos : ∀ o ∈ os, o.WF ∧ HasType o ty) (h : HoldsAll n ty [] outs) (v : Val α) :
    (∃ u, writeAll 0 os outs = .ok u ∧ mapFn (fn1 TArr.stack) u [u] = .ok v) ↔ IsSeries v os := by
  have hne : os ≠ [] := by rintro rfl; simp at hn; omega
  have sk : ∀ o ∈ os, o.skel = ty.skel := fun o ho => (hos o ho).2.1
  have W := fun u => writeAll_ok (n := n) (ty := ty) [] os outs u (by simp) (fun o ho => ⟨(hos o ho).1, sk o ho⟩)
    (by simp; omega) h
  simp only [hne, if_false, List.nil_append, List.length_nil] at W
  constructor
  · rintro ⟨u, h1, h2⟩
    have hu := ((W u).1 h1).2
    exact (stackAll_ok ((WF_of_skel_eq (hu.1.trans h.1.symm)).2 hw) hn hpos sk hu v).1 h2
  · intro hs
    -- the arrays holding `os`
    have lty : ∀ o ∈ os, (flatten o).length = (flatten ty).length := fun o h => length_flatten_of_skel_eq (sk o h)
    obtain ⟨u, hu1, hu2⟩ := exists_of_skel_flatten ty
      ((List.range (flatten ty).length).map fun j => (⟨((flatten ty)[j]?).getD .float, (leafCol os j).map some⟩ : TArr α))
      (by simp)
    have hu : HoldsAll n ty os u := by
      refine ⟨hu1, fun j hj hj' => ?_⟩
      have e : (flatten u)[j] = ⟨(flatten ty)[j], (leafCol os j).map some⟩ := by
        simp [hu2, List.getElem?_eq_getElem hj']
      rw [e]
      have := leafCol_length lty hj'
      refine ⟨rfl, by omega, ?_⟩
      simp [this, hn]
    refine ⟨u, (W u).2 ⟨fun o ho => (hos o ho).2, hu⟩, ?_⟩
    exact (stackAll_ok ((WF_of_skel_eq (hu.1.trans h.1.symm)).2 hw) hn hpos sk hu v).2 hs

theorem newArrays_exists {n : Nat} {o : Val α} (ho : o.WF) {ty : PyVal DType} (h : HasType o ty) :
    ∃ arr, mapFn (fn1 (TArr.new n)) o [o] = .ok arr ∧ HoldsAll n ty [] arr := by
  obtain ⟨u, hu1, hu2⟩ := exists_of_skel_flatten ty
    ((flatten ty).map fun dt => (⟨dt, List.replicate n none⟩ : TArr α)) (by simp)
  have hu : HoldsAll n ty [] u := by
    refine ⟨hu1, fun j hj hj' => ?_⟩
    simp [hu2, TArr.Holds, leafCol]
  exact ⟨u, (newArrays_ok ho).2 ⟨ty, h, hu⟩, hu⟩

theorem stack_nil : (Leaf.stack [] : Res (Leaf α)) = .error .valueError ∨ ∃ e, (Leaf.stack [] : Res (Leaf α)) = .error e := by
  right
  exact ⟨_, rfl⟩

/-- The state Map starts from: the given one, or the tiled initial state of the operator. -/
def MapPrev (size : Int) (init : Val α) (st : Option (Val α)) (prev : Val α) : Prop :=
  match st with
  | none => init.traverse (tileLeaf size) = .ok prev
  | some s => getItem 0 s = .ok prev

theorem outTy_ok {v : Val α} (hv : v.WF) {ty : PyVal DType} : mapFn (fn1 Leaf.dtype) v [v] = .ok ty ↔ HasType v ty := by
  rw [mapFn_fn1_self _ _ hv, traverse_eq_ok_iff, HasType, eq_comm (a := ty.skel)]

theorem tile_skel {size : Int} {v w : Val α} (h : v.traverse (tileLeaf size) = .ok w) : w.skel = v.skel :=
  ((traverse_eq_ok_iff _ _ _).1 h).1

theorem Map_ok {op : Operator α} (hop : op.Sane) {size : Int} {x : Val α} {st : Option (Val α)} (hx : x.WF)
    (hst : ∀ s ∈ st, s.WF) {r : Step α} :
    (Map op size).forwardStep x st = .ok r ↔ ∃ ps x0 ov nx init prev oty sty rows o n,
      ps ≠ [] ∧ flatten x ++ flatten prev ≠ [] ∧ IsSeries x (ps.map (·.1)) ∧ IsSeries prev (ps.map (·.2)) ∧ sliceAt 0 x = .ok x0 ∧
      call op x0 none false = .ok (ov, nx, init) ∧ MapPrev size init st prev ∧
      HasType ov oty ∧ HasType prev sty ∧
      RowsOK op oty sty ps rows ∧ IsSeries o (rows.map (·.1)) ∧ IsSeries n (rows.map (·.2)) ∧
      r = (o, .tup [n], .tup [prev]) := by
  have tail : ∀ (x0 ov nx init prev : Val α), x0.WF → prev.WF → sliceAt 0 x = .ok x0 → call op x0 none false = .ok (ov, nx, init) →
    ((do
      let stTy ← toType prev
      let outTy ← mapFn (fn1 Leaf.dtype) ov [ov]
      let sizes ← (flatten x ++ flatten prev).mapM Leaf.size0
      match sizes with
      | [] => .error .valueError
      | n :: _ =>
        if sizes.any (· != n) then .error .tensorArray
        else do
          let outs ← mapFn (fn1 (TArr.new n)) ov [ov]
          let sts ← mapFn (fn1 (TArr.new n)) prev [prev]
          let (outs', sts') ← mapLoop op x prev outTy stTy n 0 outs sts
          let outputs ← mapFn (fn1 TArr.stack) outs' [outs']
          let next ← mapFn (fn1 TArr.stack) sts' [sts']
          .ok (outputs, .tup [next], .tup [prev]) : Res (Step α)) = .ok r ↔
    ∃ ps oty sty rows o n, ps ≠ [] ∧ flatten x ++ flatten prev ≠ [] ∧ IsSeries x (ps.map (·.1)) ∧ IsSeries prev (ps.map (·.2)) ∧
      HasType ov oty ∧ HasType prev sty ∧
      RowsOK op oty sty ps rows ∧ IsSeries o (rows.map (·.1)) ∧ IsSeries n (rows.map (·.2)) ∧
      r = (o, .tup [n], .tup [prev])) := by
    intro x0 ov nx init prev hx0 hpw hsl hcall
    have hw0 := hop.call hx0 (by simp) hcall
    have mk : ∀ (ps : List (Val α × Val α)) (oty sty : PyVal DType) (arr sarr : PyVal (TArr α)), ps ≠ [] →
        IsSeries x (ps.map (·.1)) → IsSeries prev (ps.map (·.2)) → HasType ov oty → HasType prev sty →
        HoldsAll ps.length oty [] arr → HoldsAll ps.length sty [] sarr → ∀ o n,
        ((∃ outs' sts', mapLoop op x prev oty sty ps.length 0 arr sarr = .ok (outs', sts') ∧
          mapFn (fn1 TArr.stack) outs' [outs'] = .ok o ∧ mapFn (fn1 TArr.stack) sts' [sts'] = .ok n) ↔
         ∃ rows, RowsOK op oty sty ps rows ∧ IsSeries o (rows.map (·.1)) ∧ IsSeries n (rows.map (·.2))) := by
      intro ps oty sty arr sarr hne hsx hsp ho hp ha hsa o n
      have hpos : 0 < ps.length := List.length_pos_iff.2 hne
      have L := fun outs' sts' => mapLoop_ok (outs' := outs') (sts' := sts') hop hx hpw (outTy := oty) (stTy := sty) ps 0
        (fun j h => by have := hsx.slice j (by simpa using h); rw [List.getElem_map] at this; simpa using this)
        (fun j h => by have := hsp.slice j (by simpa using h); rw [List.getElem_map] at this; simpa using this) ha.1 hsa.1
      have hpw' : ∀ p ∈ ps, p.1.WF ∧ p.2.WF := fun p hp =>
        ⟨hsx.mem_WF hx p.1 (List.mem_map_of_mem hp), hsp.mem_WF hpw p.2 (List.mem_map_of_mem hp)⟩
      have aw : arr.WF := (WF_of_skel_eq (ha.1.trans ho.1.symm)).2 hw0.1
      have sw : sarr.WF := (WF_of_skel_eq (hsa.1.trans hp.1.symm)).2 hpw
      have S : ∀ rows, RowsOK op oty sty ps rows →
          (((∃ u, writeAll 0 (rows.map (·.1)) arr = .ok u ∧ mapFn (fn1 TArr.stack) u [u] = .ok o) ↔ IsSeries o (rows.map (·.1))) ∧
          ((∃ u, writeAll 0 (rows.map (·.2)) sarr = .ok u ∧ mapFn (fn1 TArr.stack) u [u] = .ok n) ↔ IsSeries n (rows.map (·.2)))) := by
        intro rows hr
        have w := hr.wf hop hpw'
        have t := hr.types
        have l := hr.length
        refine ⟨write_stack aw (by simp [l]) hpos ?_ ha o, write_stack sw (by simp [l]) hpos ?_ hsa n⟩
        · intro o ho'
          obtain ⟨q, hq, rfl⟩ := List.mem_map.1 ho'
          exact ⟨(w q hq).1, (t q hq).1⟩
        · intro o ho'
          obtain ⟨q, hq, rfl⟩ := List.mem_map.1 ho'
          exact ⟨(w q hq).2, (t q hq).2⟩
      constructor
      · rintro ⟨outs', sts', h1, h2, h3⟩
        obtain ⟨rows, hr, h4, h5⟩ := (L outs' sts').1 h1
        exact ⟨rows, hr, (S rows hr).1.1 ⟨_, h4, h2⟩, (S rows hr).2.1 ⟨_, h5, h3⟩⟩
      · rintro ⟨rows, hr, h1, h2⟩
        obtain ⟨u, a1, a2⟩ := (S rows hr).1.2 h1
        obtain ⟨v, b1, b2⟩ := (S rows hr).2.2 h2
        exact ⟨u, v, (L u v).2 ⟨rows, hr, a1, b1⟩, a2, b2⟩
    constructor
    · intro h
      simp only [bind_eq_ok] at h
      obtain ⟨sty, hsty, oty, hoty, sizes, hsz, h⟩ := h
      have tp := (toType_ok hpw).1 hsty
      have to1 := (outTy_ok hw0.1).1 hoty
      obtain ⟨hlen, hsz⟩ := mapM_eq_ok_iff_get.1 hsz
      cases sizes with
      | nil => cases h
      | cons n sizes =>
        have hne : flatten x ++ flatten prev ≠ [] := by
          intro e
          rw [e] at hlen
          simp at hlen
        dsimp only at h
        by_cases hany : (n :: sizes).any (· != n) = true
        · rw [if_pos hany] at h; cases h
        · rw [if_neg hany] at h
          simp only [bind_eq_ok] at h
          obtain ⟨outs, ho, sts, hs, ⟨outs', sts'⟩, hl, outputs, h1, next, h2, h3⟩ := h
          have hall : ∀ l ∈ flatten x ++ flatten prev, l.size0 = .ok n := by
            intro l hl
            obtain ⟨k, hk, rfl⟩ := List.mem_iff_getElem.1 hl
            rw [hsz k hk]
            simp only [List.any_eq_true, not_exists, not_and] at hany
            have := hany ((n :: sizes)[k]'(by omega)) (List.getElem_mem _)
            simp at this
            rw [this]
          obtain ⟨xs, lx, sx⟩ := exists_isSeries (v := x) (n := n) fun l hl => hall l (by simp [hl])
          obtain ⟨ss, ls, ss'⟩ := exists_isSeries (v := prev) (n := n) fun l hl => hall l (by simp [hl])
          obtain ⟨oty', to2, ho'⟩ := (newArrays_ok hw0.1).1 ho
          obtain rfl := to2.unique to1
          obtain ⟨sty', ts', hs'⟩ := (newArrays_ok hpw).1 hs
          obtain rfl := ts'.unique tp
          have hn : 0 < n := by
            rcases Nat.eq_zero_or_pos n with rfl | hn
            · exfalso
              by_cases hxe : flatten x = []
              · -- then the state has a leaf, and stacking no rows fails
                cases hl
                have hpe : flatten prev ≠ [] := by simpa [hxe] using hne
                have hsf : flatten sts ≠ [] := by
                  intro e
                  have := length_flatten_of_skel_eq (hs'.1.trans tp.1.symm)
                  rw [e] at this
                  exact hpe (List.length_eq_zero_iff.1 this.symm)
                have sw : sts.WF := (WF_of_skel_eq (hs'.1.trans tp.1.symm)).2 hpw
                rw [mapFn_fn1_self _ _ sw, traverse_eq_ok_iff] at h2
                obtain ⟨_, g⟩ := mapM_eq_ok_iff_get.1 h2.2
                have hp0 : 0 < (flatten sts).length := List.length_pos_iff.2 hsf
                have hp1 : 0 < (flatten sty').length := by
                  rw [← length_flatten_of_skel_eq hs'.1]; exact hp0
                have g := g 0 hp0
                rw [TArr.stack_holds (hs'.2 0 hp0 hp1) rfl] at g
                simp [leafCol, Leaf.stack] at g
              · obtain ⟨l, hl'⟩ := List.exists_mem_of_ne_nil _ hxe
                obtain ⟨k, hk, rfl⟩ := List.mem_iff_getElem.1 hl'
                obtain ⟨_, g⟩ := mapM_eq_ok_iff_get.1 (sliceAt_ok.1 hsl).2
                exact absurd (Leaf.index_lt (hall _ (by simp)) (g k hk)) (by omega)
            · exact hn
          have lz : (xs.zip ss).length = n := by simp [lx, ls]
          have e1 : (xs.zip ss).map (·.1) = xs := List.map_fst_zip (by omega)
          have e2 : (xs.zip ss).map (·.2) = ss := List.map_snd_zip (by omega)
          have hne' : xs.zip ss ≠ [] := by rw [← List.length_pos_iff]; omega
          have := (mk (xs.zip ss) _ _ outs sts hne' (e1.symm ▸ sx) (e2.symm ▸ ss') to1 tp (lz.symm ▸ ho') (lz.symm ▸ hs') outputs next).1
            ⟨outs', sts', by rw [lz]; exact hl, h1, h2⟩
          obtain ⟨rows, r1, r2, r3⟩ := this
          exact ⟨xs.zip ss, _, _, rows, outputs, next, hne', hne, e1.symm ▸ sx, e2.symm ▸ ss', to1, tp, r1, r2, r3, (Except.ok.inj h3).symm⟩
    · rintro ⟨ps, oty, sty, rows, o, n, hne, hfl, sx, sp, to1, tp, hr, so, sn, rfl⟩
      rw [(toType_ok hpw).2 tp, ok_bind, (outTy_ok hw0.1).2 to1, ok_bind]
      have hs1 : (flatten x ++ flatten prev).mapM Leaf.size0 = .ok (List.replicate (flatten x ++ flatten prev).length ps.length) := by
        rw [PyVal.mapM_ok_of_forall (g := fun _ => ps.length), List.map_const']
        intro l hl
        rcases List.mem_append.1 hl with hl | hl
        · simpa using sx.size l hl
        · simpa using sp.size l hl
      obtain ⟨m, hm⟩ : ∃ m, (flatten x ++ flatten prev).length = m + 1 :=
        ⟨_, (Nat.succ_pred_eq_of_pos (List.length_pos_iff.2 hfl)).symm⟩
      rw [hm, List.replicate_succ] at hs1
      rw [hs1, ok_bind]
      dsimp only
      rw [if_neg (by simp [List.mem_replicate])]
      obtain ⟨arr, a1, a2⟩ := newArrays_exists (n := ps.length) hw0.1 to1
      obtain ⟨sarr, b1, b2⟩ := newArrays_exists (n := ps.length) hpw tp
      obtain ⟨u, v, c1, c2, c3⟩ := (mk ps oty sty arr sarr hne sx sp to1 tp a2 b2 o n).2 ⟨rows, hr, so, sn⟩
      rw [a1, ok_bind, b1, ok_bind, c1, ok_bind]
      dsimp only
      rw [c2, ok_bind, c3, ok_bind]
  simp only [Map, metaStreamable, mapStep]
  rw [bind_eq_ok]
  constructor
  · rintro ⟨x0, h0, h⟩
    rw [mapFn_fn1_self _ _ hx] at h0
    have hx0 : x0.WF := (sliceAt_WF h0).2 hx
    rw [bind_eq_ok] at h
    obtain ⟨⟨ov, nx, init⟩, h1, h⟩ := h
    have hw0 := hop.call hx0 (by simp) h1
    cases st with
    | none =>
      dsimp only at h
      rw [bind_eq_ok] at h
      obtain ⟨prev, h2, h⟩ := h
      rw [mapFn_fn1_self _ _ hw0.2.2] at h2
      have hpw : prev.WF := (WF_of_skel_eq (tile_skel h2)).2 hw0.2.2
      obtain ⟨ps, oty, sty, rows, o, n, a, b, c, d, e⟩ := (tail x0 ov nx init prev hx0 hpw h0 h1).1 h
      exact ⟨ps, x0, ov, nx, init, prev, oty, sty, rows, o, n, a, b, c, d, h0, h1, h2, e⟩
    | some s =>
      dsimp only at h
      rw [pure_eq_ok, ok_bind, bind_eq_ok] at h
      obtain ⟨prev, h2, h⟩ := h
      have hpw : prev.WF := by
        obtain ⟨xs, g1, g2⟩ := getItem_ok.1 h2
        exact asSeq_WF g1 (hst s rfl) _ (List.mem_of_getElem? g2)
      obtain ⟨ps, oty, sty, rows, o, n, a, b, c, d, e⟩ := (tail x0 ov nx init prev hx0 hpw h0 h1).1 h
      exact ⟨ps, x0, ov, nx, init, prev, oty, sty, rows, o, n, a, b, c, d, h0, h1, h2, e⟩
  · rintro ⟨ps, x0, ov, nx, init, prev, oty, sty, rows, o, n, a, b, c, d, h0, h1, h2, e⟩
    have hx0 : x0.WF := (sliceAt_WF h0).2 hx
    have hw0 := hop.call hx0 (by simp) h1
    refine ⟨x0, by rw [mapFn_fn1_self _ _ hx]; exact h0, ?_⟩
    rw [bind_eq_ok]
    refine ⟨(ov, nx, init), h1, ?_⟩
    cases st with
    | none =>
      dsimp only
      rw [bind_eq_ok]
      have hpw : prev.WF := (WF_of_skel_eq (tile_skel h2)).2 hw0.2.2
      refine ⟨prev, by rw [mapFn_fn1_self _ _ hw0.2.2]; exact h2, ?_⟩
      exact (tail x0 ov nx init prev hx0 hpw h0 h1).2 ⟨ps, oty, sty, rows, o, n, a, b, c, d, e⟩
    | some s =>
      dsimp only
      rw [pure_eq_ok, ok_bind, bind_eq_ok]
      have hpw : prev.WF := by
        obtain ⟨xs, g1, g2⟩ := getItem_ok.1 h2
        exact asSeq_WF g1 (hst s rfl) _ (List.mem_of_getElem? g2)
      refine ⟨prev, h2, ?_⟩
      exact (tail x0 ov nx init prev hx0 hpw h0 h1).2 ⟨ps, oty, sty, rows, o, n, a, b, c, d, e⟩


theorem IsSeries.skel {v : Val α} {xs : List (Val α)} (h : IsSeries v xs) {x : Val α} (hx : x ∈ xs) : x.skel = v.skel := by
  obtain ⟨i, hi, rfl⟩ := List.mem_iff_getElem.1 hx
  exact sliceAt_skel (h.slice i hi)

theorem RowsOK.series_WF {op : Operator α} {outTy stTy : PyVal DType} {ps rows : List (Val α × Val α)}
    (hr : RowsOK op outTy stTy ps rows) (hne : ps ≠ []) {o n : Val α} (ho : IsSeries o (rows.map (·.1))) (hn : IsSeries n (rows.map (·.2))) :
    o.skel = outTy.skel ∧ n.skel = stTy.skel := by
  have hl := hr.length
  cases rows with
  | nil => simp at hl; exact absurd hl hne
  | cons q rows =>
    have t := hr.types q (by simp)
    exact ⟨(ho.skel (x := q.1) (by simp)).symm.trans t.1.1, (hn.skel (x := q.2) (by simp)).symm.trans t.2.1⟩

theorem Map_sane {op : Operator α} (hop : op.Sane) (size : Int) : (Map op size).Sane := by
  intro x st o n i hx hst h
  obtain ⟨ps, x0, ov, nx, init, prev, oty, sty, rows, o', n', a, b, c, d, h0, h1, h2, h3, h4, h5, h6, h7, h8⟩ := (Map_ok hop hx hst).1 h
  cases h8
  have hx0 : x0.WF := (sliceAt_WF h0).2 hx
  have hw0 := hop.call hx0 (by simp) h1
  have sk := h5.series_WF a h6 h7
  have hpw : prev.WF := by
    cases st with
    | none => exact (WF_of_skel_eq (tile_skel h2)).2 hw0.2.2
    | some s =>
      obtain ⟨xs, g1, g2⟩ := getItem_ok.1 h2
      exact asSeq_WF g1 (hst s rfl) _ (List.mem_of_getElem? g2)
  refine ⟨(WF_of_skel_eq (sk.1.trans h3.1.symm)).2 hw0.1, ?_, ?_⟩
  · have : n'.WF := (WF_of_skel_eq (sk.2.trans h4.1.symm)).2 hpw
    simp [WF_tup, this]
  · simp [WF_tup, hpw]

theorem Map_uniform {op : Operator α} (hop : op.Sane) (hu : op.Uniform) (size : Int) : (Map op size).Uniform := by
  intro x x' st st' o s i o' s' i' hx hst h h' hsk hsk'
  have hw := Map_sane hop size x st o s i hx hst h
  have hx' := (WF_of_skel_eq hsk).1 hx
  have hst' : ∀ s ∈ some st', s.WF := by
    rintro _ ⟨⟩
    exact (WF_of_skel_eq hsk').1 (getD_WF' hst hw.2.2)
  obtain ⟨ps, x0, ov, nx, init, prev, oty, sty, rows, o1, n1, a, b, c, d, h0, h1, h2, h3, h4, h5, h6, h7, h8⟩ := (Map_ok hop hx hst).1 h
  obtain ⟨ps', x0', ov', nx', init', prev', oty', sty', rows', o1', n1', a', b', c', d', h0', h1', h2', h3', h4', h5', h6', h7', h8'⟩ := (Map_ok hop hx' hst').1 h'
  cases h8; cases h8'
  have hpw : prev.WF := (WF_tup.1 hw.2.2) prev (by simp)
  have hpsk : prev.skel = prev'.skel := by
    obtain ⟨ys, g1, g2⟩ := getItem_ok.1 h2'
    cases st with
    | none =>
      obtain ⟨zs, rfl, e⟩ := tup_of_skel hsk'.symm
      cases g1
      have := congrArg (fun l => l[0]?) e
      simp only [List.getElem?_map, g2, Option.map_some, List.map_cons] at this
      simp at this
      exact this.symm
    | some t =>
      obtain ⟨xs, g3, g4⟩ := getItem_ok.1 h2
      obtain ⟨zs, g5, e⟩ := asSeq_skel g3 hsk'
      rw [g1] at g5
      cases g5
      have := congrArg (fun l => l[0]?) e
      simp only [List.getElem?_map, g2, g4, Option.map_some, Option.some.injEq] at this
      exact this
  rw [(h5.series_WF a h6 h7).1, (h5'.series_WF a' h6' h7').1]
  cases h5 with
  | nil => exact absurd rfl a
  | cons r _ =>
    cases h5' with
    | nil => exact absurd rfl a'
    | cons r' _ =>
      rename_i p q _ _ _ p' q' _ _ _
      have e1 : p.1.skel = x.skel := c.skel (by simp)
      have e2 : p.2.skel = prev.skel := d.skel (by simp)
      have e1' : p'.1.skel = x'.skel := c'.skel (by simp)
      have e2' : p'.2.skel = prev'.skel := d'.skel (by simp)
      have w1 := (WF_of_skel_eq e1).2 hx
      have w2 : ∀ t ∈ some p.2, t.WF := by rintro _ ⟨⟩; exact (WF_of_skel_eq e2).2 hpw
      have w1' := (WF_of_skel_eq e1').2 hx'
      have w2' : ∀ t ∈ some p'.2, t.WF := by rintro _ ⟨⟩; exact (WF_of_skel_eq (e2'.trans hpsk.symm)).2 hpw
      obtain ⟨j, r1⟩ := mapRow_ok.1 r.1
      obtain ⟨j', r1'⟩ := mapRow_ok.1 r'.1
      rw [← r.2.1.1, ← r'.2.1.1]
      exact hu p.1 p'.1 (some p.2) p'.2 _ _ _ _ _ _ w1 w2 ((call_step_ok w1 w2).1 r1).2.2 ((call_step_ok w1' w2').1 r1').2.2
        (by rw [e1, e1', hsk]) (by simp [e2, e2', hpsk])

theorem Map_contract {op : Operator α} (hop : op.Sane) (size : Int) (D : Val α → Prop) : (Map op size).Contract D where
  fresh := by
    intro x o n i hx _ h
    have hw := Map_sane hop size x none o n i hx (by simp) h
    obtain ⟨ps, x0, ov, nx, init, prev, oty, sty, rows, o1, n1, a, b, c, d, h0, h1, h2, h3, h4, h5, h6, h7, h8⟩ :=
      (Map_ok hop hx (by simp)).1 h
    cases h8
    exact (Map_ok hop hx (by rintro _ ⟨⟩; exact hw.2.2)).2
      ⟨ps, x0, ov, nx, init, prev, oty, sty, rows, o, n1, a, b, c, d, h0, h1, rfl, h3, h4, h5, h6, h7, rfl⟩
  tensors := by
    intro x o n i hx _ h
    obtain ⟨ps, x0, ov, nx, init, prev, oty, sty, rows, o1, n1, a, b, c, d, h0, h1, h2, h3, h4, h5, h6, h7, h8⟩ :=
      (Map_ok hop hx (by simp)).1 h
    cases h8
    have : Tensors prev := tensors_iff.2 ⟨sty, h4⟩
    simp [tensors_tup, this]
  echo := by
    intro x x' s o n i o' n' i' hx _ hx' _ h' hsk h
    have hw' := Map_sane hop size x' none o' n' i' hx' (by simp) h'
    have hs : ∀ t ∈ some s, t.WF := by rintro _ ⟨⟩; exact (WF_of_skel_eq hsk).2 hw'.2.2
    obtain ⟨ps, x0, ov, nx, init, prev, oty, sty, rows, o1, n1, a, b, c, d, h0, h1, h2, h3, h4, h5, h6, h7, h8⟩ :=
      (Map_ok hop hx hs).1 h
    obtain ⟨ps', x0', ov', nx', init', prev', oty', sty', rows', o1', n1', a', b', c', d', h0', h1', h2', h3', h4', h5', h6', h7', h8'⟩ :=
      (Map_ok hop hx' (by simp)).1 h'
    cases h8; cases h8'
    obtain ⟨ys, rfl, hl⟩ := tup_of_skel hsk
    have hl := congrArg List.length hl
    simp only [List.length_map, List.length_cons, List.length_nil, Nat.zero_add] at hl
    obtain ⟨y, rfl⟩ := List.length_eq_one_iff.1 hl
    obtain ⟨xs, g1, g2⟩ := getItem_ok.1 h2
    cases g1
    simp at g2
    rw [g2]

/-! ### FFill -/

section
variable [TFNum α]

theorem zerosLike_skel {o z : Val α} (ho : o.WF) (h : mapFn (fn1 zerosLike) o [o] = .ok z) : z.skel = o.skel ∧ Tensors z := by
  rw [mapFn_fn1_self _ _ ho, traverse_eq_ok_iff] at h
  refine ⟨h.1, ?_⟩
  obtain ⟨hl, g⟩ := mapM_eq_ok_iff_get.1 h.2
  intro l hl'
  obtain ⟨k, hk, rfl⟩ := List.mem_iff_getElem.1 hl'
  have := g k (by omega)
  revert this
  generalize (flatten o)[k] = a
  generalize (flatten z)[k] = c
  intro this e
  subst e
  cases a <;> simp [zerosLike] at this

theorem ffillState_WF {p : Bool} {init prev next r : Val α} (h : ffillState p init prev next = .ok r) (hp : prev.WF) (hn : next.WF) :
    r.WF := by
  unfold ffillState at h
  split at h
  · cases h; simp [PyVal.unit, WF_tup]
  · exact tfCond_WF h hp hn

/-- What the state given to FFill looks like. -/
theorem ffill_state_WF {s a b : Val α} (hs : s.WF) (ha : getItem 0 s = .ok a) (hb : getItem 1 s = .ok b) : a.WF ∧ b.WF := by
  obtain ⟨xs, g1, g2⟩ := getItem_ok.1 ha
  obtain ⟨ys, g3, g4⟩ := getItem_ok.1 hb
  exact ⟨asSeq_WF g1 hs _ (List.mem_of_getElem? g2), asSeq_WF g3 hs _ (List.mem_of_getElem? g4)⟩

theorem FFill_sane {op : Operator α} (hop : op.Sane) : (FFill op).Sane := by
  intro x st o n i hx hst h
  obtain ⟨z, po, ps, o1, n1, i1, po', sel, sst, hz, hst', hc, hpo, hsel, hss, e⟩ := ffill_ok.1 h
  cases e
  have hps : ∀ s ∈ ps, s.WF := by
    rcases hst' with ⟨-, -, rfl⟩ | ⟨s, a, b, rfl, ha, hb, rfl, rfl⟩
    · simp
    · rintro _ ⟨⟩; exact (ffill_state_WF (hst s rfl) ha hb).2
  have hw := hop.call hx hps hc
  have hpw : po'.WF := by
    rcases hst' with ⟨-, rfl, rfl⟩ | ⟨s, a, b, rfl, ha, hb, rfl, rfl⟩
    · rcases hpo with ⟨-, hpo⟩ | hpo
      · exact (WF_of_skel_eq (zerosLike_skel hw.1 hpo).1).2 hw.1
      · cases hpo
    · rcases hpo with ⟨hpo, -⟩ | hpo
      · cases hpo
      · cases hpo; exact (ffill_state_WF (hst s rfl) ha hb).1
  have h1 := tfCond_WF hsel hpw hw.1
  have h2 := ffillState_WF hss (getD_WF' hps hw.2.2) hw.2.1
  refine ⟨h1, ?_, ?_⟩
  · simp [WF_tup, h1, h2]
  · simp [WF_tup, hpw, hw.2.2]

theorem FFill_uniform {op : Operator α} (hop : op.Sane) (hu : op.Uniform) : (FFill op).Uniform := by
  intro x x' st st' o s i o' s' i' hx hst h h' hsk hsk'
  have hw0 := FFill_sane hop x st o s i hx hst h
  have hx' := (WF_of_skel_eq hsk).1 hx
  have hst2 : st'.WF := (WF_of_skel_eq hsk').1 (getD_WF' hst hw0.2.2)
  obtain ⟨z, po, ps, o1, n1, i1, po1, sel, sst, hz, hst', hc, hpo, hsel, hss, e⟩ := ffill_ok.1 h
  obtain ⟨z', po', ps', o1', n1', i1', po1', sel', sst', hz', hst'', hc', hpo', hsel', hss', e'⟩ := ffill_ok.1 h'
  cases e; cases e'
  rcases hst'' with ⟨h0, -, -⟩ | ⟨s', a', b', h0, ha', hb', rfl, rfl⟩
  · cases h0
  cases h0
  rcases hpo' with ⟨hpo', -⟩ | hpo'
  · cases hpo'
  cases hpo'
  have hw' := ffill_state_WF hst2 ha' hb'
  have hps : ∀ s ∈ ps, s.WF := by
    rcases hst' with ⟨-, -, rfl⟩ | ⟨s, a, b, rfl, ha, hb, rfl, rfl⟩
    · simp
    · rintro _ ⟨⟩; exact (ffill_state_WF (hst s rfl) ha hb).2
  have hw := hop.call hx hps hc
  have hpw : po1.WF := by
    rcases hst' with ⟨-, rfl, rfl⟩ | ⟨s, a, b, rfl, ha, hb, rfl, rfl⟩
    · rcases hpo with ⟨-, hpo⟩ | hpo
      · exact (WF_of_skel_eq (zerosLike_skel hw.1 hpo).1).2 hw.1
      · cases hpo
    · rcases hpo with ⟨hpo, -⟩ | hpo
      · cases hpo
      · cases hpo; exact (ffill_state_WF (hst s rfl) ha hb).1
  have hw1 := hop.call hx' (by rintro _ ⟨⟩; exact hw'.2) hc'
  rw [tfCond_skel hsel hpw hw.1, tfCond_skel hsel' hw'.1 hw1.1]
  congr 2
  have hb'' : ∀ t ∈ some b', t.WF := by rintro _ ⟨⟩; exact hw'.2
  refine hu x x' ps b' _ _ _ _ _ _ hx hps ((call_step_ok hx hps).1 hc).2.2 ((call_step_ok hx' hb'').1 hc').2.2 hsk ?_
  obtain ⟨ys, g1, g2⟩ := getItem_ok.1 hb'
  rcases hst' with ⟨rfl, rfl, rfl⟩ | ⟨s, a, b, rfl, ha, hb, rfl, rfl⟩
  · obtain ⟨zs, rfl, e⟩ := tup_of_skel hsk'.symm
    cases g1
    have := congrArg (fun l => l[1]?) e
    simp only [List.getElem?_map, g2, Option.map_some, List.map_cons] at this
    simp at this
    exact this.symm
  · obtain ⟨xs, g3, g4⟩ := getItem_ok.1 hb
    obtain ⟨zs, g5, e⟩ := asSeq_skel g3 hsk'
    rw [g1] at g5
    cases g5
    have := congrArg (fun l => l[1]?) e
    simp only [List.getElem?_map, g2, g4, Option.map_some, Option.some.injEq] at this
    exact this

theorem FFill_contract {op : Operator α} (hop : op.Sane) {D : Val α → Prop} (hc : op.Contract D) : (FFill op).Contract D where
  fresh := by
    intro x o n i hx hD h
    obtain ⟨z, po, ps, o1, n1, i1, po1, sel, sst, hz, hst', hcall, hpo, hsel, hss, e⟩ := ffill_ok.1 h
    cases e
    rcases hst' with ⟨-, rfl, rfl⟩ | ⟨s, a, b, h0, -⟩
    · exact ffill_ok.2 ⟨z, some po1, some i1, o1, n1, i1, po1, o, sst, hz, .inr ⟨_, po1, i1, rfl, rfl, rfl, rfl, rfl⟩,
        hc.call_fresh hop hx hD hcall, .inr rfl, hsel, hss, rfl⟩
    · cases h0
  tensors := by
    intro x o n i hx hD h
    obtain ⟨z, po, ps, o1, n1, i1, po1, sel, sst, hz, hst', hcall, hpo, hsel, hss, e⟩ := ffill_ok.1 h
    cases e
    rcases hst' with ⟨-, rfl, rfl⟩ | ⟨s, a, b, h0, -⟩
    · have hw := hop.call hx (by simp) hcall
      rcases hpo with ⟨-, hpo⟩ | hpo
      · have h1 := (zerosLike_skel hw.1 hpo).2
        have h2 := hc.call_tensors hx hD hcall
        simp [tensors_tup, h1, h2]
      · cases hpo
    · cases h0
  echo := by
    intro x x' s o n i o' n' i' hx hD hx' hD' h' hsk h
    obtain ⟨z, po, ps, o1, n1, i1, po1, sel, sst, hz, hst', hcall, hpo, hsel, hss, e⟩ := ffill_ok.1 h
    obtain ⟨z', po', ps', o1', n1', i1', po1', sel', sst', hz', hst'', hcall', hpo', hsel', hss', e'⟩ := ffill_ok.1 h'
    cases e; cases e'
    rcases hst'' with ⟨-, rfl, rfl⟩ | ⟨s, a, b, h0, -⟩
    · obtain ⟨ys, rfl, hl⟩ := tup_of_skel hsk
      have hl2 := congrArg List.length hl
      simp only [List.length_map, List.length_cons, List.length_nil, Nat.zero_add] at hl2
      obtain ⟨a, b, rfl⟩ := List.length_eq_two.1 hl2
      · simp only [List.map_cons, List.map_nil, List.cons.injEq, and_true] at hl
        rcases hst' with ⟨h0, -, -⟩ | ⟨s, a', b', h0, ha, hb, rfl, rfl⟩
        · cases h0
        · cases h0
          cases ha; cases hb
          rcases hpo with ⟨hpo, -⟩ | hpo
          · cases hpo
          · cases hpo
            rw [hc.call_echo hop hx hD hx' hD' hcall' hl.2 hcall]
    · cases h0

end
end TS
