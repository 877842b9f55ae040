import Verif.Lemmas.JoinStream
import Verif.Props.Contract
/-
C12-C13: Join and Factory.
-/
namespace TS
open PyVal
variable {α : Type}
set_option linter.unusedSimpArgs false

theorem StateList.wf {n : Nat} {st : Option (Val α)} {sts : List (Option (Val α))} (h : StateList n st sts) :
    (∀ s ∈ st, s.WF) ∧ (∀ o ∈ sts, ∀ s ∈ o, s.WF) ∧ sts.length = n ∧ opStates n st = .ok sts := by
  rcases h with ⟨rfl, rfl⟩ | ⟨ss, rfl, rfl, hl, hw⟩
  · exact ⟨by simp, by simp, by simp, opStates_none n⟩
  · refine ⟨?_, ?_, by simpa using hl, opStates_tup _ _⟩
    · rintro _ ⟨⟩; exact WF_tup.2 hw
    · intro o ho s hs
      obtain ⟨t, ht, rfl⟩ := List.mem_map.1 ho
      cases hs
      exact hw _ ht

theorem joinLoop_tensors {ops : List (Operator α)} : ∀ {xs : List (Val α)} {sts : List (Option (Val α))} {r},
    xs.length = ops.length → sts.length = ops.length → (∀ x ∈ xs, x.WF) → (∀ o ∈ sts, ∀ s ∈ o, s.WF) →
    joinLoop (ops.zip (xs.zip sts)) = .ok r → (∀ x ∈ xs, Tensors x) ∧ ∀ o ∈ sts, ∀ s ∈ o, Tensors s := by
  induction ops with
  | nil =>
    intro xs sts r h1 h2 _ _ _
    have : xs = [] := by simpa using h1
    have : sts = [] := by simpa using h2
    simp [*]
  | cons op ops ih =>
    intro xs sts r h1 h2 hx hs h
    obtain ⟨os, ns, is⟩ := r
    cases xs with
    | nil => simp at h1
    | cons x xs =>
      cases sts with
      | nil => simp at h2
      | cons st sts =>
        rw [List.zip_cons_cons, List.zip_cons_cons] at h
        obtain ⟨o, n, i, os', ns', is', h3, h4, rfl, rfl, rfl⟩ := joinLoop_cons_ok.1 h
        have ht := call_ok_tensors (hx x (by simp)) (hs st (by simp)) h3
        have hr := ih (by simpa using h1) (by simpa using h2) (fun x h => hx x (by simp [h])) (fun o h => hs o (by simp [h])) h4
        constructor
        · intro y hy
          rcases List.mem_cons.1 hy with rfl | hy
          exacts [ht.1, hr.1 y hy]
        · intro y hy
          rcases List.mem_cons.1 hy with rfl | hy
          exacts [ht.2, hr.2 y hy]

theorem join_call_iff {ops : List (Operator α)} {xs : List (Val α)} (hl : xs.length = ops.length) (hx : ∀ x ∈ xs, x.WF)
    {st : Option (Val α)} {sts : List (Option (Val α))} (hst : StateList ops.length st sts) {r : Step α} :
    call (Join ops) (.tup xs) st false = .ok r ↔
      ∃ os ns is, joinLoop (ops.zip (xs.zip sts)) = .ok (os, ns, is) ∧ r = (.tup os, .tup ns, .tup is) := by
  obtain ⟨w1, w2, w3, w4⟩ := hst.wf
  rw [call_step_ok (WF_tup.2 hx) w1, join_ok]
  constructor
  · rintro ⟨-, -, sts', xs', os, ns, is, h1, h2, h3, rfl⟩
    rw [w4] at h1
    cases h1
    cases h2
    exact ⟨os, ns, is, h3, rfl⟩
  · rintro ⟨os, ns, is, h, rfl⟩
    have ht := joinLoop_tensors hl w3 hx w2 h
    refine ⟨tensors_tup.2 ht.1, ?_, sts, xs, os, ns, is, w4, rfl, h, rfl⟩
    rcases hst with ⟨rfl, rfl⟩ | ⟨ss, rfl, rfl, hl, hw⟩
    · simp
    · rintro _ ⟨⟩
      exact tensors_tup.2 fun s hs => ht.2 (some s) (by simp [hs]) s rfl

theorem join_stepAll_iff {ops : List (Operator α)} (hop : ∀ op ∈ ops, op.Sane) : ∀ {xss : List (List (Val α))}
    {ss : List (Val α)} {tr}, (∀ xs ∈ xss, xs.length = ops.length ∧ ∀ x ∈ xs, x.WF) → ss.length = ops.length →
    (∀ s ∈ ss, s.WF) → (stepAll (Join ops) (xss.map .tup) (.tup ss) = .ok tr ↔
      ∃ tr', joinAll ops xss ss = .ok tr' ∧ tr = tr'.map fun e => (.tup e.1, .tup e.2)) := by
  intro xss
  induction xss with
  | nil => intro ss tr _ _ _; simp [stepAll, joinAll, eq_comm]
  | cons xs xss ih =>
    intro ss tr hx hl hs
    have hx1 := hx xs (by simp)
    have hsl : StateList ops.length (some (.tup ss)) (ss.map some) := .inr ⟨ss, rfl, rfl, hl, hs⟩
    have next : ∀ {os ns is}, joinLoop (ops.zip (xs.zip (ss.map some))) = .ok (os, ns, is) →
        ns.length = ops.length ∧ ∀ n ∈ ns, n.WF := by
      intro os ns is h
      have l := joinLoop_length h
      simp only [List.length_zip, List.length_map, hx1.1, hl, Nat.min_self] at l
      refine ⟨l.2.1, (joinLoop_sane (fun p hp => hop p.1 (List.of_mem_zip hp).1)
        (fun p hp => hx1.2 _ (List.of_mem_zip (List.of_mem_zip hp).2).1) (fun p hp => ?_) h).2.1⟩
      have := (List.of_mem_zip (List.of_mem_zip hp).2).2
      obtain ⟨t, ht, e⟩ := List.mem_map.1 this
      rw [← e]
      rintro _ ⟨⟩
      exact hs t ht
    rw [List.map_cons, stepAll_cons_ok]
    constructor
    · rintro ⟨o, n, i, tr1, h1, h2, rfl⟩
      obtain ⟨os, ns, is, h3, e⟩ := (join_call_iff hx1.1 hx1.2 hsl).1 h1
      cases e
      obtain ⟨l, w⟩ := next h3
      obtain ⟨tr', h4, rfl⟩ := (ih (fun xs h => hx xs (by simp [h])) l w).1 h2
      exact ⟨_, joinAll_cons_ok.2 ⟨os, ns, is, tr', h3, h4, rfl⟩, rfl⟩
    · rintro ⟨tr', h1, rfl⟩
      obtain ⟨os, ns, is, tr1, h3, h4, rfl⟩ := joinAll_cons_ok.1 h1
      obtain ⟨l, w⟩ := next h3
      exact ⟨_, _, _, _, (join_call_iff hx1.1 hx1.2 hsl).2 ⟨os, ns, is, h3, rfl⟩,
        (ih (fun xs h => hx xs (by simp [h])) l w).2 ⟨tr1, h4, rfl⟩, rfl⟩

theorem getD_stateList {n : Nat} {st : Option (Val α)} {sts : List (Option (Val α))} (hst : StateList n st sts)
    {is : List (Val α)} (hl : is.length = n) : st.getD (.tup is) = .tup (List.zipWith Option.getD sts is) := by
  rcases hst with ⟨rfl, rfl⟩ | ⟨ss, rfl, rfl, hl', hw⟩
  · have : List.zipWith Option.getD (List.replicate n none) is = is := by
      refine List.ext_getElem (by simp [hl]) fun k a b => by simp
    rw [this]; rfl
  · have : List.zipWith Option.getD (ss.map some) is = ss := by
      refine List.ext_getElem (by simp [hl, hl']) fun k a b => by simp
    rw [this]; rfl

theorem streamOf_join {ops : List (Operator α)} (hop : ∀ op ∈ ops, op.Sane) {xss : List (List (Val α))}
    (hx : ∀ xs ∈ xss, xs.length = ops.length ∧ ∀ x ∈ xs, x.WF) {st : Option (Val α)} {sts : List (Option (Val α))}
    (hst : StateList ops.length st sts) (z sf s0 : Val α) :
    StreamOf (Join ops) (xss.map .tup) st z sf s0 ↔
      ∃ zs sfs s0s, JoinRun ops xss sts zs sfs s0s ∧ z = .tup zs ∧ sf = .tup sfs ∧ s0 = .tup s0s := by
  obtain ⟨w1, w2, w3, w4⟩ := hst.wf
  have wfis : ∀ {x os ns is}, x ∈ xss → joinLoop (ops.zip (x.zip sts)) = .ok (os, ns, is) → is.length = ops.length ∧
      (List.zipWith Option.getD sts is).length = ops.length ∧ ∀ s ∈ List.zipWith Option.getD sts is, s.WF := by
    intro x os ns is hxm h
    have l := joinLoop_length h
    simp only [List.length_zip, w3, (hx x hxm).1, Nat.min_self] at l
    have w := (joinLoop_sane (fun p hp => hop p.1 (List.of_mem_zip hp).1)
      (fun p hp => (hx x hxm).2 _ (List.of_mem_zip (List.of_mem_zip hp).2).1)
      (fun p hp => w2 _ (List.of_mem_zip (List.of_mem_zip hp).2).2) h).2.2
    refine ⟨l.2.2, by simp [w3, l.2.2], ?_⟩
    intro s hs
    obtain ⟨k, hk, rfl⟩ := List.mem_iff_getElem.1 hs
    have hk' : k < sts.length ∧ k < is.length := by rw [List.length_zipWith] at hk; omega
    rw [List.getElem_zipWith]
    exact getD_WF' (w2 _ (List.getElem_mem hk'.1)) (w _ (List.getElem_mem hk'.2))
  constructor
  · rintro ⟨x, xs', e, o, n, i, h1, rfl, h3, h4, tr, h5, h6, h7, h8⟩
    cases xss with
    | nil => simp at e
    | cons x0 xss =>
      simp only [List.map_cons, List.cons.injEq] at e
      obtain ⟨rfl, rfl⟩ := e
      obtain ⟨os, ns, is, g1, g2⟩ := (join_call_iff (hx x0 (by simp)).1 (hx x0 (by simp)).2 hst).1 h1
      cases g2
      obtain ⟨li, l0, w0⟩ := wfis (by simp) g1
      rw [getD_stateList hst li] at h3 h5 h6
      obtain ⟨tr', g3, rfl⟩ := (join_stepAll_iff hop hx l0 w0).1 h5
      have h7' : IsSeries z (tr'.map fun e => .tup e.1) := by simpa [List.map_map, Function.comp_def] using h7
      have h8' : ((tr'.map (·.2)).map PyVal.tup).getLast? = some sf := by simpa [List.map_map, Function.comp_def] using h8
      rw [List.getLast?_map, Option.map_eq_some_iff] at h8'
      obtain ⟨sfs, g4, rfl⟩ := h8'
      obtain ⟨zs, rfl⟩ : ∃ zs, z = .tup zs := by
        have hlen := joinAll_length g3
        have hpos : 0 < (tr'.map fun e => PyVal.tup e.1).length := by simp [hlen]
        have := sliceAt_skel (h7'.slice 0 hpos)
        rw [List.getElem_map] at this
        obtain ⟨zs, rfl, -⟩ := tup_of_skel this.symm
        exact ⟨zs, rfl⟩
      refine ⟨zs, sfs, _, ⟨x0, xss, rfl, os, ns, is, g1, rfl, h3, h4, tr', g3, ?_, h7', g4⟩, rfl, rfl, getD_stateList hst li⟩
      intro e he
      exact h6 _ (List.mem_map_of_mem he)
  · rintro ⟨zs, sfs, s0s, ⟨x0, xss', rfl, os, ns, is, g1, rfl, h3, h4, tr', g3, g4, g5, g6⟩, rfl, rfl, rfl⟩
    obtain ⟨li, l0, w0⟩ := wfis (by simp) g1
    refine ⟨.tup x0, xss'.map .tup, rfl, .tup os, .tup ns, .tup is,
      (join_call_iff (hx x0 (by simp)).1 (hx x0 (by simp)).2 hst).2 ⟨os, ns, is, g1, rfl⟩, (getD_stateList hst li).symm, h3, h4, _,
      (join_stepAll_iff hop hx l0 w0).2 ⟨tr', g3, rfl⟩, ?_, ?_, ?_⟩
    · intro e he
      obtain ⟨e', he', rfl⟩ := List.mem_map.1 he
      exact g4 e' he'
    · simpa [List.map_map, Function.comp_def] using g5
    · have : List.map (·.2) (tr'.map fun e => (PyVal.tup e.1, PyVal.tup e.2)) = (tr'.map (·.2)).map .tup := by
        simp [List.map_map, Function.comp_def]
      rw [this, List.getLast?_map, g6]; rfl

theorem joinRun_bank {ops : List (Operator α)} : ∀ {vs : List (Val α)} {xss : List (List (Val α))} {sts : List (Option (Val α))}
    {zs sfs s0s : List (Val α)}, (∀ op ∈ ops, op.Sane ∧ op.Uniform) → vs.length = ops.length → sts.length = ops.length →
    xss ≠ [] → (∀ v ∈ vs, v.WF ∧ flatten v ≠ []) → (∀ xs ∈ xss, xs.length = ops.length) → (∀ o ∈ sts, ∀ s ∈ o, s.WF) →
    IsSeries (.tup vs) (xss.map .tup) → (JoinRun ops xss sts zs sfs s0s ↔ Bank ops sts vs zs sfs s0s) := by
  induction ops with
  | nil =>
    intro vs xss sts zs sfs s0s _ h1 h2 hne _ hx _ _
    have e1 : vs = [] := by simpa using h1
    have e2 : sts = [] := by simpa using h2
    have e3 : xss = List.replicate ((xss.length - 1) + 1) [] := by
      rw [Nat.sub_add_cancel (List.length_pos_iff.2 hne)]
      exact List.eq_replicate_of_mem fun xs h => by simpa using hx xs h
    subst e1 e2
    rw [e3, joinRun_nil]
    constructor
    · rintro ⟨rfl, rfl, rfl⟩; exact .nil
    · intro h; cases h; exact ⟨rfl, rfl, rfl⟩
  | cons op ops ih =>
    intro vs xss sts zs sfs s0s hop h1 h2 hne hv hx hs hin
    cases vs with
    | nil => simp at h1
    | cons v vs =>
      cases sts with
      | nil => simp at h2
      | cons st sts =>
        obtain ⟨hs', ts, hl, rfl, hts⟩ := split_rows (k := ops.length) (by simpa using hx)
        have hin' := (isSeries_tup_cons hl).1 hin
        have hv1 := hv v (by simp)
        have hop1 := hop op (by simp)
        have tne : ts ≠ [] := by rintro rfl; simp at hne
        have key := fun z sf s0 => call_iff_streamOf hop1.1 hop1.2 hv1.1 hv1.2 hin'.1 (hs st (by simp)) z sf s0
        constructor
        · intro h
          have lens : zs.length = ops.length + 1 ∧ sfs.length = ops.length + 1 ∧ s0s.length = ops.length + 1 := by
            obtain ⟨x, xss', e, os, ns, is, g1, rfl, g3, g4, tr, g5, g6, g7, g8⟩ := h
            have li := joinLoop_length g1
            have lx : x.length = ops.length + 1 := by simpa using hx x (by rw [e]; simp)
            simp only [List.length_zip, lx, h2, List.length_cons, Nat.min_self] at li
            have ltr := joinAll_length g5
            have trpos : 0 < tr.length := by rw [ltr, e]; simp
            have hle : ∀ e ∈ tr, e.1.length = os.length ∧ e.2.length = (List.zipWith Option.getD (st :: sts) is).length := by
              intro e he
              have := g6 e he
              simp only [SameType, PyVal.tup, map_node, PyVal.node.injEq, true_and] at this
              exact ⟨by simpa using congrArg List.length this.1, by simpa using congrArg List.length this.2⟩
            have l0 : (List.zipWith Option.getD (st :: sts) is).length = ops.length + 1 := by
              rw [List.length_zipWith, h2, li.2.2]; simp
            refine ⟨?_, ?_, l0⟩
            · have := sliceAt_skel (g7.slice 0 (by simpa using trpos))
              rw [List.getElem_map] at this
              simp only [PyVal.tup, skel_node, PyVal.node.injEq, true_and] at this
              have := congrArg List.length this
              simp only [List.length_map] at this
              rw [← this, (hle _ (List.getElem_mem trpos)).1, li.1]
            · have := List.mem_of_getLast? g8
              obtain ⟨e, he, rfl⟩ := List.mem_map.1 this
              rw [(hle e he).2, l0]
          cases zs with
          | nil => simp at lens
          | cons z zs =>
            cases sfs with
            | nil => simp at lens
            | cons sf sfs =>
              cases s0s with
              | nil => simp at lens
              | cons s0 s0s =>
                obtain ⟨a, b⟩ := (joinRun_cons hl).1 h
                exact .cons ((key z sf s0).2 a) ((ih (fun op h => hop op (by simp [h])) (by simpa using h1) (by simpa using h2) tne
                  (fun v h => hv v (by simp [h])) hts (fun o h => hs o (by simp [h])) hin'.2).1 b)
        · intro h
          cases h with
          | cons h rest =>
            exact (joinRun_cons hl).2 ⟨(key _ _ _).1 h, (ih (fun op h => hop op (by simp [h])) (by simpa using h1) (by simpa using h2) tne
                  (fun v h => hv v (by simp [h])) hts (fun o h => hs o (by simp [h])) hin'.2).2 rest⟩

/-- **C12 Join streams independently.**  Over inputs of a common length, streaming `Join(f1, ..., fn)` over
`(v1, ..., vn)` succeeds exactly when streaming every `fi` over its own `vi` from its own state does, and it
returns the tuples of their outputs, final states and initial states. -/
theorem C12_join_bank {ops : List (Operator α)} (hne : ops ≠ []) (hop : ∀ op ∈ ops, op.Sane ∧ op.Uniform) {vs : List (Val α)}
    (hl : vs.length = ops.length) (hv : ∀ v ∈ vs, v.WF ∧ flatten v ≠ []) {n : Nat}
    (hn : ∀ v ∈ vs, ∀ l ∈ flatten v, l.size0 = .ok n) {st : Option (Val α)} {sts : List (Option (Val α))}
    (hst : StateList ops.length st sts) (r : Step α) :
    call (Join ops) (.tup vs) st = .ok r ↔
      ∃ zs sfs s0s, Bank ops sts vs zs sfs s0s ∧ r = (.tup zs, .tup sfs, .tup s0s) := by
  obtain ⟨w1, w2, w3, w4⟩ := hst.wf
  have hw : (PyVal.tup vs).WF := WF_tup.2 fun v h => (hv v h).1
  have hvne : vs ≠ [] := by rintro rfl; exact hne (List.length_eq_zero_iff.1 hl.symm)
  have hfl : flatten (PyVal.tup vs) ≠ [] := by
    obtain ⟨v, vs, rfl⟩ := List.exists_cons_of_ne_nil hvne
    rw [flatten_tup_cons]
    have := (hv v (by simp)).2
    simp [this]
  obtain ⟨rows, rl, hin⟩ := exists_isSeries (v := .tup vs) (n := n) (by
    intro l h
    simp only [PyVal.tup, flatten_node, List.mem_flatMap] at h
    obtain ⟨v, hv, h⟩ := h
    exact hn v hv l h)
  -- every row is a tuple
  obtain ⟨xss, rfl⟩ : ∃ xss : List (List (Val α)), rows = xss.map .tup := by
    have : ∀ r ∈ rows, ∃ xs, r = PyVal.tup xs := by
      intro r hr
      obtain ⟨i, hi⟩ := hin.mem hr
      obtain ⟨xs, -, e⟩ := sliceAt_tup.1 hi
      exact ⟨xs, e⟩
    clear rl hin
    induction rows with
    | nil => exact ⟨[], rfl⟩
    | cons r rows ih =>
      obtain ⟨xs, rfl⟩ := this r (by simp)
      obtain ⟨xss, rfl⟩ := ih fun r h => this r (by simp [h])
      exact ⟨xs :: xss, rfl⟩
  have hx : ∀ xs ∈ xss, xs.length = ops.length ∧ ∀ x ∈ xs, x.WF := by
    intro xs h
    have hm : PyVal.tup xs ∈ xss.map .tup := List.mem_map_of_mem h
    refine ⟨?_, WF_tup.1 (hin.mem_WF hw _ hm)⟩
    obtain ⟨i, hi⟩ := hin.mem hm
    have := sliceAt_skel hi
    simp only [PyVal.tup, skel_node, PyVal.node.injEq, true_and] at this
    have := congrArg List.length this
    simp only [List.length_map] at this
    omega
  have hs : (Join ops).Sane := Join_sane fun op h => (hop op h).1
  have hu : (Join ops).Uniform := Join_uniform hop
  obtain ⟨z, sf, s0⟩ := r
  rw [call_iff_streamOf hs hu hw hfl hin w1, streamOf_join (fun op h => (hop op h).1) hx hst]
  by_cases hxn : xss = []
  · subst hxn
    constructor
    · rintro ⟨zs, sfs, s0s, ⟨x, xss', e, -⟩, -⟩
      simp at e
    · rintro ⟨zs, sfs, s0s, h, -⟩
      exfalso
      simp only [List.map_nil, List.length_nil] at rl
      subst rl
      cases h with
      | nil => exact hne rfl
      | @cons op ops st' sts v vs z zs sf s0 sfs s0s h _ =>
        obtain ⟨hf, x, xs, hin⟩ := call_isSeries (hv v (by simp)).1 (w2 st' (by simp)) h
        obtain ⟨l, hl⟩ := List.exists_mem_of_ne_nil _ hf
        have a := hin.size l hl
        rw [hn v (by simp) l hl] at a
        simp at a
  · constructor
    · rintro ⟨zs, sfs, s0s, h, rfl, rfl, rfl⟩
      exact ⟨zs, sfs, s0s, (joinRun_bank hop hl w3 hxn hv (fun xs h => (hx xs h).1) w2 hin).1 h, rfl⟩
    · rintro ⟨zs, sfs, s0s, h, e⟩
      cases e
      exact ⟨zs, sfs, s0s, (joinRun_bank hop hl w3 hxn hv (fun xs h => (hx xs h).1) w2 hin).2 h, rfl, rfl, rfl⟩
example := C12_join_bank (α := XR ℚ) (ops := [Lag 1, SMA 2]) (by simp)
  (by simp only [List.mem_cons, List.not_mem_nil, or_false]; rintro op (rfl | rfl)
      · exact ⟨(Lib.basic (.lag 1)).ok.sane, (Lib.basic (.lag 1)).ok.uniform⟩
      · exact ⟨(Lib.basic (.sma 2)).ok.sane, (Lib.basic (.sma 2)).ok.uniform⟩)
  (vs := [series [3, 5], series [1, 2]]) rfl (by simp [series, vSBuf]) (n := 2) (by simp [flatten, series, vSBuf, Leaf.size0]) (st := none) (sts := [none, none]) (.inl ⟨rfl, rfl⟩)

/-- **C12 for the operators of the library.** -/
theorem C12_join_bank_library [TFNum α] {ops : List (Operator α)} (hne : ops ≠ []) {Ds Es : Nat → PyVal Unit → Prop}
    (hlib : ∀ k (hk : k < ops.length), Lib ops[k] (Ds k) (Es k)) {vs : List (Val α)}
    (hl : vs.length = ops.length) (hv : ∀ v ∈ vs, v.WF ∧ flatten v ≠ []) {n : Nat}
    (hn : ∀ v ∈ vs, ∀ l ∈ flatten v, l.size0 = .ok n) {st : Option (Val α)} {sts : List (Option (Val α))}
    (hst : StateList ops.length st sts) (r : Step α) :
    call (Join ops) (.tup vs) st = .ok r ↔
      ∃ zs sfs s0s, Bank ops sts vs zs sfs s0s ∧ r = (.tup zs, .tup sfs, .tup s0s) := by
  refine C12_join_bank hne ?_ hl hv hn hst r
  intro op h
  obtain ⟨k, hk, rfl⟩ := List.mem_iff_getElem.1 h
  exact ⟨(hlib k hk).ok.sane, (hlib k hk).ok.uniform⟩
example := C12_join_bank_library (α := XR ℚ) (ops := [Lag 1, SMA 2]) (by simp) (Ds := fun _ => (· = .leaf ())) (Es := fun _ => (· = .leaf ()))
  (by rintro (_ | _ | k) hk
      · exact .weaken (.basic (.lag 1)) (by rintro _ rfl; rfl) fun _ h => h
      · exact .weaken (.basic (.sma 2)) (by rintro _ rfl; rfl) fun _ h => h
      · simp at hk; omega)
  (vs := [series [3, 5], series [1, 2]]) rfl (by simp [series, vSBuf]) (n := 2) (by simp [flatten, series, vSBuf, Leaf.size0]) (st := none) (sts := [none, none]) (.inl ⟨rfl, rfl⟩)

/-- **C12 for Factory**: `Factory(F, (a1, ..., an))` runs `F(a1), ..., F(an)` side by side. -/
theorem C12_factory_bank {Args : Type} {clazz : Args → Operator α} {args : List Args} (hne : args ≠ [])
    (hop : ∀ a ∈ args, (clazz a).Sane ∧ (clazz a).Uniform) {vs : List (Val α)}
    (hl : vs.length = args.length) (hv : ∀ v ∈ vs, v.WF ∧ flatten v ≠ []) {n : Nat}
    (hn : ∀ v ∈ vs, ∀ l ∈ flatten v, l.size0 = .ok n) {st : Option (Val α)} {sts : List (Option (Val α))}
    (hst : StateList args.length st sts) (r : Step α) :
    call (Factory clazz args) (.tup vs) st = .ok r ↔
      ∃ zs sfs s0s, Bank (args.map clazz) sts vs zs sfs s0s ∧ r = (.tup zs, .tup sfs, .tup s0s) := by
  refine C12_join_bank (by simpa using hne) ?_ (by simpa using hl) hv hn (by simpa using hst) r
  intro op h
  obtain ⟨a, ha, rfl⟩ := List.mem_map.1 h
  exact hop a ha

/-- C12 is not vacuous: `Factory(SMA, (1, 2))` over two series. -/
example : Bank [SMA 1, SMA 2] [none, none] [series [1, 2, 5], series [10, 20, 50]] [series [1, 2, 5], series [0, 15, 35]]
    [.tup [vI 3, series [5]], .tup [vI 3, series [50, 20]]] [.tup [vI 0, series [0]], .tup [vI 0, series [0, 0]]] :=
  .cons (by decide +kernel) (.cons (by decide +kernel) .nil)

theorem joinLoop_iff {l : List (Operator α × Val α × Option (Val α))} {os ns is : List (Val α)} :
    joinLoop l = .ok (os, ns, is) ↔ ∃ rs : List (Step α), List.Forall₂ (fun p r => call p.1 p.2.1 p.2.2 false = .ok r) l rs ∧
      os = rs.map (·.1) ∧ ns = rs.map (·.2.1) ∧ is = rs.map (·.2.2) := by
  induction l generalizing os ns is with
  | nil =>
    constructor
    · intro h; cases h; exact ⟨[], .nil, rfl, rfl, rfl⟩
    · rintro ⟨rs, h, rfl, rfl, rfl⟩; cases h; rfl
  | cons p l ih =>
    obtain ⟨op, x, st⟩ := p
    rw [joinLoop_cons_ok]
    constructor
    · rintro ⟨o, n, i, os', ns', is', h1, h2, rfl, rfl, rfl⟩
      obtain ⟨rs, h3, rfl, rfl, rfl⟩ := ih.1 h2
      exact ⟨(o, n, i) :: rs, .cons h1 h3, rfl, rfl, rfl⟩
    · rintro ⟨rs, h, rfl, rfl, rfl⟩
      cases h with
      | @cons _ r _ rs h1 h2 => exact ⟨r.1, r.2.1, r.2.2, _, _, _, h1, ih.2 ⟨rs, h2, rfl, rfl, rfl⟩, rfl, rfl, rfl⟩

/-- **C13 Join arity, one step.**  With `m` operators, `k` inputs and `l` states (`m` states when none is
given) exactly `min m k l` outputs and states come out; the j-th ones are those of the j-th operator on the
j-th input from the j-th state. -/
theorem C13_join_step {ops : List (Operator α)} {xs : List (Val α)} (hx : ∀ x ∈ xs, x.WF) {st : Option (Val α)}
    {sts : List (Option (Val α))} (hst : (st = none ∧ sts = List.replicate ops.length none) ∨
      ∃ ss : List (Val α), st = some (.tup ss) ∧ sts = ss.map some ∧ ∀ s ∈ ss, s.WF) {o n i : Val α}
    (h : call (Join ops) (.tup xs) st false = .ok (o, n, i)) :
    ∃ os ns is, o = .tup os ∧ n = .tup ns ∧ i = .tup is ∧ os.length = min ops.length (min xs.length sts.length) ∧
      ns.length = os.length ∧ is.length = os.length ∧
      ∀ (j : Nat) (op : Operator α) (x : Val α) (st' : Option (Val α)) (o' n' i' : Val α), ops[j]? = some op → xs[j]? = some x → sts[j]? = some st' →
        os[j]? = some o' → ns[j]? = some n' → is[j]? = some i' → call op x st' false = .ok (o', n', i') := by
  have w1 : ∀ s ∈ st, s.WF := by
    rcases hst with ⟨rfl, -⟩ | ⟨ss, rfl, -, hw⟩
    · simp
    · rintro _ ⟨⟩; exact WF_tup.2 hw
  have w4 : opStates ops.length st = .ok sts := by
    rcases hst with ⟨rfl, rfl⟩ | ⟨ss, rfl, rfl, hw⟩
    · exact opStates_none _
    · exact opStates_tup _ _
  obtain ⟨-, -, h⟩ := (call_step_ok (WF_tup.2 hx) w1).1 h
  obtain ⟨sts', xs', os, ns, is, h1, h2, h3, e⟩ := join_ok.1 h
  rw [w4] at h1
  cases h1
  cases h2
  cases e
  obtain ⟨rs, h4, rfl, rfl, rfl⟩ := joinLoop_iff.1 h3
  refine ⟨_, _, _, rfl, rfl, rfl, ?_, by simp, by simp, ?_⟩
  · rw [List.length_map, ← h4.length_eq]; simp
  · intro j op x st' o' n' i' a1 a2 a3 a4 a5 a6
    rw [List.getElem?_map, Option.map_eq_some_iff] at a4 a5 a6
    obtain ⟨r, b1, rfl⟩ := a4
    obtain ⟨r', b2, rfl⟩ := a5
    obtain ⟨r'', b3, rfl⟩ := a6
    rw [b1] at b2 b3
    cases b2; cases b3
    obtain ⟨c1, rfl⟩ := List.getElem?_eq_some_iff.1 a1
    obtain ⟨c2, rfl⟩ := List.getElem?_eq_some_iff.1 a2
    obtain ⟨c3, rfl⟩ := List.getElem?_eq_some_iff.1 a3
    obtain ⟨c4, rfl⟩ := List.getElem?_eq_some_iff.1 b1
    have := (List.forall₂_iff_get.1 h4).2 j (by simp; omega) c4
    simpa using this
example := C13_join_step (α := XR ℚ) (ops := [Lag 1, SMA 2]) (xs := [vS (.fin 3), vS (.fin 5)]) (by simp [vS]) (st := none) (sts := [none, none]) (.inl ⟨rfl, rfl⟩)
  (o := .tup [vS (.fin 0), vS (.fin 0)]) (n := .tup [series [3], .tup [vI 1, series [5, 0]]]) (i := .tup [series [0], .tup [vI 0, series [0, 0]]]) (by decide +kernel)

/-- **C13 Join arity, whole series**: `min m k l` output series and states. -/
theorem C13_join_stream {ops : List (Operator α)} (hop : ∀ op ∈ ops, op.Sane ∧ op.Uniform) {vs : List (Val α)}
    (hv : ∀ v ∈ vs, v.WF) {st : Option (Val α)} {sts : List (Option (Val α))}
    (hst : (st = none ∧ sts = List.replicate ops.length none) ∨
      ∃ ss : List (Val α), st = some (.tup ss) ∧ sts = ss.map some ∧ ∀ s ∈ ss, s.WF) {z sf s0 : Val α}
    (h : call (Join ops) (.tup vs) st = .ok (z, sf, s0)) :
    ∃ zs sfs, z = .tup zs ∧ sf = .tup sfs ∧ zs.length = min ops.length (min vs.length sts.length) ∧
      sfs.length = zs.length := by
  have w1 : ∀ s ∈ st, s.WF := by
    rcases hst with ⟨rfl, -⟩ | ⟨ss, rfl, -, hw⟩
    · simp
    · rintro _ ⟨⟩; exact WF_tup.2 hw
  have hw : (PyVal.tup vs).WF := WF_tup.2 hv
  have hs : (Join ops).Sane := Join_sane fun op h => (hop op h).1
  have hu : (Join ops).Uniform := Join_uniform hop
  obtain ⟨hl, x, xs, hin, o, n, i, h1, rfl, h2, h3, tr, h4, h5, h6, h7⟩ := (C01_streaming_eq_stepping hs hu hw w1 _ _ _).1 h
  have hx := hin.mem_WF hw
  obtain ⟨r, -, e⟩ := sliceAt_tup.1 (hin.slice 0 (by simp))
  simp only [List.getElem_cons_zero] at e
  subst e
  have hrl : r.length = vs.length := by
    have := sliceAt_skel (hin.slice 0 (by simp))
    simp only [List.getElem_cons_zero, PyVal.tup, skel_node, PyVal.node.injEq, true_and] at this
    simpa using congrArg List.length this
  obtain ⟨os, ns, is, rfl, rfl, rfl, l1, l2, l3, -⟩ := C13_join_step (WF_tup.1 (hx _ (by simp))) hst h1
  rw [hrl] at l1
  obtain ⟨o', n', i', tr', k1, k2, rfl⟩ := stepAll_cons_ok.1 h4
  have skel_of : ∀ {a b : Val α}, SameType a b → a.skel = b.skel := fun h => by
    have := congrArg PyVal.skel h
    simpa using this
  have len_of : ∀ {a : Val α} {l : List (Val α)}, a.skel = (PyVal.tup l).skel → ∃ l', a = .tup l' ∧ l'.length = l.length := by
    intro a l h
    obtain ⟨l', e, h'⟩ := tup_of_skel h
    exact ⟨l', e, by simpa using congrArg List.length h'⟩
  obtain ⟨zs, rfl, lz⟩ : ∃ zs, z = .tup zs ∧ zs.length = os.length := by
    have := sliceAt_skel (h6.slice 0 (by simp))
    refine len_of (this.symm.trans ?_)
    exact skel_of (h5 (o', n') (by simp)).1
  obtain ⟨e, he, hse⟩ := List.mem_map.1 (List.mem_of_getLast? h7)
  -- the state after the first step has `min` components, later ones the same structure
  have hsw : (st.getD (PyVal.tup is)).WF := getD_WF' w1 (hs.call (hx _ (by simp)) w1 h1).2.2
  obtain ⟨ss, es, hsl⟩ : ∃ ss : List (Val α), st.getD (PyVal.tup is) = .tup ss ∧ (ss.length = sts.length ∨ ss.length = os.length) := by
    rcases hst with ⟨rfl, rfl⟩ | ⟨ss, rfl, rfl, hw⟩
    · exact ⟨is, rfl, .inr l3⟩
    · exact ⟨ss, rfl, .inl (by simp)⟩
  rw [es] at k1 h5 hsw
  obtain ⟨os1, ns1, is1, rfl, rfl, rfl, m1, m2, m3, -⟩ := C13_join_step (WF_tup.1 (hx _ (by simp)))
    (.inr ⟨ss, rfl, rfl, WF_tup.1 hsw⟩) k1
  rw [List.length_map, hrl] at m1
  have t1 : ns1.length = ss.length := by
    have := (h5 _ (by simp : (PyVal.tup os1, PyVal.tup ns1) ∈ (PyVal.tup os1, PyVal.tup ns1) :: tr')).2
    obtain ⟨l', e, h⟩ := len_of (skel_of this)
    cases e
    exact h
  have hss : ss.length = os.length := by
    rcases hsl with h | h
    · omega
    · exact h
  obtain ⟨sfs, e2, l4⟩ := len_of (skel_of (h5 e he).2)
  rw [hse] at e2
  exact ⟨zs, sfs, rfl, e2, by omega, by omega⟩
example := C13_join_stream (α := XR ℚ) (ops := [SMA 1, SMA 2])
  (by simp only [List.mem_cons, List.not_mem_nil, or_false]; rintro op (rfl | rfl)
      · exact ⟨(Lib.basic (.sma 1)).ok.sane, (Lib.basic (.sma 1)).ok.uniform⟩
      · exact ⟨(Lib.basic (.sma 2)).ok.sane, (Lib.basic (.sma 2)).ok.uniform⟩)
  (vs := [series [1, 2, 5], series [10, 20, 50]]) (by simp [series, vSBuf]) (st := none) (sts := [none, none]) (.inl ⟨rfl, rfl⟩) (z := .tup [series [1, 2, 5], series [0, 15, 35]])
  (sf := .tup [.tup [vI 3, series [5]], .tup [vI 3, series [50, 20]]]) (s0 := .tup [.tup [vI 0, series [0]], .tup [vI 0, series [0, 0]]]) (by decide +kernel)

/-- **C13, one output per operator** when there are as many inputs (and states) as operators. -/
theorem C13_join_one_per_operator {ops : List (Operator α)} (hop : ∀ op ∈ ops, op.Sane ∧ op.Uniform) {vs : List (Val α)}
    (hl : vs.length = ops.length) (hv : ∀ v ∈ vs, v.WF) {st : Option (Val α)} {sts : List (Option (Val α))}
    (hst : StateList ops.length st sts) {z sf s0 : Val α} (h : call (Join ops) (.tup vs) st = .ok (z, sf, s0)) :
    ∃ zs sfs, z = .tup zs ∧ sf = .tup sfs ∧ zs.length = ops.length ∧ sfs.length = ops.length := by
  have hsl := hst.wf.2.2.1
  obtain ⟨zs, sfs, rfl, rfl, h1, h2⟩ := C13_join_stream hop hv (sts := sts) (by
    rcases hst with h | ⟨ss, h1, h2, -, h3⟩
    · exact .inl h
    · exact .inr ⟨ss, h1, h2, h3⟩) h
  exact ⟨zs, sfs, rfl, rfl, by omega, by omega⟩
example := C13_join_one_per_operator (α := XR ℚ) (ops := [SMA 1, SMA 2])
  (by simp only [List.mem_cons, List.not_mem_nil, or_false]; rintro op (rfl | rfl)
      · exact ⟨(Lib.basic (.sma 1)).ok.sane, (Lib.basic (.sma 1)).ok.uniform⟩
      · exact ⟨(Lib.basic (.sma 2)).ok.sane, (Lib.basic (.sma 2)).ok.uniform⟩)
  (vs := [series [1, 2, 5], series [10, 20, 50]]) rfl (by simp [series, vSBuf]) (st := none) (sts := [none, none]) (.inl ⟨rfl, rfl⟩) (z := .tup [series [1, 2, 5], series [0, 15, 35]])
  (sf := .tup [.tup [vI 3, series [5]], .tup [vI 3, series [50, 20]]]) (s0 := .tup [.tup [vI 0, series [0]], .tup [vI 0, series [0, 0]]]) (by decide +kernel)

/-- **C13, Factory arity.** -/
theorem C13_factory_step {Args : Type} {clazz : Args → Operator α} {args : List Args} {xs : List (Val α)}
    (hx : ∀ x ∈ xs, x.WF) {o n i : Val α} (h : call (Factory clazz args) (.tup xs) none false = .ok (o, n, i)) :
    ∃ os, o = .tup os ∧ os.length = min args.length xs.length := by
  obtain ⟨os, ns, is, rfl, -, -, h1, -⟩ := C13_join_step hx (.inl ⟨rfl, rfl⟩) h
  exact ⟨os, rfl, by simpa [Nat.min_left_comm, Nat.min_comm] using h1⟩
example := C13_factory_step (α := XR ℚ) (Args := ℤ) (clazz := fun p => SMA p) (args := [1, 2]) (xs := [vS (.fin 3), vS (.fin 5)]) (by simp [vS])
  (o := .tup [vS (.fin 3), vS (.fin 0)]) (n := .tup [.tup [vI 1, series [3]], .tup [vI 1, series [5, 0]]]) (i := .tup [.tup [vI 0, series [0]], .tup [vI 0, series [0, 0]]]) (by decide +kernel)

/-- **C13, the silent truncation**: the first sentence one would expect, "one output per operator", is
false.  `Join(Identity, Lag(1))` over one series silently drops `Lag(1)`; over three series it drops the
third one. -/
theorem C13_join_truncates :
    call (Join [Identity, Lag 1]) (.tup [series [1, 2]]) = .ok (.tup [series [1, 2]], .tup [.unit], .tup [.unit]) ∧
    call (Join [Identity, Lag 1]) (.tup [series [1, 2], series [3, 4], series [5, 6]]) =
      .ok (.tup [series [1, 2], series [0, 3]], .tup [.unit, series [4]], .tup [.unit, series [0]]) :=
  ⟨by decide +kernel, by decide +kernel⟩
example := C13_join_truncates

end TS
