import Verif.Lemmas.OpsRegular2
/-
Regularity of SetDuring, Automaton, Compose, Join and FFill.
-/
namespace TS
open PyVal
variable {α : Type}
set_option linter.unusedSimpArgs false
set_option linter.unusedSectionVars false

/-! ### SetDuring -/

theorem getD_WF' {o : Option (Val α)} {i : Val α} (h : ∀ s ∈ o, s.WF) (hi : i.WF) : (o.getD i).WF := by
  cases o with
  | none => exact hi
  | some s => exact h s rfl

theorem getItem_ok {k : Nat} {v w : Val α} : getItem k v = .ok w ↔ ∃ xs, asSeq v = .ok xs ∧ xs[k]? = some w := by
  simp only [getItem, bind_eq_ok]
  constructor
  · rintro ⟨xs, h1, h2⟩
    refine ⟨xs, h1, ?_⟩
    split at h2 <;> cases h2
    assumption
  · rintro ⟨xs, h1, h2⟩
    exact ⟨xs, h1, by rw [h2]⟩

theorem asSeq_ok {v : Val α} {xs : List (Val α)} (h : asSeq v = .ok xs) :
    v = .node .tuple xs ∨ v = .node .list xs := by
  cases v with
  | leaf l => cases h
  | node k ys => cases k <;> simp [asSeq] at h <;> simp [h]

theorem asSeq_WF {v : Val α} {xs : List (Val α)} (h : asSeq v = .ok xs) (hv : v.WF) : ∀ x ∈ xs, x.WF := by
  rcases asSeq_ok h with rfl | rfl <;> exact ((WF_node _ _).1 hv).2

theorem asSeq_skel {v w : Val α} {xs : List (Val α)} (h : asSeq v = .ok xs) (hs : v.skel = w.skel) :
    ∃ ys, asSeq w = .ok ys ∧ xs.map skel = ys.map skel := by
  cases w with
  | leaf l => rcases asSeq_ok h with rfl | rfl <;> simp at hs
  | node k ys =>
    rcases asSeq_ok h with rfl | rfl <;>
    · simp only [skel_node, PyVal.node.injEq] at hs
      obtain ⟨rfl, hs⟩ := hs
      exact ⟨ys, rfl, hs⟩

theorem tup_of_skel {v : Val α} {xs : List (Val α)} (h : v.skel = (PyVal.tup xs).skel) :
    ∃ ys, v = .tup ys ∧ ys.map skel = xs.map skel := by
  cases v with
  | leaf l => simp at h
  | node k ys =>
    simp only [skel_node, PyVal.node.injEq] at h
    obtain ⟨rfl, h⟩ := h
    exact ⟨ys, rfl, h⟩

theorem setDuring_ok {v : Leaf α} {p : Int} {x : Val α} {st : Option (Val α)} {o n i : Val α} (hx : x.WF)
    (h : (SetDuring v p).forwardStep x st = .ok (o, n, i)) :
    ∃ it, getItem 0 (st.getD (.tup [vI 0])) = .ok (vI it) ∧
      x.traverse (setLeaf v (decide (it < p))) = .ok o ∧ n = .tup [vI (it + 1)] ∧ i = .tup [vI it] := by
  simp only [SetDuring, metaStreamable, setDuringStep, bind_eq_ok] at h
  obtain ⟨w, h1, it, h2, o', h3, h4⟩ := h
  cases h4
  rw [decI_ok] at h2
  subst h2
  rw [mapFn_fn1_self _ _ hx] at h3
  exact ⟨it, h1, h3, rfl, rfl⟩

theorem SetDuring_sane (v : Leaf α) (p : Int) : (SetDuring v p).Sane := by
  intro x st o n i hx _ h
  obtain ⟨it, -, h2, rfl, rfl⟩ := setDuring_ok hx h
  refine ⟨?_, by simp [WF_tup], by simp [WF_tup]⟩
  exact (WF_of_skel_eq ((traverse_eq_ok_iff _ _ _).1 h2).1).2 hx

theorem SetDuring_uniform (v : Leaf α) (p : Int) : (SetDuring v p).Uniform := by
  intro x x' st st' o s i o' s' i' hx _ h1 h2 hsk _
  obtain ⟨it, -, h1, -, -⟩ := setDuring_ok hx h1
  obtain ⟨it', -, h2, -, -⟩ := setDuring_ok ((WF_of_skel_eq hsk).1 hx) h2
  rw [((traverse_eq_ok_iff _ _ _).1 h1).1, ((traverse_eq_ok_iff _ _ _).1 h2).1, hsk]

theorem SetDuring_contract (v : Leaf α) (p : Int) (D : Val α → Prop) : (SetDuring v p).Contract D where
  fresh := by
    intro x o n i hx _ h
    have := setDuring_ok hx h
    obtain ⟨it, h1, -, -, rfl⟩ := this
    have : it = 0 := by
      have h2 : getItem 0 ((none : Option (Val α)).getD (.tup [vI 0])) = .ok (vI 0) := rfl
      rw [h1] at h2
      have h3 := congrArg decI (Except.ok.inj h2)
      simpa using h3
    subst this
    exact h
  tensors := by
    intro x o n i hx _ h
    obtain ⟨it, -, -, -, rfl⟩ := setDuring_ok hx h
    simp [tensors_tup]
  echo := by
    intro x x' s o n i o' n' i' hx _ hx' _ h' hsk h
    obtain ⟨_, -, -, -, rfl⟩ := setDuring_ok hx' h'
    obtain ⟨it, h1, -, -, rfl⟩ := setDuring_ok hx h
    obtain ⟨ys, rfl, hl⟩ := tup_of_skel hsk
    have hl := congrArg List.length hl
    simp only [List.length_map, List.length_cons, List.length_nil, Nat.zero_add] at hl
    obtain ⟨y, rfl⟩ := List.length_eq_one_iff.1 hl
    obtain ⟨xs, h2, h3⟩ := getItem_ok.1 h1
    cases h2
    simp at h3
    rw [h3]

/-! ### Automaton -/

theorem Automaton_ok {ts : List (Transition α)} {q : Int} {d : List (Val α) → Res (Val α)} {x : Val α}
    {st : Option (Val α)} {o n i : Val α} (h : (Automaton ts q d).forwardStep x st = .ok (o, n, i)) :
    ∃ args prev n' dv ty, asSeq x = .ok args ∧ (∀ s ∈ st, s = vI prev) ∧ (st = none → prev = q) ∧ n = vI n' ∧
      i = vI prev ∧ d args = .ok dv ∧ toType dv = .ok ty ∧ toType o = .ok ty ∧
      (o = dv ∨ ∃ t ∈ ts, t.action args = .ok o) := by
  have key : ∀ (prev : Int) (args : List (Val α)), (do
      let cases ← ts.mapM fun t => do
        let g ← t.guard args
        let out ← t.action args
        pure (decide (prev = t.source) && g, (out, t.target))
      let defValue ← d args
      let ty ← toType defValue
      let tys ← cases.mapM fun c => toType c.2.1
      if cases.isEmpty then .error .valueError
      else if tys.any (· ≠ ty) then .error .structure
      else
        let (action, next) := tfCase cases (defValue, prev)
        .ok (action, vI next, vI prev) : Res (Step α)) = .ok (o, n, i) →
      ∃ n' dv ty, n = vI n' ∧ i = vI prev ∧ d args = .ok dv ∧ toType dv = .ok ty ∧ toType o = .ok ty ∧
      (o = dv ∨ ∃ t ∈ ts, t.action args = .ok o) := by
    intro prev args h
    simp only [bind_eq_ok] at h
    obtain ⟨cs, hcs, dv, hdv, ty, hty, tys, htys, h⟩ := h
    by_cases hemp : cs.isEmpty = true
    · rw [if_pos hemp] at h; cases h
    rw [if_neg hemp] at h
    by_cases hany : tys.any (· ≠ ty) = true
    · rw [if_pos hany] at h; cases h
    · rw [if_neg hany] at h
      have hall : ∀ c ∈ cs, toType c.2.1 = .ok ty ∧ ∃ t ∈ ts, t.action args = .ok c.2.1 := by
        intro c hc
        obtain ⟨k, hk, rfl⟩ := List.mem_iff_getElem.1 hc
        obtain ⟨e1, e2⟩ := mapM_eq_ok_iff_get.1 htys
        obtain ⟨e3, e4⟩ := mapM_eq_ok_iff_get.1 hcs
        refine ⟨?_, ?_⟩
        · have := e2 k hk
          rw [this]
          simp only [List.any_eq_true, not_exists, not_and] at hany
          have := hany (tys[k]'(by omega)) (List.getElem_mem _)
          simp at this
          rw [this]
        · have := e4 k (by omega)
          simp only [bind_eq_ok] at this
          obtain ⟨g, -, out, h1, h2⟩ := this
          refine ⟨_, List.getElem_mem (l := ts) (n := k) (by omega), ?_⟩
          rw [h1]
          rw [← (Except.ok.inj h2)]
      have hc : ∀ (cs : List (Bool × Val α × Int)), (∀ c ∈ cs, toType c.2.1 = .ok ty ∧ ∃ t ∈ ts, t.action args = .ok c.2.1) →
          toType (tfCase cs (dv, prev)).1 = .ok ty ∧ ((tfCase cs (dv, prev)).1 = dv ∨ ∃ t ∈ ts, t.action args = .ok (tfCase cs (dv, prev)).1) := by
        intro cs hcs
        induction cs with
        | nil => exact ⟨hty, .inl rfl⟩
        | cons c cs ih =>
          obtain ⟨p, a⟩ := c
          cases p
          · exact ih fun c hc => hcs c (by simp [hc])
          · exact ⟨(hcs (true, a) (by simp)).1, .inr (hcs (true, a) (by simp)).2⟩
      have := hc cs hall
      simp only [Except.ok.injEq, Prod.mk.injEq] at h
      obtain ⟨rfl, rfl, rfl⟩ := h
      exact ⟨_, dv, ty, rfl, rfl, hdv, hty, this.1, this.2⟩
  cases st with
  | none =>
    simp only [Automaton, metaStreamable, automatonStep, pure_eq_ok, ok_bind] at h
    rw [bind_eq_ok] at h
    obtain ⟨args, ha, h⟩ := h
    obtain ⟨n', dv, ty, h⟩ := key q args h
    exact ⟨args, q, n', dv, ty, ha, by simp, by simp, h⟩
  | some s =>
    simp only [Automaton, metaStreamable, automatonStep] at h
    rw [bind_eq_ok] at h
    obtain ⟨prev, hp, h⟩ := h
    rw [bind_eq_ok] at h
    obtain ⟨args, ha, h⟩ := h
    obtain ⟨n', dv, ty, h⟩ := key prev args h
    refine ⟨args, prev, n', dv, ty, ha, ?_, by simp, h⟩
    rintro _ ⟨⟩
    exact decI_ok.1 hp

/-- What the functions given to an automaton have to satisfy: they return Python values, and the
structure of the default action depends on the structure of the arguments only. -/
structure AutomatonOK (ts : List (Transition α)) (d : List (Val α) → Res (Val α)) : Prop where
  action : ∀ t ∈ ts, ∀ args o, (∀ x ∈ args, x.WF) → t.action args = .ok o → o.WF
  default : ∀ args o, (∀ x ∈ args, x.WF) → d args = .ok o → o.WF
  skel : ∀ args args' o o', args.map skel = args'.map skel → d args = .ok o → d args' = .ok o' → o.skel = o'.skel

theorem Automaton_sane {ts : List (Transition α)} {q : Int} {d : List (Val α) → Res (Val α)} (h : AutomatonOK ts d) :
    (Automaton ts q d).Sane := by
  intro x st o n i hx _ hh
  obtain ⟨args, prev, n', dv, ty, ha, -, -, rfl, rfl, hd, -, -, ho⟩ := Automaton_ok hh
  refine ⟨?_, by simp, by simp⟩
  rcases ho with rfl | ⟨t, ht, ho⟩
  · exact h.default _ _ (asSeq_WF ha hx) hd
  · exact h.action t ht _ _ (asSeq_WF ha hx) ho

theorem Automaton_uniform {ts : List (Transition α)} {q : Int} {d : List (Val α) → Res (Val α)} (h : AutomatonOK ts d) :
    (Automaton ts q d).Uniform := by
  have key : ∀ {x st o n i}, x.WF → (∀ s ∈ st, s.WF) → (Automaton ts q d).forwardStep x st = .ok (o, n, i) →
      ∃ args dv, asSeq x = .ok args ∧ d args = .ok dv ∧ o.skel = dv.skel := by
    intro x st o n i hx hst hh
    have ho := (Automaton_sane h x st o n i hx hst hh).1
    obtain ⟨args, prev, n', dv, ty, ha, -, -, rfl, rfl, hd, h1, h2, -⟩ := Automaton_ok hh
    refine ⟨args, dv, ha, hd, ?_⟩
    have hdw := h.default _ _ (asSeq_WF ha hx) hd
    rw [((toType_ok ho).1 h2).1, ((toType_ok hdw).1 h1).1]
  intro x x' st st' o s i o' s' i' hx hst h1 h2 hsk hsk'
  have hw1 := Automaton_sane h _ _ _ _ _ hx hst h1
  obtain ⟨args, dv, ha, hd, e⟩ := key hx hst h1
  obtain ⟨args', dv', ha', hd', e'⟩ := key ((WF_of_skel_eq hsk).1 hx) (by
    rintro _ ⟨⟩
    refine (WF_of_skel_eq hsk').1 ?_
    cases st with
    | none => exact hw1.2.2
    | some s => exact hst s rfl) h2
  obtain ⟨ys, hy, e2⟩ := asSeq_skel ha hsk
  rw [hy] at ha'
  cases ha'
  rw [e, e', h.skel _ _ _ _ e2 hd hd']

theorem Automaton_contract (ts : List (Transition α)) (q : Int) (d : List (Val α) → Res (Val α)) (D : Val α → Prop) :
    (Automaton ts q d).Contract D where
  fresh := by
    intro x o n i _ _ h
    obtain ⟨_, prev, _, _, _, _, _, e, rfl, rfl, _⟩ := Automaton_ok h
    have e := e rfl
    subst e
    simpa only [Automaton, metaStreamable, automatonStep, decI_vI, pure_eq_ok] using h
  tensors := by
    intro x o n i _ _ h
    obtain ⟨_, prev, _, _, _, _, _, e, rfl, rfl, _⟩ := Automaton_ok h
    simp
  echo := by
    intro x x' s o n i o' n' i' _ _ _ _ _ _ h
    obtain ⟨_, prev, _, _, _, _, e, _, rfl, rfl, _⟩ := Automaton_ok h
    exact (e s rfl).symm

/-! ### Compose -/

theorem composeLoop_cons_ok {op : Operator α} {st : Option (Val α)} {rest : List (Operator α × Option (Val α))}
    {x o : Val α} {ns is : List (Val α)} : composeLoop ((op, st) :: rest) x = .ok (o, ns, is) ↔
    ∃ o1 n i ns' is', call op x st false = .ok (o1, n, i) ∧ composeLoop rest o1 = .ok (o, ns', is') ∧
      ns = n :: ns' ∧ is = i :: is' := by
  simp only [composeLoop, bind_eq_ok]
  constructor
  · rintro ⟨⟨o1, n, i⟩, h1, ⟨o', ns', is'⟩, h2, h3⟩
    cases h3
    exact ⟨o1, n, i, ns', is', h1, h2, rfl, rfl⟩
  · rintro ⟨o1, n, i, ns', is', h1, h2, rfl, rfl⟩
    exact ⟨(o1, n, i), h1, (o, ns', is'), h2, rfl⟩

theorem composeLoop_length {l : List (Operator α × Option (Val α))} {x o : Val α} {ns is : List (Val α)}
    (h : composeLoop l x = .ok (o, ns, is)) : ns.length = l.length ∧ is.length = l.length := by
  induction l generalizing x ns is with
  | nil => cases h; simp
  | cons p l ih =>
    obtain ⟨op, st⟩ := p
    obtain ⟨o1, n, i, ns', is', h1, h2, rfl, rfl⟩ := composeLoop_cons_ok.1 h
    have := ih h2
    simp [this]

theorem compose_ok {ops : List (Operator α)} {x : Val α} {st : Option (Val α)} {r : Step α} :
    (Compose ops.reverse).forwardStep x st = .ok r ↔ ∃ sts o ns is, opStates ops.length st = .ok sts ∧ ops.zip sts ≠ [] ∧
      composeLoop (ops.zip sts) x = .ok (o, ns, is) ∧ r = (o, .tup ns, .tup is) := by
  simp only [Compose, metaStreamable, List.reverse_reverse, composeStep, bind_eq_ok]
  constructor
  · rintro ⟨sts, h1, h⟩
    split at h
    · cases h
    · rename_i hne
      simp only [bind_eq_ok] at h
      obtain ⟨⟨o, ns, is⟩, h2, h3⟩ := h
      cases h3
      exact ⟨sts, o, ns, is, h1, by simpa using hne, h2, rfl⟩
  · rintro ⟨sts, o, ns, is, h1, hne, h2, rfl⟩
    refine ⟨sts, h1, ?_⟩
    rw [if_neg (by simpa using hne), h2]
    rfl

theorem opStates_none (n : Nat) : opStates n (none : Option (Val α)) = .ok (List.replicate n none) := rfl
theorem opStates_some {n : Nat} {s : Val α} {sts : List (Option (Val α))} :
    opStates n (some s) = .ok sts ↔ ∃ ss, asSeq s = .ok ss ∧ sts = ss.map some := by
  simp only [opStates, bind_eq_ok, Except.ok.injEq]
  exact exists_congr fun ss => and_congr Iff.rfl eq_comm
theorem opStates_tup (n : Nat) (ss : List (Val α)) : opStates n (some (.tup ss)) = .ok (ss.map some) := rfl

theorem opStates_WF {n : Nat} {st : Option (Val α)} {sts : List (Option (Val α))} (h : opStates n st = .ok sts)
    (hs : ∀ s ∈ st, s.WF) : ∀ o ∈ sts, ∀ s ∈ o, s.WF := by
  cases st with
  | none =>
    cases h
    intro o ho s hs
    rw [(List.mem_replicate.1 ho).2] at hs
    cases hs
  | some s =>
    obtain ⟨ss, h1, rfl⟩ := opStates_some.1 h
    intro o ho s' hs'
    obtain ⟨a, ha, rfl⟩ := List.mem_map.1 ho
    cases hs'
    exact asSeq_WF h1 (hs s rfl) _ ha

theorem composeLoop_sane {l : List (Operator α × Option (Val α))} (hop : ∀ p ∈ l, p.1.Sane)
    (hst : ∀ p ∈ l, ∀ s ∈ p.2, s.WF) {x o : Val α} {ns is : List (Val α)} (hx : x.WF)
    (h : composeLoop l x = .ok (o, ns, is)) : o.WF ∧ (∀ n ∈ ns, n.WF) ∧ ∀ i ∈ is, i.WF := by
  induction l generalizing x ns is with
  | nil => cases h; simp [hx]
  | cons p l ih =>
    obtain ⟨op, st⟩ := p
    obtain ⟨o1, n, i, ns', is', h1, h2, rfl, rfl⟩ := composeLoop_cons_ok.1 h
    have hw := (hop (op, st) (by simp)).call hx (hst (op, st) (by simp)) h1
    have := ih (fun p hp => hop p (by simp [hp])) (fun p hp => hst p (by simp [hp])) hw.1 h2
    simpa [hw] using this

theorem Compose_sane {ops : List (Operator α)} (h : ∀ op ∈ ops, op.Sane) : (Compose ops).Sane := by
  rw [← List.reverse_reverse ops]
  intro x st o n i hx hs hh
  obtain ⟨sts, o', ns, is, h1, h2, h3, h4⟩ := compose_ok.1 hh
  cases h4
  have := composeLoop_sane (fun p hp => h p.1 (by simpa using (List.of_mem_zip hp).1))
    (fun p hp => opStates_WF h1 hs p.2 (List.of_mem_zip hp).2) hx h3
  exact ⟨this.1, WF_tup.2 this.2.1, WF_tup.2 this.2.2⟩

theorem composeLoop_uniform {ops : List (Operator α)} (hop : ∀ op ∈ ops, op.Sane ∧ op.Uniform) :
    ∀ {sts : List (Option (Val α))} {ss' : List (Val α)} {x x' o o' : Val α} {ns is ns' is' : List (Val α)},
    x.WF → (∀ o ∈ sts, ∀ s ∈ o, s.WF) →
    composeLoop (ops.zip sts) x = .ok (o, ns, is) → composeLoop (ops.zip (ss'.map some)) x' = .ok (o', ns', is') →
    x.skel = x'.skel → sts.length = ss'.length →
    (∀ (k : Nat) (st : Option (Val α)) (i s' : Val α), sts[k]? = some st → is[k]? = some i → ss'[k]? = some s' → (st.getD i).skel = s'.skel) →
    o'.skel = o.skel := by
  induction ops with
  | nil =>
    intro sts ss' x x' o o' ns is ns' is' _ _ h h' hsk _ _
    cases h; cases h'; exact hsk.symm
  | cons op ops ih =>
    intro sts ss' x x' o o' ns is ns' is' hx hst h h' hsk hl hss
    cases sts with
    | nil =>
      simp only [List.length_nil] at hl
      rw [List.length_eq_zero_iff.1 hl.symm] at h'
      cases h; cases h'; exact hsk.symm
    | cons st sts =>
      cases ss' with
      | nil => simp at hl
      | cons s' ss' =>
        simp only [List.zip_cons_cons, List.map_cons] at h h'
        obtain ⟨o1, n, i, ns1, is1, h1, h2, rfl, rfl⟩ := composeLoop_cons_ok.1 h
        obtain ⟨o1', n', i', ns1', is1', h1', h2', rfl, rfl⟩ := composeLoop_cons_ok.1 h'
        have hsw : ∀ s ∈ st, s.WF := hst st (by simp)
        have hw := (hop op (by simp)).1.call hx hsw h1
        have e0 := hss 0 st i s' rfl rfl rfl
        have hg := getD_WF' hsw hw.2.2
        have hs'w : s'.WF := (WF_of_skel_eq e0).1 hg
        have e1 := (hop op (by simp)).2 _ _ _ _ _ _ _ _ _ _ hx hsw ((call_step_ok hx hsw).1 h1).2.2
          ((call_step_ok ((WF_of_skel_eq hsk).1 hx) (by rintro _ ⟨⟩; exact hs'w)).1 h1').2.2 hsk e0
        refine ih (fun op hop' => hop op (by simp [hop'])) hw.1 (fun o ho => hst o (by simp [ho])) h2 h2' e1.symm
          (by simpa using hl) ?_
        intro k st i s' a b c
        exact hss (k + 1) st i s' (by simpa using a) (by simpa using b) (by simpa using c)

theorem Compose_uniform {ops : List (Operator α)} (h : ∀ op ∈ ops, op.Sane ∧ op.Uniform) : (Compose ops).Uniform := by
  rw [← List.reverse_reverse ops]
  have h : ∀ op ∈ ops.reverse, op.Sane ∧ op.Uniform := fun op hop => h op (by simpa using hop)
  revert h
  generalize ops.reverse = ops
  intro h x x' st st' o s i o' s' i' hx hst h1 h2 hsk hsk'
  obtain ⟨sts, o1, ns, is, a1, a2, a3, a4⟩ := compose_ok.1 h1
  obtain ⟨sts', o1', ns', is', b1, b2, b3, b4⟩ := compose_ok.1 h2
  cases a4; cases b4
  obtain ⟨ss', hs', rfl⟩ := opStates_some.1 b1
  cases st with
  | none =>
    cases a1
    obtain ⟨ys, rfl, e⟩ := tup_of_skel hsk'.symm
    cases hs'
    have hl := (composeLoop_length a3).2
    simp only [List.length_zip, List.length_replicate, Nat.min_self] at hl
    have hl' : is.length = ss'.length := by simpa using (congrArg List.length e).symm
    refine composeLoop_uniform h hx (opStates_WF rfl hst) a3 b3 hsk (by simp [← hl', hl]) ?_
    intro k st i s' ha hb hc
    rw [List.getElem?_replicate] at ha
    split at ha <;> cases ha
    have e := congrArg (fun l => l[k]?) e
    simp only [List.getElem?_map, hb, hc, Option.map_some, Option.some.injEq] at e
    exact e.symm
  | some s =>
    obtain ⟨ss, hs, rfl⟩ := opStates_some.1 a1
    obtain ⟨ys, hy, e⟩ := asSeq_skel hs hsk'
    rw [hs'] at hy
    cases hy
    refine composeLoop_uniform h hx (opStates_WF a1 hst) a3 b3 hsk (by simpa using congrArg List.length e) ?_
    intro k st i s' ha hb hc
    rw [List.getElem?_map] at ha
    cases hk : ss[k]? with
    | none => rw [hk] at ha; cases ha
    | some t =>
      rw [hk] at ha; cases ha
      have e := congrArg (fun l => l[k]?) e
      simpa [List.getElem?_map, hk, hc] using e

/-- Outputs are in `E` for inputs in `D`, without a state or with a state structured like an initial state. -/
structure Operator.Post (op : Operator α) (D E : Val α → Prop) : Prop where
  fresh : ∀ x o n i, x.WF → D x → op.forwardStep x none = .ok (o, n, i) → E o
  next : ∀ x x' s o n i o' n' i', x.WF → D x → x'.WF → D x' → op.forwardStep x' none = .ok (o', n', i') →
    s.skel = i'.skel → op.forwardStep x (some s) = .ok (o, n, i) → E o

/-- Operators in execution order: the contract holds for the first on `D`, and its outputs are in the
domain of the rest. -/
inductive ChainContract : (Val α → Prop) → List (Operator α) → Prop where
  | nil (D) : ChainContract D []
  | cons {D D' : Val α → Prop} {op : Operator α} {ops : List (Operator α)} (sane : op.Sane) (contract : op.Contract D)
    (post : op.Post D D')
    (rest : ChainContract D' ops) : ChainContract D (op :: ops)

theorem ChainContract.fresh {D : Val α → Prop} {ops : List (Operator α)} (h : ChainContract D ops) :
    ∀ {x o : Val α} {ns is : List (Val α)}, x.WF → D x →
    composeLoop (ops.zip (List.replicate ops.length none)) x = .ok (o, ns, is) →
    composeLoop (ops.zip (is.map some)) x = .ok (o, ns, is) ∧ (∀ i ∈ is, Tensors i) := by
  induction h with
  | nil D => intro x o ns is hx hD hh; cases hh; exact ⟨rfl, by simp⟩
  | cons sane contract post rest ih =>
    intro x o ns is hx hD hh
    simp only [List.length_cons, List.replicate_succ, List.zip_cons_cons] at hh
    obtain ⟨o1, n, i, ns', is', h1, h2, rfl, rfl⟩ := composeLoop_cons_ok.1 hh
    have hw := sane.call hx (by simp) h1
    have := ih hw.1 (post.fresh _ _ _ _ hx hD ((call_step_ok hx (by simp)).1 h1).2.2) h2
    refine ⟨?_, ?_⟩
    · simp only [List.map_cons, List.zip_cons_cons]
      exact composeLoop_cons_ok.2 ⟨o1, n, i, ns', is', contract.call_fresh sane hx hD h1, this.1, rfl, rfl⟩
    · intro j hj
      rcases List.mem_cons.1 hj with rfl | hj
      · exact contract.call_tensors hx hD h1
      · exact this.2 j hj

theorem ChainContract.echo {D : Val α → Prop} {ops : List (Operator α)} (h : ChainContract D ops) :
    ∀ {x x' o o' : Val α} {ns is ns' is' ss : List (Val α)}, x.WF → D x → x'.WF → D x' →
    composeLoop (ops.zip (List.replicate ops.length none)) x' = .ok (o', ns', is') →
    ss.map skel = is'.map skel →
    composeLoop (ops.zip (ss.map some)) x = .ok (o, ns, is) → is = ss := by
  induction h with
  | nil D =>
    intro x x' o o' ns is ns' is' ss hx hD hx' hD' hh' hsk hh
    cases hh'; cases hh
    simpa using hsk.symm
  | cons sane contract post rest ih =>
    intro x x' o o' ns is ns' is' ss hx hD hx' hD' hh' hsk hh
    simp only [List.length_cons, List.replicate_succ, List.zip_cons_cons] at hh'
    obtain ⟨o1', n', i', ns1', is1', h1', h2', rfl, rfl⟩ := composeLoop_cons_ok.1 hh'
    cases ss with
    | nil => simp at hsk
    | cons s ss =>
      simp only [List.map_cons, List.cons.injEq, List.zip_cons_cons] at hsk hh
      obtain ⟨o1, n, i, ns1, is1, h1, h2, rfl, rfl⟩ := composeLoop_cons_ok.1 hh
      have hw' := sane.call hx' (by simp) h1'
      have hsw : s.WF := (WF_of_skel_eq hsk.1).2 hw'.2.2
      have hsw : ∀ t ∈ some s, t.WF := by rintro _ ⟨⟩; exact hsw
      have hw := sane.call hx hsw h1
      rw [contract.call_echo sane hx hD hx' hD' h1' hsk.1 h1,
        ih hw.1 (post.next _ _ _ _ _ _ _ _ _ hx hD hx' hD' ((call_step_ok hx' (by simp)).1 h1').2.2 hsk.1
          ((call_step_ok hx hsw).1 h1).2.2)
          hw'.1 (post.fresh _ _ _ _ hx' hD' ((call_step_ok hx' (by simp)).1 h1').2.2) h2' hsk.2 h2]

theorem Compose_contract {D : Val α → Prop} {ops : List (Operator α)} (h : ChainContract D ops.reverse) :
    (Compose ops).Contract D := by
  rw [← List.reverse_reverse ops]
  revert h
  generalize ops.reverse = ops
  intro h
  refine ⟨?_, ?_, ?_⟩
  · intro x o n i hx hD hh
    obtain ⟨sts, o1, ns, is, a1, a2, a3, a4⟩ := compose_ok.1 hh
    cases a1; cases a4
    refine compose_ok.2 ⟨is.map some, o, ns, is, rfl, ?_, (h.fresh hx hD a3).1, rfl⟩
    intro e
    have hl := (composeLoop_length a3).2
    simp only [List.length_zip, List.length_replicate, Nat.min_self] at hl
    have := congrArg List.length e
    simp [hl] at this
    simp [this] at a2
  · intro x o n i hx hD hh
    obtain ⟨sts, o1, ns, is, a1, a2, a3, a4⟩ := compose_ok.1 hh
    cases a1; cases a4
    exact tensors_tup.2 (h.fresh hx hD a3).2
  · intro x x' s o n i o' n' i' hx hD hx' hD' hh' hsk hh
    obtain ⟨sts', o1', ns', is', b1, b2, b3, b4⟩ := compose_ok.1 hh'
    cases b1; cases b4
    obtain ⟨ss, rfl, e⟩ := tup_of_skel hsk
    obtain ⟨sts, o1, ns, is, a1, a2, a3, a4⟩ := compose_ok.1 hh
    cases a1; cases a4
    rw [h.echo hx hD hx' hD' b3 e a3]

/-! ### Join -/

theorem joinLoop_cons_ok {op : Operator α} {x : Val α} {st : Option (Val α)}
    {rest : List (Operator α × Val α × Option (Val α))} {os ns is : List (Val α)} :
    joinLoop ((op, x, st) :: rest) = .ok (os, ns, is) ↔
    ∃ o n i os' ns' is', call op x st false = .ok (o, n, i) ∧ joinLoop rest = .ok (os', ns', is') ∧
      os = o :: os' ∧ ns = n :: ns' ∧ is = i :: is' := by
  simp only [joinLoop, bind_eq_ok]
  constructor
  · rintro ⟨⟨o1, n, i⟩, h1, ⟨o', ns', is'⟩, h2, h3⟩
    cases h3
    exact ⟨o1, n, i, o', ns', is', h1, h2, rfl, rfl, rfl⟩
  · rintro ⟨o1, n, i, os', ns', is', h1, h2, rfl, rfl, rfl⟩
    exact ⟨(o1, n, i), h1, (os', ns', is'), h2, rfl⟩

theorem joinLoop_length {l : List (Operator α × Val α × Option (Val α))} {os ns is : List (Val α)}
    (h : joinLoop l = .ok (os, ns, is)) : os.length = l.length ∧ ns.length = l.length ∧ is.length = l.length := by
  induction l generalizing os ns is with
  | nil => cases h; simp
  | cons p l ih =>
    obtain ⟨op, x, st⟩ := p
    obtain ⟨o, n, i, os', ns', is', h1, h2, rfl, rfl, rfl⟩ := joinLoop_cons_ok.1 h
    have := ih h2
    simp [this]

theorem join_ok {ops : List (Operator α)} {x : Val α} {st : Option (Val α)} {r : Step α} :
    (Join ops).forwardStep x st = .ok r ↔ ∃ sts xs os ns is, opStates ops.length st = .ok sts ∧ asSeq x = .ok xs ∧
      joinLoop (ops.zip (xs.zip sts)) = .ok (os, ns, is) ∧ r = (.tup os, .tup ns, .tup is) := by
  simp only [Join, metaStreamable, joinStep, bind_eq_ok]
  constructor
  · rintro ⟨sts, h1, xs, h2, ⟨os, ns, is⟩, h3, h4⟩
    cases h4
    exact ⟨sts, xs, os, ns, is, h1, h2, h3, rfl⟩
  · rintro ⟨sts, xs, os, ns, is, h1, h2, h3, rfl⟩
    exact ⟨sts, h1, xs, h2, (os, ns, is), h3, rfl⟩

theorem joinLoop_sane {l : List (Operator α × Val α × Option (Val α))} (hop : ∀ p ∈ l, p.1.Sane)
    (hx : ∀ p ∈ l, p.2.1.WF) (hst : ∀ p ∈ l, ∀ s ∈ p.2.2, s.WF) {os ns is : List (Val α)}
    (h : joinLoop l = .ok (os, ns, is)) : (∀ o ∈ os, o.WF) ∧ (∀ n ∈ ns, n.WF) ∧ ∀ i ∈ is, i.WF := by
  induction l generalizing os ns is with
  | nil => cases h; simp
  | cons p l ih =>
    obtain ⟨op, x, st⟩ := p
    obtain ⟨o, n, i, os', ns', is', h1, h2, rfl, rfl, rfl⟩ := joinLoop_cons_ok.1 h
    have hw := (hop (op, x, st) (by simp)).call (hx (op, x, st) (by simp)) (hst (op, x, st) (by simp)) h1
    have := ih (fun p hp => hop p (by simp [hp])) (fun p hp => hx p (by simp [hp])) (fun p hp => hst p (by simp [hp])) h2
    simpa [hw] using this

theorem Join_sane {ops : List (Operator α)} (h : ∀ op ∈ ops, op.Sane) : (Join ops).Sane := by
  intro x st o n i hx hs hh
  obtain ⟨sts, xs, os, ns, is, h1, h2, h3, h4⟩ := join_ok.1 hh
  cases h4
  have := joinLoop_sane (fun p hp => h p.1 (List.of_mem_zip hp).1)
    (fun p hp => asSeq_WF h2 hx p.2.1 (List.of_mem_zip (List.of_mem_zip hp).2).1)
    (fun p hp => opStates_WF h1 hs p.2.2 (List.of_mem_zip (List.of_mem_zip hp).2).2) h3
  exact ⟨WF_tup.2 this.1, WF_tup.2 this.2.1, WF_tup.2 this.2.2⟩

theorem joinLoop_uniform {ops : List (Operator α)} (hop : ∀ op ∈ ops, op.Sane ∧ op.Uniform) :
    ∀ {sts : List (Option (Val α))} {ss' xs xs' os os' ns is ns' is' : List (Val α)},
    (∀ x ∈ xs, x.WF) → (∀ o ∈ sts, ∀ s ∈ o, s.WF) →
    joinLoop (ops.zip (xs.zip sts)) = .ok (os, ns, is) → joinLoop (ops.zip (xs'.zip (ss'.map some))) = .ok (os', ns', is') →
    xs.map skel = xs'.map skel →
    (∀ (k : Nat) (st : Option (Val α)) (i s' : Val α), sts[k]? = some st → is[k]? = some i → ss'[k]? = some s' → (st.getD i).skel = s'.skel) →
    os'.length = os.length →
    os'.map skel = os.map skel := by
  induction ops with
  | nil =>
    intro sts ss' xs xs' os os' ns is ns' is' _ _ h h' _ _ _
    cases h; cases h'; rfl
  | cons op ops ih =>
    intro sts ss' xs xs' os os' ns is ns' is' hx hst h h' hsk hss hl
    cases xs with
    | nil =>
      cases xs' with
      | nil => cases h; cases h'; rfl
      | cons x' xs' => simp at hsk
    | cons x xs =>
      cases xs' with
      | nil => simp at hsk
      | cons x' xs' =>
        simp only [List.map_cons, List.cons.injEq] at hsk
        cases sts with
        | nil => cases h; rw [List.length_eq_zero_iff.1 hl]
        | cons st sts =>
          cases ss' with
          | nil => cases h'; rw [List.length_eq_zero_iff.1 hl.symm]
          | cons s' ss' =>
            simp only [List.zip_cons_cons, List.map_cons] at h h'
            obtain ⟨o1, n, i, os1, ns1, is1, h1, h2, rfl, rfl, rfl⟩ := joinLoop_cons_ok.1 h
            obtain ⟨o1', n', i', os1', ns1', is1', h1', h2', rfl, rfl, rfl⟩ := joinLoop_cons_ok.1 h'
            have hxw := hx x (by simp)
            have hsw : ∀ s ∈ st, s.WF := hst st (by simp)
            have hw := (hop op (by simp)).1.call hxw hsw h1
            have e0 := hss 0 st i s' rfl rfl rfl
            have hs'w : s'.WF := (WF_of_skel_eq e0).1 (getD_WF' hsw hw.2.2)
            have e1 := (hop op (by simp)).2 _ _ _ _ _ _ _ _ _ _ hxw hsw ((call_step_ok hxw hsw).1 h1).2.2
              ((call_step_ok ((WF_of_skel_eq hsk.1).1 hxw) (by rintro _ ⟨⟩; exact hs'w)).1 h1').2.2 hsk.1 e0
            simp only [List.map_cons, e1, List.cons.injEq, true_and]
            refine ih (fun op hop' => hop op (by simp [hop'])) (fun x hx' => hx x (by simp [hx']))
              (fun o ho => hst o (by simp [ho])) h2 h2' hsk.2 ?_ (by simpa using hl)
            intro k st i s' a b c
            exact hss (k + 1) st i s' (by simpa using a) (by simpa using b) (by simpa using c)

theorem Join_uniform {ops : List (Operator α)} (h : ∀ op ∈ ops, op.Sane ∧ op.Uniform) : (Join ops).Uniform := by
  intro x x' st st' o s i o' s' i' hx hst h1 h2 hsk hsk'
  obtain ⟨sts, xs, os, ns, is, a1, a2, a3, a4⟩ := join_ok.1 h1
  obtain ⟨sts', xs', os', ns', is', b1, b2, b3, b4⟩ := join_ok.1 h2
  cases a4; cases b4
  obtain ⟨ss', hs', rfl⟩ := opStates_some.1 b1
  obtain ⟨ys, hy, ex⟩ := asSeq_skel a2 hsk
  rw [b2] at hy
  cases hy
  have hlx := congrArg List.length ex
  simp only [List.length_map] at hlx
  have l1 := joinLoop_length a3
  have l2 := joinLoop_length b3
  simp only [List.length_zip, List.length_map] at l1 l2
  simp only [skel_node, PyVal.node.injEq, true_and]
  cases st with
  | none =>
    cases a1
    obtain ⟨ss, rfl, e⟩ := tup_of_skel hsk'.symm
    cases hs'
    have hl' : is.length = ss'.length := by simpa using (congrArg List.length e).symm
    simp only [List.length_replicate] at l1
    refine joinLoop_uniform h (asSeq_WF a2 hx) (opStates_WF rfl hst) a3 b3 ex ?_ (by omega)
    intro k st i s' ha hb hc
    rw [List.getElem?_replicate] at ha
    split at ha <;> cases ha
    have e := congrArg (fun l => l[k]?) e
    simp only [List.getElem?_map, hb, hc, Option.map_some, Option.some.injEq] at e
    exact e.symm
  | some s =>
    obtain ⟨ss, hs, rfl⟩ := opStates_some.1 a1
    obtain ⟨ys, hy, e⟩ := asSeq_skel hs hsk'
    rw [hs'] at hy
    cases hy
    have hle := congrArg List.length e
    simp only [List.length_map] at hle l1
    refine joinLoop_uniform h (asSeq_WF a2 hx) (opStates_WF a1 hst) a3 b3 ex ?_ (by omega)
    intro k st i s' ha hb hc
    rw [List.getElem?_map] at ha
    cases hk : ss[k]? with
    | none => rw [hk] at ha; cases ha
    | some t =>
      rw [hk] at ha; cases ha
      have e := congrArg (fun l => l[k]?) e
      simpa [List.getElem?_map, hk, hc] using e

/-- Inputs of a Join: a tuple or list whose members are in the domains `Ds`. -/
def JoinDom (Ds : List (Val α → Prop)) (x : Val α) : Prop :=
  ∃ xs, asSeq x = .ok xs ∧ List.Forall₂ (fun D x => D x) Ds xs

theorem joinLoop_fresh {ops : List (Operator α)} {Ds : List (Val α → Prop)}
    (h : List.Forall₂ (fun (op : Operator α) D => op.Sane ∧ op.Contract D) ops Ds) :
    ∀ {xs os ns is : List (Val α)}, List.Forall₂ (fun D x => D x) Ds xs → (∀ x ∈ xs, x.WF) →
    joinLoop (ops.zip (xs.zip (List.replicate ops.length none))) = .ok (os, ns, is) →
    joinLoop (ops.zip (xs.zip (is.map some))) = .ok (os, ns, is) ∧ (∀ i ∈ is, Tensors i) := by
  induction h with
  | nil => intro xs os ns is hD hx hh; cases hh; exact ⟨rfl, by simp⟩
  | cons h _ ih =>
    intro xs os ns is hD hx hh
    cases hD with
    | cons hd hD =>
      simp only [List.length_cons, List.replicate_succ, List.zip_cons_cons] at hh
      obtain ⟨o, n, i, os', ns', is', h1, h2, rfl, rfl, rfl⟩ := joinLoop_cons_ok.1 hh
      have := ih hD (fun x hx' => hx x (by simp [hx'])) h2
      refine ⟨?_, ?_⟩
      · simp only [List.map_cons, List.zip_cons_cons]
        exact joinLoop_cons_ok.2 ⟨o, n, i, os', ns', is', h.2.call_fresh h.1 (hx _ (by simp)) hd h1, this.1, rfl, rfl, rfl⟩
      · intro j hj
        rcases List.mem_cons.1 hj with rfl | hj
        · exact h.2.call_tensors (hx _ (by simp)) hd h1
        · exact this.2 j hj

theorem joinLoop_echo {ops : List (Operator α)} {Ds : List (Val α → Prop)}
    (h : List.Forall₂ (fun (op : Operator α) D => op.Sane ∧ op.Contract D) ops Ds) :
    ∀ {xs xs' os ns is os' ns' is' ss : List (Val α)}, List.Forall₂ (fun D x => D x) Ds xs → (∀ x ∈ xs, x.WF) →
    List.Forall₂ (fun D x => D x) Ds xs' → (∀ x ∈ xs', x.WF) →
    joinLoop (ops.zip (xs'.zip (List.replicate ops.length none))) = .ok (os', ns', is') →
    ss.map skel = is'.map skel →
    joinLoop (ops.zip (xs.zip (ss.map some))) = .ok (os, ns, is) → is = ss := by
  induction h with
  | nil =>
    intro xs xs' os ns is os' ns' is' ss hD hx hD' hx' hh' hsk hh
    cases hh'; cases hh
    simpa using hsk.symm
  | cons h _ ih =>
    intro xs xs' os ns is os' ns' is' ss hD hx hD' hx' hh' hsk hh
    cases hD with
    | cons hd hD =>
      cases hD' with
      | cons hd' hD' =>
        simp only [List.length_cons, List.replicate_succ, List.zip_cons_cons] at hh'
        obtain ⟨o', n', i', os1', ns1', is1', h1', h2', rfl, rfl, rfl⟩ := joinLoop_cons_ok.1 hh'
        cases ss with
        | nil => simp at hsk
        | cons s ss =>
          simp only [List.map_cons, List.cons.injEq, List.zip_cons_cons] at hsk hh
          obtain ⟨o, n, i, os1, ns1, is1, h1, h2, rfl, rfl, rfl⟩ := joinLoop_cons_ok.1 hh
          rw [h.2.call_echo h.1 (hx _ (by simp)) hd (hx' _ (by simp)) hd' h1' hsk.1 h1,
            ih hD (fun x hx' => hx x (by simp [hx'])) hD' (fun x hx'' => hx' x (by simp [hx''])) h2' hsk.2 h2]

theorem Join_contract {ops : List (Operator α)} {Ds : List (Val α → Prop)}
    (h : List.Forall₂ (fun (op : Operator α) D => op.Sane ∧ op.Contract D) ops Ds) :
    (Join ops).Contract (JoinDom Ds) := by
  refine ⟨?_, ?_, ?_⟩
  · intro x o n i hx hD hh
    obtain ⟨sts, xs, os, ns, is, a1, a2, a3, a4⟩ := join_ok.1 hh
    obtain ⟨ys, hy, hD⟩ := hD
    rw [a2] at hy; cases hy
    cases a1; cases a4
    exact join_ok.2 ⟨is.map some, xs, os, ns, is, rfl, a2, (joinLoop_fresh h hD (asSeq_WF a2 hx) a3).1, rfl⟩
  · intro x o n i hx hD hh
    obtain ⟨sts, xs, os, ns, is, a1, a2, a3, a4⟩ := join_ok.1 hh
    obtain ⟨ys, hy, hD⟩ := hD
    rw [a2] at hy; cases hy
    cases a1; cases a4
    exact tensors_tup.2 (joinLoop_fresh h hD (asSeq_WF a2 hx) a3).2
  · intro x x' s o n i o' n' i' hx hD hx' hD' hh' hsk hh
    obtain ⟨sts', xs', os', ns', is', b1, b2, b3, b4⟩ := join_ok.1 hh'
    obtain ⟨ys', hy', hD'⟩ := hD'
    rw [b2] at hy'; cases hy'
    cases b1; cases b4
    obtain ⟨ss, rfl, e⟩ := tup_of_skel hsk
    obtain ⟨sts, xs, os, ns, is, a1, a2, a3, a4⟩ := join_ok.1 hh
    obtain ⟨ys, hy, hD⟩ := hD
    rw [a2] at hy; cases hy
    cases a1; cases a4
    rw [joinLoop_echo h hD (asSeq_WF a2 hx) hD' (asSeq_WF b2 hx') b3 e a3]

/-! ### FFill -/

theorem tfCond_ok {p : Bool} {t f r : Val α} : tfCond p t f = .ok r ↔
    isEmptySeq t = false ∧ (∃ ty, toType (unpackSingleton t) = .ok ty ∧ toType (unpackSingleton f) = .ok ty) ∧
    r = unpackSingleton (if p then unpackSingleton t else unpackSingleton f) := by
  simp only [tfCond, bind_eq_ok]
  constructor
  · rintro ⟨ty, h1, ty', h2, h⟩
    by_cases hne : ty ≠ ty'
    · rw [if_pos hne] at h; cases h
    · rw [if_neg hne] at h
      simp only [ne_eq, not_not] at hne
      subst hne
      cases he : isEmptySeq t
      · rw [he] at h
        cases h
        exact ⟨rfl, ⟨ty, h1, h2⟩, rfl⟩
      · rw [he] at h; cases h
  · rintro ⟨he, ⟨ty, h1, h2⟩, rfl⟩
    exact ⟨ty, h1, ty, h2, by rw [if_neg (by simp), he]; rfl⟩

theorem isEmptySeq_iff {v : Val α} : isEmptySeq v = false ↔ v ≠ .node .tuple [] ∧ v ≠ .node .list [] := by
  unfold isEmptySeq
  split <;> simp_all

theorem unpackSingleton_WF {v : Val α} (h : v.WF) : (unpackSingleton v).WF := by
  unfold unpackSingleton
  split
  · exact ((WF_node _ _).1 h).2 _ (by simp)
  · exact ((WF_node _ _).1 h).2 _ (by simp)
  · exact h

/-- `unpackSingleton` on structures. -/
def unpackSkel : PyVal Unit → PyVal Unit
  | .node .tuple [x] => x
  | .node .list [x] => x
  | v => v

theorem unpackSingleton_skel (v : Val α) : (unpackSingleton v).skel = unpackSkel v.skel := by
  cases v with
  | leaf l => rfl
  | node k xs =>
    match k, xs with
    | .tuple, [] => rfl
    | .tuple, [x] => simp [unpackSingleton, unpackSkel]
    | .tuple, x :: y :: xs => simp [unpackSingleton, unpackSkel]
    | .list, [] => rfl
    | .list, [x] => simp [unpackSingleton, unpackSkel]
    | .list, x :: y :: xs => simp [unpackSingleton, unpackSkel]
    | .dict keys, xs => simp [unpackSingleton, unpackSkel]

theorem tfCond_WF {p : Bool} {t f r : Val α} (h : tfCond p t f = .ok r) (ht : t.WF) (hf : f.WF) : r.WF := by
  obtain ⟨_, _, rfl⟩ := tfCond_ok.1 h
  refine unpackSingleton_WF ?_
  cases p
  · exact unpackSingleton_WF hf
  · exact unpackSingleton_WF ht

theorem tfCond_skel {p : Bool} {t f r : Val α} (h : tfCond p t f = .ok r) (ht : t.WF) (hf : f.WF) :
    r.skel = unpackSkel (unpackSkel f.skel) := by
  obtain ⟨_, ⟨ty, h1, h2⟩, rfl⟩ := tfCond_ok.1 h
  rw [unpackSingleton_skel]
  congr 1
  have e1 := ((toType_ok (unpackSingleton_WF ht)).1 h1).1
  have e2 := ((toType_ok (unpackSingleton_WF hf)).1 h2).1
  cases p
  · exact unpackSingleton_skel f
  · simp only [if_true]
    rw [e1, ← e2, unpackSingleton_skel]

section
variable [TFNum α]

/-- The state FFill passes on: meta/ffill.py:47-54. -/
def ffillState (p : Bool) (init prev next : Val α) : Res (Val α) :=
  match init with
  | .node .tuple [] => .ok PyVal.unit
  | _ => tfCond p prev next

theorem ffill_ok {op : Operator α} {x : Val α} {st : Option (Val α)} {r : Step α} :
    (FFill op).forwardStep x st = .ok r ↔ ∃ z po ps o n i po' sel sst,
      anyValue x Arith.zero = .ok z ∧
      ((st = none ∧ po = none ∧ ps = none) ∨ ∃ s a b, st = some s ∧ getItem 0 s = .ok a ∧ getItem 1 s = .ok b ∧ po = some a ∧ ps = some b) ∧
      call op x ps false = .ok (o, n, i) ∧
      ((po = none ∧ mapFn (fn1 zerosLike) o [o] = .ok po') ∨ po = some po') ∧
      tfCond z po' o = .ok sel ∧ ffillState z i (ps.getD i) n = .ok sst ∧
      r = (sel, .tup [sel, sst], .tup [po', i]) := by
  have rest : ∀ (z : Bool) (po ps : Option (Val α)), (do
      let (outputs, next, init) ← call op x ps false
      let prevState := ps.getD init
      let prevOutput ← match po with
        | none => mapFn (fn1 zerosLike) outputs [outputs]
        | some o => pure o
      let selected ← tfCond z prevOutput outputs
      let selectedState ← match init with
        | .node .tuple [] => pure PyVal.unit
        | _ => tfCond z prevState next
      .ok (selected, .tup [selected, selectedState], .tup [prevOutput, init]) : Res (Step α)) = .ok r ↔
      ∃ o n i po' sel sst, call op x ps false = .ok (o, n, i) ∧
      ((po = none ∧ mapFn (fn1 zerosLike) o [o] = .ok po') ∨ po = some po') ∧
      tfCond z po' o = .ok sel ∧ ffillState z i (ps.getD i) n = .ok sst ∧
      r = (sel, .tup [sel, sst], .tup [po', i]) := by
    intro z po ps
    have tail : ∀ (o n i po' : Val α), (do
      let selected ← tfCond z po' o
      let selectedState ← match i with
        | .node .tuple [] => pure PyVal.unit
        | _ => tfCond z (ps.getD i) n
      .ok (selected, .tup [selected, selectedState], .tup [po', i]) : Res (Step α)) = .ok r ↔
      ∃ sel sst, tfCond z po' o = .ok sel ∧ ffillState z i (ps.getD i) n = .ok sst ∧
      r = (sel, .tup [sel, sst], .tup [po', i]) := by
      intro o n i po'
      rw [bind_eq_ok]
      constructor
      · rintro ⟨sel, h1, h2⟩
        unfold ffillState
        split at h2
        · cases h2; exact ⟨sel, _, h1, rfl, rfl⟩
        · rw [bind_eq_ok] at h2
          obtain ⟨sst, h3, h4⟩ := h2
          cases h4
          exact ⟨sel, sst, h1, h3, rfl⟩
      · rintro ⟨sel, sst, h1, h2, rfl⟩
        refine ⟨sel, h1, ?_⟩
        unfold ffillState at h2
        split at h2
        · cases h2; rfl
        · rw [h2]; rfl
    rw [bind_eq_ok]
    cases po with
    | none =>
      constructor
      · rintro ⟨⟨o, n, i⟩, h1, h2⟩
        simp only at h2
        rw [bind_eq_ok] at h2
        obtain ⟨po', h3, h4⟩ := h2
        obtain ⟨sel, sst, h5⟩ := (tail o n i po').1 h4
        exact ⟨o, n, i, po', sel, sst, h1, .inl ⟨rfl, h3⟩, h5⟩
      · rintro ⟨o, n, i, po', sel, sst, h1, h2, h3⟩
        refine ⟨(o, n, i), h1, ?_⟩
        rcases h2 with ⟨-, h2⟩ | h2
        · simp only
          rw [h2]
          exact (tail o n i po').2 ⟨sel, sst, h3⟩
        · cases h2
    | some po =>
      constructor
      · rintro ⟨⟨o, n, i⟩, h1, h2⟩
        obtain ⟨sel, sst, h5⟩ := (tail o n i po).1 h2
        exact ⟨o, n, i, po, sel, sst, h1, .inr rfl, h5⟩
      · rintro ⟨o, n, i, po', sel, sst, h1, h2, h3⟩
        refine ⟨(o, n, i), h1, ?_⟩
        rcases h2 with ⟨h2, -⟩ | h2
        · cases h2
        · cases h2
          exact (tail o n i po).2 ⟨sel, sst, h3⟩
  simp only [FFill, metaStreamable, ffillStep]
  rw [bind_eq_ok]
  constructor
  · rintro ⟨z, hz, h⟩
    cases st with
    | none =>
      obtain ⟨o, n, i, po', sel, sst, h⟩ := (rest z none none).1 h
      exact ⟨z, none, none, o, n, i, po', sel, sst, hz, .inl ⟨rfl, rfl, rfl⟩, h⟩
    | some s =>
      dsimp only at h
      rw [bind_eq_ok] at h
      obtain ⟨a', h1, h⟩ := h
      rw [bind_eq_ok] at h
      obtain ⟨b', h2, h⟩ := h
      have h := (rest z (some a') (some b')).1 h
      obtain ⟨o, n, i, po', sel, sst, h⟩ := h
      exact ⟨z, _, _, o, n, i, po', sel, sst, hz, .inr ⟨s, a', b', rfl, h1, h2, rfl, rfl⟩, h⟩
  · rintro ⟨z, po, ps, o, n, i, po', sel, sst, hz, h0, h⟩
    refine ⟨z, hz, ?_⟩
    have h := (rest z po ps).2 ⟨o, n, i, po', sel, sst, h⟩
    rcases h0 with ⟨rfl, rfl, rfl⟩ | ⟨s, a, b, rfl, h1, h2, rfl, rfl⟩
    · exact h
    · simp only [h1, h2, ok_bind, pure_eq_ok]
      exact h

end
end TS
