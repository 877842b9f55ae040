import Verif.Lemmas.PyVal
/-
`map_fn` on values of equal structure is `traverse` / `zipM`.
-/
namespace TS
open PyVal

variable {A B B' C D : Type}

theorem lookupKey_getElem (keys : List String) (xs : List (PyVal B)) (hn : keys.Nodup)
    (i : Nat) (hi : i < keys.length) (hi' : i < xs.length) :
    lookupKey keys[i] keys xs = .ok xs[i] := by
  induction keys generalizing xs i with
  | nil => simp at hi
  | cons k ks ih =>
    cases xs with
    | nil => simp at hi'
    | cons x xs =>
      cases i with
      | zero => simp [lookupKey]
      | succ i =>
        have hmem : ks[i]'(by simpa using hi) ∈ ks := List.getElem_mem _
        have hne : ks[i]'(by simpa using hi) ≠ k := fun e => (List.nodup_cons.1 hn).1 (e ▸ hmem)
        simp only [List.getElem_cons_succ, lookupKey, hne, if_false]
        exact ih xs (List.nodup_cons.1 hn).2 i (by simpa using hi) (by simpa using hi')

@[simp] theorem mapFn_leaf (f : List (PyVal B) → Res C) (t : A) (objs : List (PyVal B)) :
    mapFn f (.leaf t) objs = (do .ok (.leaf (← f objs))) := by simp [mapFn]

theorem mapFn_seq (f : List (PyVal B) → Res C) (k : Kind) (hk : ∀ keys, k ≠ .dict keys)
    (xs : List (PyVal A)) (objs : List (PyVal B)) :
    mapFn f (.node k xs) objs = (do
      let rows ← objs.mapM asSeq
      .ok (.node k (← mapFnSeq f xs rows))) := by
  cases k with
  | tuple => simp [mapFn]
  | list => simp [mapFn]
  | dict keys => exact absurd rfl (hk keys)

theorem asSeq_node (k : Kind) (hk : ∀ keys, k ≠ .dict keys) (xs : List (PyVal B)) :
    asSeq (.node k xs) = .ok xs := by
  cases k with
  | tuple => rfl
  | list => rfl
  | dict keys => exact absurd rfl (hk keys)

/-! ### one argument -/

theorem mapFn_map_self (f : List (PyVal B) → Res C) (g : A → B) (v : PyVal A) (hv : v.WF) :
    mapFn f v [v.map g] = traverse (fun a => f [.leaf (g a)]) v := by
  induction v using PyVal.ind with
  | leaf t => simp
  | node k xs ih =>
    rw [WF_node] at hv
    by_cases hk : ∃ keys, k = .dict keys
    · obtain ⟨keys, rfl⟩ := hk
      obtain ⟨⟨hl, hn⟩, hx⟩ := And.imp_left (fun h => h keys rfl) hv
      have key : ∀ (ks : List String) (ys : List (PyVal A)) (o : PyVal B), ks.length = ys.length →
          (∀ i (h1 : i < ks.length) (h2 : i < ys.length), getKey ks[i] o = .ok (ys[i].map g)) →
          (∀ y ∈ ys, mapFn f y [y.map g] = traverse (fun a => f [.leaf (g a)]) y) →
          mapFnDict f ks ys [o] = ys.mapM (traverse fun a => f [.leaf (g a)]) := by
        intro ks
        induction ks with
        | nil => intro ys o h1 _ _; cases ys <;> simp [mapFnDict] at h1 ⊢
        | cons k' ks ihk =>
          intro ys o h1 h2 h3
          cases ys with
          | nil => simp at h1
          | cons y ys =>
            have e1 := h2 0 (by simp) (by simp)
            have e2 := ihk ys o (by simpa using h1)
              (fun i ha hb => h2 (i+1) (Nat.succ_lt_succ ha) (Nat.succ_lt_succ hb))
              (fun z hz => h3 z (by simp [hz]))
            simp only [List.getElem_cons_zero] at e1
            simp [mapFnDict, e1, e2, h3 y (by simp)]
      simp only [mapFn, traverse_node]
      rw [key keys xs _ hl _ (fun y hy => ih y hy (hx y hy))]
      intro i h1 h2
      simp only [map_node, getKey]
      rw [lookupKey_getElem keys _ hn i h1 (by simpa using h2)]
      simp
    · push Not at hk
      have key : ∀ (ys : List (PyVal A)),
          (∀ y ∈ ys, mapFn f y [y.map g] = traverse (fun a => f [.leaf (g a)]) y) →
          mapFnSeq f ys [ys.map (map g)] = ys.mapM (traverse fun a => f [.leaf (g a)]) := by
        intro ys
        induction ys with
        | nil => intro _; simp [mapFnSeq]
        | cons y ys ihy =>
          intro h3
          have e2 := ihy (fun z hz => h3 z (by simp [hz]))
          simp [mapFnSeq, zipRow, h3 y (by simp), e2]
      rw [mapFn_seq f k hk, traverse_node]
      simp only [map_node, List.mapM_cons, asSeq_node k hk, List.mapM_nil, pure_eq_ok, ok_bind]
      rw [key xs (fun y hy => ih y hy (hv.2 y hy))]

theorem mapFn_self (f : List (PyVal A) → Res C) (v : PyVal A) (hv : v.WF) :
    mapFn f v [v] = traverse (fun a => f [.leaf a]) v := by
  have := mapFn_map_self f id v hv
  rwa [PyVal.map_id] at this

theorem mapFn_fn1_self (f : A → Res C) (v : PyVal A) (hv : v.WF) :
    mapFn (fn1 f) v [v] = traverse f v := by
  rw [mapFn_self _ v hv]; rfl

/-! ### two arguments -/

@[simp] theorem zipM_leaf (f : A → B → Res C) (a : A) (b : B) :
    zipM f (.leaf a) (.leaf b) = (do .ok (.leaf (← f a b))) := by simp [zipM]

@[simp] theorem zipM_node (f : A → B → Res C) (k k' : Kind) (xs : List (PyVal A)) (ys : List (PyVal B)) :
    zipM f (.node k xs) (.node k' ys) = (do .ok (.node k (← zipMs f xs ys))) := by simp [zipM]

@[simp] theorem zipMs_cons (f : A → B → Res C) (x : PyVal A) (y : PyVal B) (xs : List (PyVal A))
    (ys : List (PyVal B)) : zipMs f (x :: xs) (y :: ys) = (do
      let z ← zipM f x y
      let zs ← zipMs f xs ys
      .ok (z :: zs)) := by simp [zipMs]

@[simp] theorem zipMs_nil (f : A → B → Res C) (ys : List (PyVal B)) : zipMs f [] ys = .ok [] := by
  cases ys <;> simp [zipMs]

theorem mapFn_map_zip (f : List (PyVal D) → Res C) (g : A → D) (h : B → D) (v : PyVal A) (hv : v.WF) :
    ∀ w : PyVal B, v.skel = w.skel →
    mapFn f v [v.map g, w.map h] = zipM (fun a b => f [.leaf (g a), .leaf (h b)]) v w := by
  induction v using PyVal.ind with
  | leaf t => intro w hs; cases w <;> simp at hs ⊢
  | node k xs ih =>
    intro w hs
    cases w with
    | leaf t => simp at hs
    | node k' zs =>
    simp only [skel_node, PyVal.node.injEq] at hs
    obtain ⟨rfl, hs⟩ := hs
    have hlen : xs.length = zs.length := by simpa using congrArg List.length hs
    have hsk : ∀ i (h1 : i < xs.length) (h2 : i < zs.length), xs[i].skel = zs[i].skel := by
      intro i h1 h2
      have : (xs.map skel)[i]'(by simpa using h1) = (zs.map skel)[i]'(by simpa using h2) := by
        simp only [hs]
      simpa using this
    rw [WF_node] at hv
    by_cases hk : ∃ keys, k = .dict keys
    · obtain ⟨keys, rfl⟩ := hk
      obtain ⟨⟨hl, hn⟩, hx⟩ := And.imp_left (fun h => h keys rfl) hv
      have key : ∀ (ks : List String) (ys : List (PyVal A)) (zs : List (PyVal B)) (o o' : PyVal D),
          ks.length = ys.length → ys.length = zs.length →
          (∀ i (h1 : i < ys.length) (h2 : i < zs.length), ys[i].skel = zs[i].skel) →
          (∀ i (h1 : i < ks.length) (h2 : i < ys.length), getKey ks[i] o = .ok (ys[i].map g)) →
          (∀ i (h1 : i < ks.length) (h2 : i < zs.length), getKey ks[i] o' = .ok (zs[i].map h)) →
          (∀ y ∈ ys, ∀ w : PyVal B, y.skel = w.skel →
            mapFn f y [y.map g, w.map h] = zipM (fun a b => f [.leaf (g a), .leaf (h b)]) y w) →
          mapFnDict f ks ys [o, o'] = zipMs (fun a b => f [.leaf (g a), .leaf (h b)]) ys zs := by
        intro ks
        induction ks with
        | nil => intro ys zs o o' h1 _ _ _ _ _; cases ys <;> simp [mapFnDict] at h1 ⊢
        | cons k' ks ihk =>
          intro ys zs o o' h1 h1' hsk h2 h2' h3
          cases ys with
          | nil => simp at h1
          | cons y ys =>
            cases zs with
            | nil => simp at h1'
            | cons z zs =>
            have e1 := h2 0 (by simp) (by simp)
            have e1' := h2' 0 (by simp) (by simp)
            have e2 := ihk ys zs o o' (by simpa using h1) (by simpa using h1')
              (fun i ha hb => hsk (i+1) (Nat.succ_lt_succ ha) (Nat.succ_lt_succ hb))
              (fun i ha hb => h2 (i+1) (Nat.succ_lt_succ ha) (Nat.succ_lt_succ hb))
              (fun i ha hb => h2' (i+1) (Nat.succ_lt_succ ha) (Nat.succ_lt_succ hb))
              (fun z hz => h3 z (by simp [hz]))
            have e0 := hsk 0 (by simp) (by simp)
            simp only [List.getElem_cons_zero] at e1 e1' e0
            simp [mapFnDict, e1, e1', e2, h3 y (by simp) z e0]
      simp only [mapFn, zipM_node]
      rw [key keys xs zs _ _ hl hlen hsk _ _ (fun y hy => ih y hy (hx y hy))]
      · intro i h1 h2
        simp only [map_node, getKey]
        rw [lookupKey_getElem keys _ hn i h1 (by simpa using h2)]
        simp
      · intro i h1 h2
        simp only [map_node, getKey]
        rw [lookupKey_getElem keys _ hn i h1 (by simpa using h2)]
        simp
    · push Not at hk
      have key : ∀ (ys : List (PyVal A)) (zs : List (PyVal B)), ys.length = zs.length →
          (∀ i (h1 : i < ys.length) (h2 : i < zs.length), ys[i].skel = zs[i].skel) →
          (∀ y ∈ ys, ∀ w : PyVal B, y.skel = w.skel →
            mapFn f y [y.map g, w.map h] = zipM (fun a b => f [.leaf (g a), .leaf (h b)]) y w) →
          mapFnSeq f ys [ys.map (map g), zs.map (map h)] =
            zipMs (fun a b => f [.leaf (g a), .leaf (h b)]) ys zs := by
        intro ys
        induction ys with
        | nil => intro zs _ _ _; simp [mapFnSeq]
        | cons y ys ihy =>
          intro zs h1' hsk h3
          cases zs with
          | nil => simp at h1'
          | cons z zs =>
          have e2 := ihy zs (by simpa using h1')
            (fun i ha hb => hsk (i+1) (Nat.succ_lt_succ ha) (Nat.succ_lt_succ hb))
            (fun z hz => h3 z (by simp [hz]))
          have e0 := hsk 0 (by simp) (by simp)
          simp only [List.getElem_cons_zero] at e0
          simp [mapFnSeq, zipRow, h3 y (by simp) z e0, e2]
      rw [mapFn_seq f k hk, zipM_node]
      simp only [map_node, List.mapM_cons, asSeq_node k hk, List.mapM_nil, pure_eq_ok, ok_bind]
      rw [key xs zs hlen hsk (fun y hy => ih y hy (hv.2 y hy))]

end TS
