import Verif.Lemmas.Pipeline
import Verif.Lemmas.JoinStream
import Verif.Lemmas.MapRegular
/-
Streaming `Map` column by column.
-/
namespace TS
open PyVal
variable {α : Type}
set_option linter.unusedSimpArgs false

theorem Tensor.col_spec {β : Type} {k n : Nat} {t : Tensor β} (h : t.size0 = .ok n)
    (hk : ∀ i < n, ∃ u w, t.index i = .ok u ∧ u.index k = .ok w) (hn : 0 < n) :
    ∃ c, t.col k = .ok c ∧ c.size0 = .ok n ∧ ∀ i < n, ∀ u w, t.index i = .ok u → u.index k = .ok w → c.index i = .ok w := by
  obtain ⟨s, v⟩ := t
  cases s with
  | nil => simp [size0] at h
  | cons n' s =>
    simp only [size0, Except.ok.injEq] at h
    subst h
    obtain ⟨u, w, h1, h2⟩ := hk 0 hn
    simp only [index, hn, dite_true, Except.ok.injEq] at h1
    subst h1
    cases s with
    | nil => simp [index] at h2
    | cons m s =>
      have hkm : k < m := by
        by_contra hc
        simp [index, hc] at h2
      refine ⟨⟨n' :: s, fun c => v (c.1, (⟨k, hkm⟩, c.2))⟩, by simp [col, hkm], rfl, ?_⟩
      intro i hi u w h1 h2
      simp only [index, hi, dite_true, Except.ok.injEq] at h1
      subst h1
      simp only [index, hkm, dite_true, Except.ok.injEq] at h2
      subst h2
      simp [index, hi]

theorem fmap_eq_ok {A B : Type} {f : A → B} {x : Res A} {b : B} : f <$> x = .ok b ↔ ∃ a, x = .ok a ∧ f a = b := by
  cases x <;> simp

theorem Leaf.col_spec {k n : Nat} {l : Leaf α} (h : l.size0 = .ok n)
    (hk : ∀ i < n, ∃ u w, l.index i = .ok u ∧ u.index k = .ok w) (hn : 0 < n) :
    ∃ c, l.col k = .ok c ∧ c.size0 = .ok n ∧ ∀ i < n, ∀ u w, l.index i = .ok u → u.index k = .ok w → c.index i = .ok w := by
  cases l with
  | f t =>
    obtain ⟨c, h1, h2, h3⟩ := Tensor.col_spec (k := k) (t := t) h (fun i hi => by
      obtain ⟨u, w, h1, h2⟩ := hk i hi
      simp only [Leaf.index, fmap_eq_ok] at h1
      obtain ⟨u', h1, rfl⟩ := h1
      simp only [Leaf.index, fmap_eq_ok] at h2
      obtain ⟨w', h2, rfl⟩ := h2
      exact ⟨u', w', h1, h2⟩) hn
    refine ⟨.f c, by simp [Leaf.col, h1], h2, ?_⟩
    intro i hi u w g1 g2
    simp only [Leaf.index, fmap_eq_ok] at g1
    obtain ⟨u', g1, rfl⟩ := g1
    simp only [Leaf.index, fmap_eq_ok] at g2
    obtain ⟨w', g2, rfl⟩ := g2
    simp [Leaf.index, h3 i hi u' w' g1 g2]
  | i t =>
    obtain ⟨c, h1, h2, h3⟩ := Tensor.col_spec (k := k) (t := t) h (fun i hi => by
      obtain ⟨u, w, h1, h2⟩ := hk i hi
      simp only [Leaf.index, fmap_eq_ok] at h1
      obtain ⟨u', h1, rfl⟩ := h1
      simp only [Leaf.index, fmap_eq_ok] at h2
      obtain ⟨w', h2, rfl⟩ := h2
      exact ⟨u', w', h1, h2⟩) hn
    refine ⟨.i c, by simp [Leaf.col, h1], h2, ?_⟩
    intro i hi u w g1 g2
    simp only [Leaf.index, fmap_eq_ok] at g1
    obtain ⟨u', g1, rfl⟩ := g1
    simp only [Leaf.index, fmap_eq_ok] at g2
    obtain ⟨w', g2, rfl⟩ := g2
    simp [Leaf.index, h3 i hi u' w' g1 g2]
  | b t =>
    obtain ⟨c, h1, h2, h3⟩ := Tensor.col_spec (k := k) (t := t) h (fun i hi => by
      obtain ⟨u, w, h1, h2⟩ := hk i hi
      simp only [Leaf.index, fmap_eq_ok] at h1
      obtain ⟨u', h1, rfl⟩ := h1
      simp only [Leaf.index, fmap_eq_ok] at h2
      obtain ⟨w', h2, rfl⟩ := h2
      exact ⟨u', w', h1, h2⟩) hn
    refine ⟨.b c, by simp [Leaf.col, h1], h2, ?_⟩
    intro i hi u w g1 g2
    simp only [Leaf.index, fmap_eq_ok] at g1
    obtain ⟨u', g1, rfl⟩ := g1
    simp only [Leaf.index, fmap_eq_ok] at g2
    obtain ⟨w', g2, rfl⟩ := g2
    simp [Leaf.index, h3 i hi u' w' g1 g2]
  | gen => simp [Leaf.size0] at h

theorem Tensor.size0_index {β : Type} {t u w : Tensor β} {i j : Nat} (h : t.index i = .ok u) (h' : t.index j = .ok w) :
    u.size0 = w.size0 := by
  obtain ⟨s, v⟩ := t
  cases s with
  | nil => simp [index] at h
  | cons n s =>
    simp only [index] at h h'
    split at h <;> split at h' <;> cases h <;> cases h'
    rfl

theorem Leaf.size0_index {l u w : Leaf α} {i j : Nat} (h : l.index i = .ok u) (h' : l.index j = .ok w) : u.size0 = w.size0 := by
  cases l with
  | gen => simp [Leaf.index] at h
  | _ t =>
    simp only [Leaf.index, fmap_eq_ok] at h h'
    obtain ⟨u, h, rfl⟩ := h
    obtain ⟨w, h', rfl⟩ := h'
    exact Tensor.size0_index h h'

theorem Tensor.index_col {β : Type} {t u c w : Tensor β} {k i : Nat} (hu : t.index i = .ok u) (hc : t.col k = .ok c)
    (hw : c.index i = .ok w) : u.index k = .ok w := by
  obtain ⟨s, v⟩ := t
  match s, v, hu, hc with
  | [], v, hu, hc => simp [index] at hu
  | [a], v, hu, hc => simp [col] at hc
  | a :: m :: s, v, hu, hc =>
    simp only [col] at hc
    simp only [index] at hu
    split at hc <;> split at hu <;> cases hc <;> cases hu
    rename_i h1 h2
    simp only [index, h2, dite_true] at hw
    cases hw
    simp [index, h1]

theorem Leaf.index_col {l u c w : Leaf α} {k i : Nat} (hu : l.index i = .ok u) (hc : l.col k = .ok c) (hw : c.index i = .ok w) :
    u.index k = .ok w := by
  cases l with
  | gen => simp [Leaf.index] at hu
  | _ t =>
    simp only [Leaf.index, Leaf.col, fmap_eq_ok] at hu hc
    obtain ⟨u, hu, rfl⟩ := hu
    obtain ⟨c, hc, rfl⟩ := hc
    simp only [Leaf.index, fmap_eq_ok] at hw ⊢
    obtain ⟨w, hw, rfl⟩ := hw
    exact ⟨w, Tensor.index_col hu hc hw, rfl⟩

theorem Tensor.tile_index {β : Type} {t w : Tensor β} {n k : Nat} (h : (Tensor.pack t.shape (List.replicate n t.val)).index k = .ok w) :
    w = t := by
  have hk : k < n := by
    by_contra hc
    simp [index, pack, hc] at h
  rw [index_pack _ _ _ (by simpa using hk)] at h
  simp only [List.getElem_replicate, Except.ok.injEq] at h
  exact h.symm

theorem Leaf.tile_index {l m w : Leaf α} {size : Int} {k : Nat} (h : tileLeaf size l = .ok m) (hw : m.index k = .ok w) : w = l := by
  unfold tileLeaf at h
  split at h
  · cases h
  · cases l with
    | gen => cases h
    | _ t =>
      cases h
      simp only [Leaf.index, fmap_eq_ok] at hw
      obtain ⟨w, hw, rfl⟩ := hw
      rw [Tensor.tile_index hw]

/-- The k-th entries of all rows. -/
def colList {A : Type} (k : Nat) (g : List (List A)) : List A := g.filterMap (·[k]?)

theorem colList_cons {A : Type} {k : Nat} {r : List A} {g : List (List A)} (h : k < r.length) :
    colList k (r :: g) = r[k] :: colList k g := by
  simp [colList, h]

theorem colList_length {A : Type} {k : Nat} {g : List (List A)} (h : ∀ r ∈ g, k < r.length) : (colList k g).length = g.length := by
  induction g with
  | nil => rfl
  | cons r g ih => rw [colList_cons (h r (by simp))]; simp [ih fun r hr => h r (by simp [hr])]

theorem colList_getElem {A : Type} {k : Nat} {g : List (List A)} (h : ∀ r ∈ g, k < r.length) {t : Nat} (ht : t < g.length)
    (ht' : t < (colList k g).length) : (colList k g)[t] = (g[t])[k]'(h _ (List.getElem_mem _)) := by
  induction g generalizing t with
  | nil => simp at ht
  | cons r g ih =>
    have e := colList_cons (g := g) (h r (by simp))
    cases t with
    | zero => simp [e]
    | succ t =>
      simp only [e, List.getElem_cons_succ]
      exact ih (fun r hr => h r (by simp [hr])) (by simpa using ht) (by simpa [e] using ht')

theorem columnOf_ok {k : Nat} {v w : Val α} :
    columnOf k v = .ok w ↔ w.skel = v.skel ∧ (flatten v).mapM (Leaf.col k) = .ok (flatten w) := traverse_eq_ok_iff _ _ _

/-- Column `k` of a series of series exists and is the series of the k-th rows. -/
theorem columnOf_series {v : Val α} {xs : List (Val α)} {g : List (List (Val α))} (hne : xs ≠ []) (hv : IsSeries v xs)
    (hg : List.Forall₂ IsSeries xs g) {k : Nat} (hk : ∀ r ∈ g, k < r.length) :
    ∃ c, columnOf k v = .ok c ∧ IsSeries c (colList k g) := by
  have hlen := hg.length_eq
  have hpos : 0 < xs.length := List.length_pos_iff.2 hne
  have row : ∀ i (hi : i < xs.length), sliceAt k xs[i] = .ok ((g[i]'(hlen ▸ hi))[k]'(hk _ (List.getElem_mem _))) := by
    intro i hi
    exact ((List.forall₂_iff_get.1 hg).2 i hi (hlen ▸ hi)).slice k (hk _ (List.getElem_mem _))
  -- leaf level: position j
  have leaf : ∀ j (hj : j < (flatten v).length), ∀ i < xs.length, ∃ u w, ((flatten v)[j]).index i = .ok u ∧ u.index k = .ok w ∧
      ∀ (hi : i < xs.length), (flatten ((g[i]'(hlen ▸ hi))[k]'(hk _ (List.getElem_mem _))))[j]? = some w := by
    intro j hj i hi
    have a := (sliceAt_ok.1 (hv.slice i hi)).2
    have b := (sliceAt_ok.1 (row i hi)).2
    rw [mapM_eq_ok_iff_get] at a b
    obtain ⟨la, ha⟩ := a
    obtain ⟨lb, hb⟩ := b
    refine ⟨_, _, ha j hj, hb j (la ▸ hj), fun hi' => ?_⟩
    rw [List.getElem?_eq_getElem (by omega)]
  have leaf' : ∀ j (hj : j < (flatten v).length), ∃ c, ((flatten v)[j]).col k = .ok c ∧ c.size0 = .ok xs.length ∧
      ∀ i < xs.length, ∀ u w, ((flatten v)[j]).index i = .ok u → u.index k = .ok w → c.index i = .ok w := by
    intro j hj
    refine Leaf.col_spec (hv.size _ (List.getElem_mem _)) (fun i hi => ?_) hpos
    obtain ⟨u, w, h1, h2, -⟩ := leaf j hj i hi
    exact ⟨u, w, h1, h2⟩
  obtain ⟨c, hc⟩ : ∃ c, columnOf k v = .ok c := by
    have : ∀ l ∈ flatten v, ∃ c, Leaf.col k l = .ok c := by
      intro l hl
      obtain ⟨j, hj, rfl⟩ := List.mem_iff_getElem.1 hl
      obtain ⟨c, h, -⟩ := leaf' j hj
      exact ⟨c, h⟩
    classical
    refine ⟨_, traverse_ok (Leaf.col k) (fun l => if h : ∃ c, Leaf.col k l = .ok c then h.choose else l) v ?_⟩
    intro l hl
    have := this l hl
    simp only [this, dite_true]
    exact this.choose_spec
  refine ⟨c, hc, ?_⟩
  obtain ⟨hs, hf⟩ := columnOf_ok.1 hc
  rw [mapM_eq_ok_iff_get] at hf
  obtain ⟨lc, hf⟩ := hf
  have hcl := colList_length hk
  refine ⟨?_, ?_⟩
  · intro l hl
    obtain ⟨j, hj, rfl⟩ := List.mem_iff_getElem.1 hl
    obtain ⟨c', h1, h2, -⟩ := leaf' j (lc ▸ hj)
    rw [hf j (lc ▸ hj)] at h1
    cases h1
    rw [h2, hcl, hlen]
  · intro i hi
    rw [hcl, ← hlen] at hi
    rw [colList_getElem hk (hlen ▸ hi), sliceAt_ok]
    refine ⟨?_, ?_⟩
    · rw [sliceAt_skel (row i hi), sliceAt_skel (hv.slice i hi), hs]
    · rw [mapM_eq_ok_iff_get]
      have lb : (flatten ((g[i]'(hlen ▸ hi))[k]'(hk _ (List.getElem_mem _)))).length = (flatten v).length := by
        have a := (sliceAt_ok.1 (hv.slice i hi)).2
        have b := (sliceAt_ok.1 (row i hi)).2
        rw [mapM_eq_ok_iff_get] at a b
        obtain ⟨la, -⟩ := a
        obtain ⟨lb, -⟩ := b
        omega
      refine ⟨by omega, fun j hj => ?_⟩
      obtain ⟨c', h1, h2, h3⟩ := leaf' j (lc ▸ hj)
      rw [hf j (lc ▸ hj)] at h1
      cases h1
      obtain ⟨u, w, g1, g2, g3⟩ := leaf j (lc ▸ hj) i hi
      rw [h3 i hi u w g1 g2]
      have := g3 hi
      rw [List.getElem?_eq_getElem (by omega)] at this
      simpa [eq_comm] using this

theorem IsSeries.det_length {v : Val α} {xs ys : List (Val α)} (hl : xs.length = ys.length) (h : IsSeries v xs) (h' : IsSeries v ys) :
    xs = ys := by
  refine List.ext_getElem hl fun i h1 h2 => ?_
  have a := h.slice i h1
  rw [h'.slice i h2] at a
  exact (Except.ok.inj a).symm

/-- What one step of `Map` does from a state. -/
theorem map_step_rows {op : Operator α} (hop : op.Sane) {size : Int} {x S : Val α} (hx : x.WF) (hfx : flatten x ≠ []) (hS : S.WF)
    {row ss : List (Val α)} (hrow : IsSeries x row) (hss : IsSeries S ss) (hl : ss.length = row.length) {o n i : Val α}
    (h : call (Map op size) x (some (.tup [S])) false = .ok (o, n, i)) :
    ∃ (rs : List (Val α × Val α)) (N : Val α), rs.length = row.length ∧ n = .tup [N] ∧ i = .tup [S] ∧ IsSeries o (rs.map (·.1)) ∧
      IsSeries N (rs.map (·.2)) ∧ row ≠ [] ∧
      ∀ k (k1 : k < row.length) (k2 : k < ss.length) (k3 : k < rs.length), ∃ i, call op row[k] (some ss[k]) false = .ok (rs[k].1, rs[k].2, i) := by
  have hsw : ∀ s ∈ some (PyVal.tup [S]), s.WF := by rintro _ ⟨⟩; exact WF_tup.2 (by simpa using hS)
  obtain ⟨-, -, h⟩ := (call_step_ok hx hsw).1 h
  obtain ⟨ps, x0, ov, nx, init, prev, oty, sty, rows, o', n', h1, h2, h3, h4, h5, h6, h7, h8, h9, h10, h11, h12, e⟩ := (Map_ok hop hx hsw).1 h
  cases e
  have hp : prev = S := by
    simp only [MapPrev] at h7
    cases h7; rfl
  subst hp
  have e1 : ps.map (·.1) = row := h3.det hfx hrow
  have e2 : ps.map (·.2) = ss := h4.det_length (by rw [hl, ← e1]; simp) hss
  have hlen := h10.length
  have lrow : row.length = ps.length := by rw [← e1]; simp
  refine ⟨rows, n', by omega, rfl, rfl, h11, h12, by rintro rfl; simp at e1; exact h1 e1, ?_⟩
  intro k k1 k2 k3
  subst e1 e2
  obtain ⟨g1, -⟩ := (List.forall₂_iff_get.1 h10).2 k (by omega) k3
  obtain ⟨i, g⟩ := mapRow_ok.1 g1
  exact ⟨i, by simpa using g⟩

theorem map_trace {op : Operator α} (hop : op.Sane) {size : Int} {m : Nat} : ∀ {xs : List (Val α)} {g : List (List (Val α))} {S : Val α}
    {ss : List (Val α)} {tr}, (∀ x ∈ xs, x.WF ∧ flatten x ≠ []) → S.WF → List.Forall₂ IsSeries xs g → (∀ r ∈ g, r.length = m) →
    IsSeries S ss → ss.length = m → stepAll (Map op size) xs (.tup [S]) = .ok tr →
    ∃ R : List (List (Val α × Val α)), List.Forall₂ (fun e r => r.length = m ∧ IsSeries e.1 (r.map (·.1)) ∧
        ∃ S', e.2 = .tup [S'] ∧ IsSeries S' (r.map (·.2))) tr R ∧
      ∀ k (hk : k < m) (h2 : k < ss.length), stepAll op (colList k g) ss[k] = .ok (colList k R) := by
  intro xs
  induction xs with
  | nil =>
    intro g S ss tr _ _ hg _ _ _ h
    cases hg
    cases h
    exact ⟨[], .nil, fun k hk h2 => rfl⟩
  | cons x xs ih =>
    intro g S ss tr hx hS hg hr hss hl h
    cases hg with
    | @cons _ row _ g hrow hg =>
      have hx1 := hx x (by simp)
      have hr1 := hr row (by simp)
      obtain ⟨o, n, i, tr', h1, h2, rfl⟩ := stepAll_cons_ok.1 h
      obtain ⟨rs, N, l1, rfl, rfl, h3, h4, hne, h5⟩ := map_step_rows hop hx1.1 hx1.2 hS hrow hss (by omega) h1
      have hsw : ∀ s ∈ some (PyVal.tup [S]), s.WF := by rintro _ ⟨⟩; exact WF_tup.2 (by simpa using hS)
      have hN : N.WF := by
        have := (Map_sane hop size).call hx1.1 hsw h1
        exact WF_tup.1 this.2.1 N (by simp)
      obtain ⟨R, g1, g2⟩ := ih (fun x h => hx x (by simp [h])) hN hg (fun r h => hr r (by simp [h])) h4 (by simp; omega) h2
      refine ⟨rs :: R, .cons ⟨by omega, h3, N, rfl, h4⟩ g1, fun k hk hk2 => ?_⟩
      rw [colList_cons (by omega), colList_cons (by omega)]
      obtain ⟨i, g3⟩ := h5 k (by omega) hk2 (by omega)
      refine stepAll_cons_ok.2 ⟨_, _, i, _, g3, ?_, rfl⟩
      have := g2 k hk (by simp; omega)
      rwa [List.getElem_map] at this

end TS
