import Verif.Spec.Accepts
import Verif.Props.Periods
import Verif.Props.AtrVectors
import Verif.Props.ExtremaInt
/-
C84: exactly which series the operators accept.
-/
namespace TS
open PyVal
variable {α : Type} [TFNum α]
set_option linter.unusedSimpArgs false

/-- From the first step on samples that are not accepted, and steadiness on the others. -/
theorem accepts_iff {op : Operator α} {X} {v : Val α} {k : Nat} {P : Prop} (hv : SeriesOf X v k) (hop : op.Sane ∧ op.Uniform) (pos : P → ∃ O S, op.Steady X O S)
    (neg : ¬ P → ∀ x, HasSig x X → ∃ e, op.forwardStep x none = .error e) :
    ((∃ r, call op v none = .ok r) ↔ P) ∧ ((∃ r, callStatic op v none = .ok r) ↔ P) := by
  by_cases hP : P
  · obtain ⟨O, S, h⟩ := pos hP
    obtain ⟨h1, h2⟩ := callStatic_steady hop.1 hop.2 h hv
    exact ⟨iff_of_true h2 hP, iff_of_true (h1 ▸ h2) hP⟩
  · exact ⟨iff_of_false (not_ok (rejects_step hv (neg hP))) hP, iff_of_false (static_rejects_step hv (neg hP)) hP⟩

/-- what an operator does with one tensor -/
theorem accepts_one {op : Operator α} {P : List DType → List Nat → Prop} (hop : op.Sane ∧ op.Uniform) {s ds v k} (hl : ds.length = 1) (hv : SeriesOf (samplesOf s ds) v k)
    (pos : ∀ d, P [d] s → ∃ O S, op.Steady (.leaf (d, s)) O S)
    (neg : ∀ y : Leaf α, (∀ d, y.sig = some (d, s) → ¬ P [d] s) → y.sig ≠ none → (∀ l, y.sig = some l → l.2 = s) → ∃ e, op.forwardStep (.leaf y) none = .error e) :
    ((∃ r, call op v none = .ok r) ↔ P ds s) ∧ ((∃ r, callStatic op v none = .ok r) ↔ P ds s) := by
  obtain ⟨d, rfl⟩ := List.length_eq_one_iff.1 hl
  refine accepts_iff hv hop (pos d) fun h x hx => ?_
  obtain ⟨y, rfl, hy⟩ := hasSig_leaf_inv hx
  exact neg y (by rw [hy]; rintro _ ⟨⟩; exact h) (by simp [hy]) (by rw [hy]; rintro _ ⟨⟩; rfl)

/-- operators on float tensors -/
theorem accepts_floats {op : Operator α} (hop : op.Sane ∧ op.Uniform) {s ds v k} (hl : ds.length = 1) (hv : SeriesOf (samplesOf s ds) v k)
    (pos : ∃ O S, op.Steady (tF s) O S) (hi : ∀ t : Tensor Int, ∃ e, op.forwardStep (.leaf (.i t)) none = .error e)
    (hb : ∀ t : Tensor Bool, ∃ e, op.forwardStep (.leaf (.b t)) none = .error e) :
    ((∃ r, call op v none = .ok r) ↔ FloatTensors ds s) ∧ ((∃ r, callStatic op v none = .ok r) ↔ FloatTensors ds s) := by
  refine accepts_one hop hl hv (fun d hd => ?_) fun y hy h h2 => ?_
  · obtain rfl := hd d (by simp); exact pos
  · cases y with
    | f t => exact absurd (fun d hd => List.mem_singleton.1 hd) (hy .float (by have := h2 _ rfl; simp at this; simp [Leaf.sig, this]))
    | i t => exact hi t
    | b t => exact hb t
    | gen => exact absurd rfl h

/-- operators on float scalars -/
theorem accepts_scalar {op : Operator α} (hop : op.Sane ∧ op.Uniform) {s ds v k} (hl : ds.length = 1) (hv : SeriesOf (samplesOf s ds) v k)
    (pos : ∃ O S, op.Steady (tF []) O S) (hf : ∀ t : Tensor α, t.shape ≠ [] → ∃ e, op.forwardStep (.leaf (.f t)) none = .error e)
    (hi : ∀ t : Tensor Int, ∃ e, op.forwardStep (.leaf (.i t)) none = .error e)
    (hb : ∀ t : Tensor Bool, ∃ e, op.forwardStep (.leaf (.b t)) none = .error e) :
    ((∃ r, call op v none = .ok r) ↔ FloatScalars ds s) ∧ ((∃ r, callStatic op v none = .ok r) ↔ FloatScalars ds s) := by
  refine accepts_one hop hl hv (fun d hd => ?_) fun y hy h h2 => ?_
  · obtain ⟨rfl, hd⟩ := hd
    obtain rfl := hd d (by simp); exact pos
  · cases y with
    | f t =>
      refine hf t fun hs => ?_
      have := h2 _ rfl; simp at this
      exact hy .float (by simp [Leaf.sig, this]) ⟨by rw [← this, hs], fun d hd => List.mem_singleton.1 hd⟩
    | i t => exact hi t
    | b t => exact hb t
    | gen => exact absurd rfl h

theorem asShape_nil {β : Type} {t : Tensor β} (h : t.shape ≠ []) : ∃ e, t.asShape [] = .error e := by
  simp [Tensor.asShape, h]

theorem decS_int (t : Tensor Int) : ∃ e, (decS (.leaf (.i t)) : Res α) = .error e := ⟨.dtype, rfl⟩
theorem decS_bool (t : Tensor Bool) : ∃ e, (decS (.leaf (.b t)) : Res α) = .error e := ⟨.dtype, rfl⟩
theorem decS_shape {t : Tensor α} (h : t.shape ≠ []) : ∃ e, (decS (.leaf (.f t)) : Res α) = .error e := by
  obtain ⟨e, he⟩ := asShape_nil h
  exact ⟨e, by simp [decS, decFs, decF, decLeaf, Leaf.asF, he]⟩


/-- operators on two tensors -/
theorem accepts_two {op : Operator α} {P : List DType → List Nat → Prop} (hop : op.Sane ∧ op.Uniform) {s ds v k} (hl : ds.length = 2) (hv : SeriesOf (samplesOf s ds) v k)
    (pos : ∀ d d', P [d, d'] s → ∃ O S, op.Steady (.tup [.leaf (d, s), .leaf (d', s)]) O S)
    (neg : ∀ (y z : Leaf α) d d', y.sig = some (d, s) → z.sig = some (d', s) → ¬ P [d, d'] s → ∃ e, op.forwardStep (.tup [.leaf y, .leaf z]) none = .error e) :
    ((∃ r, call op v none = .ok r) ↔ P ds s) ∧ ((∃ r, callStatic op v none = .ok r) ↔ P ds s) := by
  obtain ⟨d, d', rfl⟩ := List.length_eq_two.1 hl
  refine accepts_iff (X := .tup [.leaf (d, s), .leaf (d', s)]) hv hop (pos d d') fun h x hx => ?_
  obtain ⟨y, z, rfl, hy, hz⟩ := hasSig_pair hx
  obtain ⟨y, rfl, hy'⟩ := hasSig_leaf_inv hy
  obtain ⟨z, rfl, hz'⟩ := hasSig_leaf_inv hz
  exact neg y z d d' hy' hz' h

omit [TFNum α] in
theorem hasSig_tI {x : Val α} {s} (h : HasSig x (tI s)) : ∃ a, x = vIs (s := s) a := by
  obtain ⟨y, rfl, hy⟩ := hasSig_leaf_inv h
  cases y <;> simp [Leaf.sig] at hy
  rename_i t; obtain ⟨s', v⟩ := t; simp only at hy; subst hy; exact ⟨v, rfl⟩

omit [TFNum α] in
theorem hasSig_tB {x : Val α} {s} (h : HasSig x (tB s)) : ∃ a, x = .leaf (.b ⟨s, a⟩) := by
  obtain ⟨y, rfl, hy⟩ := hasSig_leaf_inv h
  cases y <;> simp [Leaf.sig] at hy
  rename_i t; obtain ⟨s', v⟩ := t; simp only at hy; subst hy; exact ⟨v, rfl⟩

/-- `lambda x, y: x op y` -/
theorem accepts_arith {ff : α → α → α} {fi : Int → Int → Int} (hop : (makeStreamable (lambda2 (arith2 ff fi)) : Operator α).Sane ∧ (makeStreamable (lambda2 (arith2 ff fi)) : Operator α).Uniform)
    {s ds} {v : Val α} {k} (hl : ds.length = 2) (hv : SeriesOf (samplesOf s ds) v k) :
    ((∃ r, call (makeStreamable (lambda2 (arith2 ff fi))) v none = .ok r) ↔ NumTensors ds s) ∧
      ((∃ r, callStatic (makeStreamable (lambda2 (arith2 ff fi))) v none = .ok r) ↔ NumTensors ds s) := by
  refine accepts_two hop hl hv (fun d d' h => ?_) fun y z d d' hy hz h => ?_
  · rcases h with h | h <;> obtain ⟨rfl, rfl⟩ : d = _ ∧ d' = _ := ⟨h d (by simp), h d' (by simp)⟩
    · exact ⟨_, _, (arith2_rooted _ _ s).1⟩
    · refine ⟨tI s, tU, (makeStreamable_rooted fun x _ hx => ?_).1⟩
      obtain ⟨y, z, rfl, hy, hz⟩ := hasSig_pair hx
      obtain ⟨a, rfl⟩ := hasSig_tI hy
      obtain ⟨b, rfl⟩ := hasSig_tI hz
      refine ⟨.leaf (.i ⟨_, fun c => fi (a c) (b c)⟩), ?_, by simp, rfl⟩
      simp [PyVal.tup, unpackArgs, lambda2, decLeaf, arith2, broadcast_same]
  · refine ⟨.dtype, ?_⟩
    cases y <;> cases z <;> simp [Leaf.sig] at hy hz <;> (try rfl) <;> exact absurd (by simp [NumTensors, ← hy.1, ← hz.1]) h

/-- extrema -/
theorem accepts_extremum {op : Operator α} (hop : op.Sane ∧ op.Uniform) {s ds v k} (hl : ds.length = 1) (hv : SeriesOf (samplesOf s ds) v k)
    (pos : ∃ O S, op.Steady (tF []) O S) (posI : ∃ O S, op.Steady (tI []) O S) (hf : ∀ t : Tensor α, t.shape ≠ [] → ∃ e, op.forwardStep (.leaf (.f t)) none = .error e)
    (hi : ∀ t : Tensor Int, t.shape ≠ [] → ∃ e, op.forwardStep (.leaf (.i t)) none = .error e)
    (hb : ∀ t : Tensor Bool, ∃ e, op.forwardStep (.leaf (.b t)) none = .error e) :
    ((∃ r, call op v none = .ok r) ↔ NumScalars ds s) ∧ ((∃ r, callStatic op v none = .ok r) ↔ NumScalars ds s) := by
  refine accepts_one hop hl hv (fun d hd => ?_) fun y hy h h2 => ?_
  · obtain ⟨rfl, hd | hd⟩ := hd <;> obtain rfl := hd d (by simp)
    · exact pos
    · exact posI
  · cases y with
    | f t =>
      refine hf t fun hs => ?_
      have := h2 _ rfl; simp at this
      exact hy .float (by simp [Leaf.sig, this]) ⟨by rw [← this, hs], .inl fun d hd => List.mem_singleton.1 hd⟩
    | i t =>
      refine hi t fun hs => ?_
      have := h2 _ rfl; simp at this
      exact hy .int (by simp [Leaf.sig, this]) ⟨by rw [← this, hs], .inr fun d hd => List.mem_singleton.1 hd⟩
    | b t => exact hb t
    | gen => exact absurd rfl h

omit [TFNum α] in
theorem hasSig_int {x : Val α} (h : HasSig x (tI [])) : ∃ a : Int, x = vI a := by
  obtain ⟨y, rfl, hy⟩ := hasSig_leaf_inv h
  cases y <;> simp [Leaf.sig] at hy
  rename_i t; obtain ⟨s', v⟩ := t; simp only at hy; subst hy; exact ⟨v (), rfl⟩

omit [TFNum α] in
theorem decI_shape {t : Tensor Int} (h : t.shape ≠ []) : ∃ e, decI (.leaf (.i t) : Val α) = .error e := by
  obtain ⟨e, he⟩ := asShape_nil h
  exact ⟨e, by simp [decI, decLeaf, Leaf.asI, he]⟩

theorem accepts_global {bF : α → α → Bool} {bI : Int → Int → Bool} (hop : (globalExtremum bF bI : Operator α).Sane ∧ (globalExtremum bF bI : Operator α).Uniform)
    {y : List Int → Int} (h0 : y [] = 0) (h1 : ∀ h x, y (h ++ [x]) = if h.isEmpty || bI x (y h) then x else y h)
    (pos : ∃ O S, (globalExtremum bF bI : Operator α).Steady (tF []) O S) {s ds v k} (hl : ds.length = 1) (hv : SeriesOf (samplesOf s ds) v k) :
    ((∃ r, call (globalExtremum bF bI) v none = .ok r) ↔ NumScalars ds s) ∧ ((∃ r, callStatic (globalExtremum bF bI) v none = .ok r) ↔ NumScalars ds s) := by
  refine accepts_extremum hop hl hv pos ⟨tI [], .tup [tI [], tB []], (globalI_tracks bF bI h0 h1).steady (O := tI []) (fun _ h => hasSig_int h) (fun _ _ => rfl) fun _ => rfl⟩
    (fun t ht => ?_) (fun t ht => ?_) fun t => ⟨.dtype, rfl⟩
  · obtain ⟨e, he⟩ := decS_shape ht
    exact ⟨e, by simp [globalExtremum, globalArgs, streamable, unpackArgs, arity, req, decLeaf, he]⟩
  · obtain ⟨e, he⟩ := decI_shape (α := α) ht
    exact ⟨e, by simp [globalExtremum, globalArgs, streamable, unpackArgs, arity, req, decLeaf, he]⟩

theorem accepts_local {rF : List α → α} {rI : List Int → Int} {p : Nat} (hp : 0 < p) (hop : (localExtremum rF rI p : Operator α).Sane ∧ (localExtremum rF rI p : Operator α).Uniform)
    (pos : ∃ O S, (localExtremum rF rI p : Operator α).Steady (tF []) O S) {s ds v k} (hl : ds.length = 1) (hv : SeriesOf (samplesOf s ds) v k) :
    ((∃ r, call (localExtremum rF rI p) v none = .ok r) ↔ NumScalars ds s) ∧ ((∃ r, callStatic (localExtremum rF rI p) v none = .ok r) ↔ NumScalars ds s) := by
  refine accepts_extremum hop hl hv pos ⟨tI [], .tup [tI [p], tI []], (localExtremumI_tracks rF rI hp).steady (O := tI []) (fun _ h => hasSig_int h) (fun _ _ => rfl) fun h => ?_⟩
    (fun t ht => ?_) (fun t ht => ?_) fun t => ⟨.dtype, rfl⟩
  · simp [HasSig, ibufState, PyVal.tup, vIBuf, vIsBuf, Leaf.sig, Tensor.pack, padded_length]
  · obtain ⟨e, he⟩ := decS_shape ht
    exact ⟨e, by simp [localExtremum, localArgs, streamable, unpackArgs, arity, req, decLeaf, he]⟩
  · obtain ⟨e, he⟩ := decI_shape (α := α) ht
    exact ⟨e, by simp [localExtremum, localArgs, streamable, unpackArgs, arity, req, decLeaf, he]⟩

omit [TFNum α] in
theorem neverRejects {y : Leaf α} {s : List Nat} {Q : Prop} (hy : ∀ d, y.sig = some (d, s) → ¬ Anything [d] s) (h : y.sig ≠ none) (h2 : ∀ l, y.sig = some l → l.2 = s) : Q := by
  obtain ⟨⟨d, s'⟩, e⟩ := Option.ne_none_iff_exists'.1 h
  obtain rfl := h2 _ e
  exact absurd trivial (hy d e)

/-- indicators -/
theorem accepts_indicator {cf : α → Bool} {ci : Int → Bool} (hop : (makeStreamable (indicator cf ci) : Operator α).Sane ∧ (makeStreamable (indicator cf ci) : Operator α).Uniform)
    {s ds} {v : Val α} {k} (hl : ds.length = 1) (hv : SeriesOf (samplesOf s ds) v k) :
    ((∃ r, call (makeStreamable (indicator cf ci)) v none = .ok r) ↔ NumTensors ds s) ∧
      ((∃ r, callStatic (makeStreamable (indicator cf ci)) v none = .ok r) ↔ NumTensors ds s) := by
  refine accepts_one hop hl hv (fun d h => ?_) fun y hy h h2 => ?_
  · rcases h with h | h <;> obtain rfl := h d (by simp)
    · refine ⟨tF s, tU, (makeStreamable_rooted fun x _ hx => ?_).1⟩
      obtain ⟨a, rfl⟩ := hasSig_tF hx
      exact ⟨_, rfl, by simp, rfl⟩
    · refine ⟨tI s, tU, (makeStreamable_rooted fun x _ hx => ?_).1⟩
      obtain ⟨a, rfl⟩ := hasSig_tI hx
      exact ⟨_, rfl, by simp, rfl⟩
  · cases y with
    | f t => exact absurd (.inl fun d hd => List.mem_singleton.1 hd) (hy .float (by have := h2 _ rfl; simp at this; simp [Leaf.sig, this]))
    | i t => exact absurd (.inr fun d hd => List.mem_singleton.1 hd) (hy .int (by have := h2 _ rfl; simp at this; simp [Leaf.sig, this]))
    | b t => exact ⟨.typeError, rfl⟩
    | gen => exact absurd rfl h

omit [TFNum α] in
theorem hasSig_triple {x : Val α} {d d' d'' s} (h : HasSig x (samplesOf s [d, d', d''])) : ∃ y z w : Leaf α, x = .tup [.leaf y, .leaf z, .leaf w] ∧
    y.sig = some (d, s) ∧ z.sig = some (d', s) ∧ w.sig = some (d'', s) := by
  obtain ⟨xs, rfl, h'⟩ := hasSig_tup_inv h
  rcases h' with _ | ⟨h1, _ | ⟨h2, _ | ⟨h3, ⟨⟩⟩⟩⟩
  obtain ⟨y, rfl, hy⟩ := hasSig_leaf_inv (l := (d, s)) h1
  obtain ⟨z, rfl, hz⟩ := hasSig_leaf_inv (l := (d', s)) h2
  obtain ⟨w, rfl, hw⟩ := hasSig_leaf_inv (l := (d'', s)) h3
  exact ⟨_, _, _, rfl, hy, hz, hw⟩

omit [TFNum α] in
theorem hasSig_quad {x : Val α} {d d' d'' d3 s} (h : HasSig x (samplesOf s [d, d', d'', d3])) : ∃ y z w u : Leaf α, x = .tup [.leaf y, .leaf z, .leaf w, .leaf u] ∧
    y.sig = some (d, s) ∧ z.sig = some (d', s) ∧ w.sig = some (d'', s) ∧ u.sig = some (d3, s) := by
  obtain ⟨xs, rfl, h'⟩ := hasSig_tup_inv h
  rcases h' with _ | ⟨h1, _ | ⟨h2, _ | ⟨h3, _ | ⟨h4, ⟨⟩⟩⟩⟩⟩
  obtain ⟨y, rfl, hy⟩ := hasSig_leaf_inv (l := (d, s)) h1
  obtain ⟨z, rfl, hz⟩ := hasSig_leaf_inv (l := (d', s)) h2
  obtain ⟨w, rfl, hw⟩ := hasSig_leaf_inv (l := (d'', s)) h3
  obtain ⟨u, rfl, hu⟩ := hasSig_leaf_inv (l := (d3, s)) h4
  exact ⟨_, _, _, _, rfl, hy, hz, hw, hu⟩

/-- A tensor is a float scalar, or not one. -/
theorem decS_cases {y : Leaf α} {d s} (hy : y.sig = some (d, s)) : (d = .float ∧ s = [] ∧ ∃ a, decS (.leaf y) = .ok a) ∨ (¬ (d = .float ∧ s = []) ∧ ∃ e, decS (.leaf y) = .error e) := by
  cases y with
  | f t =>
    simp [Leaf.sig] at hy
    obtain ⟨rfl, rfl⟩ := hy
    by_cases h : t.shape = []
    · obtain ⟨s, a⟩ := t
      simp only at h; subst h
      exact .inl ⟨rfl, rfl, _, rfl⟩
    · exact .inr ⟨by simp [h], decS_shape h⟩
  | i t => simp [Leaf.sig] at hy; exact .inr ⟨by simp [← hy.1], _, rfl⟩
  | b t => simp [Leaf.sig] at hy; exact .inr ⟨by simp [← hy.1], _, rfl⟩
  | gen => cases hy

omit [TFNum α] in
/-- A tensor is a float tensor, or not one. -/
theorem decF_cases {y : Leaf α} {d s} (hy : y.sig = some (d, s)) : (d = .float ∧ ∃ a, y = .f ⟨s, a⟩) ∨ (d ≠ .float ∧ ∃ e, decF (.leaf y) = .error e) := by
  cases y with
  | f t =>
    obtain ⟨s', a⟩ := t
    simp [Leaf.sig] at hy
    obtain ⟨rfl, rfl⟩ := hy
    exact .inl ⟨rfl, _, rfl⟩
  | i t => simp [Leaf.sig] at hy; exact .inr ⟨by simp [← hy.1], _, rfl⟩
  | b t => simp [Leaf.sig] at hy; exact .inr ⟨by simp [← hy.1], _, rfl⟩
  | gen => cases hy

omit [TFNum α] in
theorem decFs_error {y : Val α} {e} (h : decF y = .error e) (s) : decFs s y = .error e := by simp [decFs, h]

theorem momentum_rejects {p : Nat} (hp : 0 < p) {y : Leaf α} {d s} (hy : y.sig = some (d, s)) (hd : d ≠ .float) : ∃ e, (Momentum p).forwardStep (.leaf y) none = .error e := by
  have hg : y ≠ .gen := by rintro rfl; cases hy
  have hw : (PyVal.leaf y).WF := by simp
  have ht : Tensors (PyVal.leaf y) := by simpa [Tensors] using hg
  have hf : call (Fork 2) (.leaf y) none false = .ok (.tup [.leaf y, .leaf y], .unit, .unit) := by
    rw [call_eq false hw ht (by simp)]; rfl
  have hi : call Identity (.leaf y) none false = .ok (.leaf y, .unit, .unit) := by
    rw [call_eq false hw ht (by simp)]; rfl
  obtain ⟨⟨I, hI, h1, -⟩, -⟩ := lag_rooted (α := α) d s hp
  obtain ⟨o, n, i, h2, ⟨-, ho⟩, -, -⟩ := h1 (.leaf y) hw (by simp [HasSig, hy])
  obtain ⟨z, rfl, hz⟩ := hasSig_leaf_inv ho
  have hlag : call (Lag p) (.leaf y) none false = .ok (.leaf z, n, i) := by
    rw [call_eq false hw ht (by simp)]; exact h2
  have hj : call (Join [Identity, Lag p]) (.tup [.leaf y, .leaf y]) none false = .ok (.tup [.leaf y, .leaf z], .tup [.unit, n], .tup [.unit, i]) := by
    rw [call_eq false (by simp [WF_tup]) (by simpa [Tensors, flatten, flattens, PyVal.tup] using hg) (by simp)]
    simp [Join, metaStreamable, joinStep, opStates, joinLoop, hi, hlag, PyVal.tup, asSeq]
  have hzt : Tensors (PyVal.tup [.leaf y, .leaf z]) := by
    have : z ≠ .gen := by rintro rfl; cases hz
    simp [Tensors, flatten, flattens, PyVal.tup, hg, this]
  have hY : HasSig (.leaf y : Val α) (.leaf (d, s)) := by simp [HasSig, hy]
  cases d with
  | float => exact absurd rfl hd
  | bool =>
    obtain ⟨a, ha⟩ := hasSig_tB hY
    obtain ⟨b, hb⟩ := hasSig_tB ho
    have hs : call Sub (.tup [.leaf y, .leaf z]) none false = .error .dtype := by
      rw [call_eq false (by simp [WF_tup]) hzt (by simp), ha, hb]; rfl
    exact ⟨.dtype, by simp [Momentum, Compose, metaStreamable, composeStep, opStates, composeLoop, hf, hj, hs]⟩
  | int =>
    obtain ⟨a, ha⟩ := hasSig_tI hY
    obtain ⟨b, hb⟩ := hasSig_tI ho
    have hs : call Sub (.tup [.leaf y, .leaf z]) none false = .ok (vIs (s := s) fun c => a c - b c, .unit, .unit) := by
      rw [call_eq false (by simp [WF_tup]) hzt (by simp), ha, hb]
      simp [Sub, makeStreamable, streamable, PyVal.tup, unpackArgs, lambda2, decLeaf, arith2, broadcast_same]
    have hd : call (SetDuring (.f (Tensor.scalar (Arith.zero : α))) p) (vIs (s := s) fun c => a c - b c) none false = .error .dtype := by
      rw [call_eq false (by simp) (by simp [Tensors]) (by simp)]; rfl
    exact ⟨.dtype, by simp [Momentum, Compose, metaStreamable, composeStep, opStates, composeLoop, hf, hj, hs, hd]⟩

theorem length_eq_four {A : Type} {l : List A} (h : l.length = 4) : ∃ a b c d, l = [a, b, c, d] := by
  match l, h with
  | [a, b, c, d], _ => exact ⟨a, b, c, d, rfl⟩

/-- **C84**: the operators accept exactly the series of the table, whether or not the shapes are known. -/
theorem C84_accepts {op : Operator α} {n P} (h : Accepts op n P) {s ds} {v : Val α} {k} (hl : ds.length = n) (hv : SeriesOf (samplesOf s ds) v k) :
    ((∃ r, call op v none = .ok r) ↔ P ds s) ∧ ((∃ r, callStatic op v none = .ok r) ↔ P ds s) := by
  have T {op : Operator α} {X O S} (h : TypedIn (fun _ => True) op X O S) : ∃ O S, op.Steady X O S := ⟨O, S, h.steady⟩
  have R {op : Operator α} {X O S} (h : TypedIn (fun _ => True) op X O S) : op.Sane ∧ op.Uniform := h.regular
  cases h with
  | identity => exact accepts_one (R (.identity (.float, []))) hl hv (fun d _ => T (.identity _)) fun y hy h h2 => neverRejects hy h h2
  | fork c => exact accepts_one (R (.fork c (.float, []))) hl hv (fun d _ => T (.fork c _)) fun y hy h h2 => neverRejects hy h h2
  | lag hp => exact accepts_one (basic_regular (.lag _)) hl hv (fun d _ => T (.lag d s hp)) fun y hy h h2 => neverRejects hy h h2
  | add => exact accepts_arith (basic_regular .add) hl hv
  | sub => exact accepts_arith (basic_regular .sub) hl hv
  | mul => exact accepts_arith (basic_regular .mul) hl hv
  | globalMinimum => exact accepts_global (basic_regular .globalMinimum) (y := leastInt) rfl leastInt_snoc (T .globalMinimum) hl hv
  | globalMaximum => exact accepts_global (basic_regular .globalMaximum) (y := greatestInt) rfl greatestInt_snoc (T .globalMaximum) hl hv
  | localMinimum hp => exact accepts_local hp (basic_regular (.localMinimum _)) (T (.localMinimum hp)) hl hv
  | localMaximum hp => exact accepts_local hp (basic_regular (.localMaximum _)) (T (.localMaximum hp)) hl hv
  | sma hp => exact accepts_floats (basic_regular (.sma _)) hl hv (T (.sma s hp)) (fun t => ⟨.dtype, rfl⟩) (fun t => ⟨.dtype, rfl⟩)
  | msd hp => exact accepts_floats (basic_regular (.msd _)) hl hv (T (.msd s hp)) (fun t => ⟨.dtype, rfl⟩) (fun t => ⟨.dtype, rfl⟩)
  | ema hp => exact accepts_floats (basic_regular (.ema _)) hl hv (T (.ema s hp)) (fun t => ⟨.dtype, rfl⟩) (fun t => ⟨.dtype, rfl⟩)
  | rma hp => exact accepts_floats (basic_regular (.rma _)) hl hv (T (.rma s hp)) (fun t => ⟨.dtype, rfl⟩) (fun t => ⟨.dtype, rfl⟩)
  | bollingerBands hp f => exact accepts_floats (basic_regular (.bollingerBands _ _)) hl hv (T (.bollingerBands s hp f)) (fun t => ⟨.dtype, rfl⟩) (fun t => ⟨.dtype, rfl⟩)
  | macd hs hf hm => exact accepts_floats (basic_regular (.macd _ _ _)) hl hv (T (.macd s hs hf hm)) (fun t => ⟨.dtype, rfl⟩) (fun t => ⟨.dtype, rfl⟩)
  | autoCorrelation hp hl' => exact accepts_floats (basic_regular (.autoCorrelation _ _)) hl hv (T (.autoCorrelation s hp hl')) (fun t => ⟨.dtype, rfl⟩) (fun t => ⟨.dtype, rfl⟩)
  | zeroCrossover => exact accepts_floats (basic_regular .zeroCrossover) hl hv (T (.zeroCrossover s)) (fun t => ⟨.dtype, rfl⟩) (fun t => ⟨.dtype, rfl⟩)
  | correlation hp =>
    refine accepts_two (basic_regular (.correlation _)) hl hv (fun d d' h => ?_) fun y z d d' hy hz h => ?_
    · obtain ⟨rfl, rfl⟩ : d = _ ∧ d' = _ := ⟨h d (by simp), h d' (by simp)⟩
      exact T (.correlation s hp)
    · rcases decF_cases hy with ⟨rfl, a, rfl⟩ | ⟨-, e, he⟩
      · rcases decF_cases hz with ⟨rfl, b, rfl⟩ | ⟨-, e, he⟩
        · exact absurd (by simp [FloatTensors]) h
        · exact ⟨e, by simp [Correlation, streamable, unpackArgs, arity, PyVal.tup, req, he]⟩
      · exact ⟨e, by simp [Correlation, streamable, unpackArgs, arity, PyVal.tup, req, he]⟩
  | crossCorrelation hp hl' =>
    refine accepts_two (basic_regular (.crossCorrelation _ _)) hl hv (fun d d' h => ?_) fun y z d d' hy hz h => ?_
    · obtain ⟨rfl, rfl⟩ : d = _ ∧ d' = _ := ⟨h d (by simp), h d' (by simp)⟩
      exact T (.crossCorrelation s hp hl')
    · rcases decF_cases hy with ⟨rfl, a, rfl⟩ | ⟨-, e, he⟩
      · rcases decF_cases hz with ⟨rfl, b, rfl⟩ | ⟨-, e, he⟩
        · exact absurd (by simp [FloatTensors]) h
        · exact ⟨e, by simp [CrossCorrelation, streamable, unpackArgs, arity, PyVal.tup, req, decFs_error he]⟩
      · exact ⟨e, by simp [CrossCorrelation, streamable, unpackArgs, arity, PyVal.tup, req, he]⟩
  | @atr p hp =>
    obtain ⟨d, d', d'', rfl⟩ := List.length_eq_three.1 hl
    refine accepts_iff hv (basic_regular (.atr _)) (fun h => ?_) fun h x hx => ?_
    · obtain ⟨rfl, rfl, rfl⟩ : d = _ ∧ d' = _ ∧ d'' = _ := ⟨h d (by simp), h d' (by simp), h d'' (by simp)⟩
      refine ⟨tF [], .tup [tF s, tAvg p []], (atrs_tracks (s := s) hp).steady (O := tF []) (fun x hx => ?_) (fun _ _ => rfl) fun h => by simp only [atrsState]; sig⟩
      obtain ⟨y, z, w, rfl, hy, hz, hw⟩ := hasSig_triple hx
      obtain ⟨a, ha⟩ := hasSig_tF (x := .leaf y) (s := s) (by simp [HasSig, hy])
      obtain ⟨b, hb⟩ := hasSig_tF (x := .leaf z) (s := s) (by simp [HasSig, hz])
      obtain ⟨c, hc⟩ := hasSig_tF (x := .leaf w) (s := s) (by simp [HasSig, hw])
      exact ⟨⟨a, b, c⟩, by rw [ha, hb, hc]; rfl⟩
    · obtain ⟨y, z, w, rfl, hy, hz, hw⟩ := hasSig_triple hx
      rcases decF_cases hy with ⟨rfl, a, rfl⟩ | ⟨-, e, he⟩
      · rcases decF_cases hz with ⟨rfl, b, rfl⟩ | ⟨-, e, he⟩
        · rcases decF_cases hw with ⟨rfl, c, rfl⟩ | ⟨-, e, he⟩
          · exact absurd (by simp [FloatTensors]) h
          · exact ⟨e, by simp [ATR, streamable, unpackArgs, arity, PyVal.tup, req, he]⟩
        · exact ⟨e, by simp [ATR, streamable, unpackArgs, arity, PyVal.tup, req, he]⟩
      · exact ⟨e, by simp [ATR, streamable, unpackArgs, arity, PyVal.tup, req, he]⟩
  | return_ hz hp =>
    refine accepts_scalar (R (.return_ hz hp)) hl hv (T (.return_ hz hp)) (fun t ht => ?_) (fun t => ⟨.dtype, rfl⟩) (fun t => ⟨.dtype, rfl⟩)
    obtain ⟨e, he⟩ := decS_shape ht
    exact ⟨e, by simp [Return, returnOp, bufferOp, streamable, unpackArgs, arity, req, he]⟩
  | logReturn hz hp =>
    refine accepts_scalar (R (.logReturn hz hp)) hl hv (T (.logReturn hz hp)) (fun t ht => ?_) (fun t => ⟨.dtype, rfl⟩) (fun t => ⟨.dtype, rfl⟩)
    obtain ⟨e, he⟩ := decS_shape ht
    exact ⟨e, by simp [LogReturn, returnOp, bufferOp, streamable, unpackArgs, arity, req, he]⟩
  | skewness hp =>
    refine accepts_scalar (R (.skewness hp)) hl hv (T (.skewness hp)) (fun t ht => ?_) (fun t => ⟨.dtype, rfl⟩) (fun t => ⟨.dtype, rfl⟩)
    obtain ⟨e, he⟩ := decS_shape ht
    exact ⟨e, by simp [Skewness, streamable, unpackArgs, arity, req, he]⟩
  | drawdown =>
    refine accepts_scalar (R (.drawdown)) hl hv (T (.drawdown)) (fun t ht => ?_) (fun t => ⟨.dtype, rfl⟩) (fun t => ⟨.dtype, rfl⟩)
    obtain ⟨e, he⟩ := decS_shape ht
    exact ⟨e, by simp [Drawdown, streamable, unpackArgs, arity, req, he]⟩
  | sharpeRatio hp =>
    refine accepts_two (R (.sharpeRatio hp)) hl hv (fun d d' h => ?_) fun y z d d' hy hz h => ?_
    · obtain ⟨rfl, h⟩ := h
      obtain ⟨rfl, rfl⟩ : d = _ ∧ d' = _ := ⟨h d (by simp), h d' (by simp)⟩
      exact T (.sharpeRatio hp)
    · rcases decS_cases hy with ⟨rfl, rfl, a, ha⟩ | ⟨-, e, he⟩
      · rcases decS_cases hz with ⟨rfl, -, b, hb⟩ | ⟨-, e, he⟩
        · exact absurd ⟨rfl, by simp⟩ h
        · exact ⟨e, by simp [SharpeRatio, streamable, unpackArgs, arity, PyVal.tup, req, ha, he]⟩
      · exact ⟨e, by simp [SharpeRatio, streamable, unpackArgs, arity, PyVal.tup, req, he]⟩
  | heikinAshi =>
    obtain ⟨d, d', d'', d3, rfl⟩ := length_eq_four hl
    refine accepts_iff hv (basic_regular .heikinAshi) (fun h => ?_) fun h x hx => ?_
    · obtain ⟨rfl, h⟩ := h
      obtain ⟨rfl, rfl, rfl, rfl⟩ : d = _ ∧ d' = _ ∧ d'' = _ ∧ d3 = _ := ⟨h d (by simp), h d' (by simp), h d'' (by simp), h d3 (by simp)⟩
      exact T .heikinAshi
    · obtain ⟨y, z, w, u, rfl, hy, hz, hw, hu⟩ := hasSig_quad hx
      rcases decS_cases hy with ⟨rfl, rfl, a, ha⟩ | ⟨-, e, he⟩
      · rcases decS_cases hz with ⟨rfl, -, b, hb⟩ | ⟨-, e, he⟩
        · rcases decS_cases hw with ⟨rfl, -, c, hc⟩ | ⟨-, e, he⟩
          · rcases decS_cases hu with ⟨rfl, -, c', hc'⟩ | ⟨-, e, he⟩
            · exact absurd ⟨rfl, by simp⟩ h
            · exact ⟨e, by simp [HeikinAshi, streamable, unpackArgs, arity, PyVal.tup, req, ha, hb, hc, he]⟩
          · exact ⟨e, by simp [HeikinAshi, streamable, unpackArgs, arity, PyVal.tup, req, ha, hb, he]⟩
        · exact ⟨e, by simp [HeikinAshi, streamable, unpackArgs, arity, PyVal.tup, req, ha, he]⟩
      · exact ⟨e, by simp [HeikinAshi, streamable, unpackArgs, arity, PyVal.tup, req, he]⟩
  | riskRatio hp q hq =>
    obtain ⟨d, d', d'', d3, rfl⟩ := length_eq_four hl
    refine accepts_iff hv (basic_regular (.riskRatio q)) (fun h => ?_) fun h x hx => ?_
    · obtain ⟨rfl, h, h'⟩ := h
      obtain ⟨rfl, rfl, rfl⟩ : d = _ ∧ d' = _ ∧ d'' = _ := ⟨h d (by simp), h d' (by simp), h d'' (by simp)⟩
      rcases h' d3 (by simp) with rfl | rfl
      · exact T (.riskRatioFloat hp q hq)
      · exact T (.riskRatioInt hp q hq)
    · obtain ⟨y, z, w, u, rfl, hy, hz, hw, hu⟩ := hasSig_quad hx
      rcases decS_cases hy with ⟨rfl, rfl, a, ha⟩ | ⟨-, e, he⟩
      · rcases decS_cases hz with ⟨rfl, -, b, hb⟩ | ⟨-, e, he⟩
        · rcases decS_cases hw with ⟨rfl, -, c, hc⟩ | ⟨-, e, he⟩
          · refine ⟨.dtype, ?_⟩
            cases u with
            | f t => simp [Leaf.sig] at hu; exact absurd ⟨rfl, by simp, by simp [← hu.1]⟩ h
            | i t => simp [Leaf.sig] at hu; exact absurd ⟨rfl, by simp, by simp [← hu.1]⟩ h
            | b t => simp [RiskRatioEvaluator, streamable, unpackArgs, arity, PyVal.tup, req, ha, hb, hc, decSignal]
            | gen => cases hu
          · exact ⟨e, by simp [RiskRatioEvaluator, streamable, unpackArgs, arity, PyVal.tup, req, ha, hb, he]⟩
        · exact ⟨e, by simp [RiskRatioEvaluator, streamable, unpackArgs, arity, PyVal.tup, req, ha, he]⟩
      · exact ⟨e, by simp [RiskRatioEvaluator, streamable, unpackArgs, arity, PyVal.tup, req, he]⟩
  | momentum hp =>
    exact accepts_floats (R (C56_momentum_typed hp s)) hl hv (T (C56_momentum_typed hp s)) (fun t => momentum_rejects hp (d := .int) (s := t.shape) rfl (by simp))
      (fun t => momentum_rejects hp (d := .bool) (s := t.shape) rfl (by simp))
  | smaCrossover hs hf => exact accepts_floats (R (C56_smaCrossover_typed hs hf s)) hl hv (T (C56_smaCrossover_typed hs hf s)) (fun t => ⟨.dtype, rfl⟩) (fun t => ⟨.dtype, rfl⟩)
  | smaSignal hs hf => exact accepts_floats (R (C56_smaSignal_typed trivial hs hf s)) hl hv (T (C56_smaSignal_typed trivial hs hf s)) (fun t => ⟨.dtype, rfl⟩) (fun t => ⟨.dtype, rfl⟩)
  | macdSignal hs hf hm => exact accepts_floats (R (C56_macdSignal_typed trivial hs hf hm s)) hl hv (T (C56_macdSignal_typed trivial hs hf hm s)) (fun t => ⟨.dtype, rfl⟩) (fun t => ⟨.dtype, rfl⟩)
  | volatility hz hm hr =>
    refine accepts_scalar (R (C56_volatility_typed hz hm hr)) hl hv (T (C56_volatility_typed hz hm hr)) (fun t ht => ?_) (fun t => ⟨.dtype, rfl⟩) (fun t => ⟨.dtype, rfl⟩)
    obtain ⟨e, he⟩ := decS_shape ht
    have h1 (q : Int) : call (LogReturn q) (.leaf (.f t)) none false = .error e := by
      rw [call_eq false (by simp) (by simp [Tensors]) (by simp)]
      simp [LogReturn, returnOp, bufferOp, streamable, unpackArgs, arity, req, he]
    exact ⟨e, by simp [Volatility, Compose, metaStreamable, composeStep, opStates, composeLoop, h1]⟩

/-- **C84, RSI**: exactly float scalars, when the shapes are known. -/
theorem C84_rsi {p : Nat} (hp : 0 < p) {s d} {v : Val α} {k} (hv : SeriesOf (.leaf (d, s)) v k) :
    (∃ r, callStatic (RSI p) v none = .ok r) ↔ d = .float ∧ s = [] := by
  refine ((accepts_scalar (s := s) (ds := [d]) (basic_regular (.rsi p)) rfl hv ⟨_, _, (TypedIn.rsi (C := fun _ => True) hp).steady⟩ (fun t ht => ?_) (fun t => ⟨.dtype, rfl⟩) (fun t => ⟨.dtype, rfl⟩)).2).trans ?_
  · obtain ⟨e, he⟩ := decS_shape ht
    exact ⟨e, by simp [RSI, streamable, unpackArgs, arity, req, he]⟩
  · simp [FloatScalars, and_comm]

/-- **C84, Positive and Negative**: exactly float or int tensors, when the shapes are known (common/common.py:36-38 and 44-46 need `x.shape`). -/
theorem C84_indicators {s d} {v : Val α} {k} (hv : SeriesOf (.leaf (d, s)) v k) :
    ((∃ r, callStatic Positive v none = .ok r) ↔ d ≠ .bool) ∧ ((∃ r, callStatic Negative v none = .ok r) ↔ d ≠ .bool) := by
  have e : NumTensors [d] s ↔ d ≠ .bool := by cases d <;> simp [NumTensors]
  exact ⟨(accepts_indicator (ds := [d]) (basic_regular .positive) rfl hv).2.trans e, (accepts_indicator (ds := [d]) (basic_regular .negative) rfl hv).2.trans e⟩

/-- the series of samples that are all the ints of a list -/
example : SeriesOf (α := XR ℚ) (samplesOf [] [.int]) (vIBuf [3, 4]) 2 :=
  ⟨by simp, by simp [flatten], _, isSeries_vIBuf _, by simp, by simp, by simp only [List.mem_map]; rintro _ ⟨a, -, rfl⟩; rfl⟩
-- accepted, and rejected
example := (C84_accepts (α := XR ℚ) (.localMaximum (p := 2) (by norm_num)) (s := []) (ds := [.int]) (v := vIBuf [3, 4]) (k := 2) rfl
  ⟨by simp, by simp [flatten], _, isSeries_vIBuf _, by simp, by simp, by simp only [List.mem_map]; rintro _ ⟨a, -, rfl⟩; rfl⟩).1.2 ⟨rfl, .inr (by simp)⟩
example : ¬ ∃ r, call (SMA 2) (vIBuf [3, 4] : Val (XR ℚ)) none = .ok r := fun h => by
  have := (C84_accepts (α := XR ℚ) (.sma (p := 2) (by norm_num)) (s := []) (ds := [.int]) (v := vIBuf [3, 4]) (k := 2) rfl
    ⟨by simp, by simp [flatten], _, isSeries_vIBuf _, by simp, by simp, by simp only [List.mem_map]; rintro _ ⟨a, -, rfl⟩; rfl⟩).1.1 h
  exact absurd (this .int (by simp)) (by simp)
example := (C84_indicators (α := XR ℚ) (s := []) (d := .int) (v := vIBuf [3, 4]) (k := 2)
  ⟨by simp, by simp [flatten], _, isSeries_vIBuf _, by simp, by simp, by simp only [List.mem_map]; rintro _ ⟨a, -, rfl⟩; rfl⟩).1.2 (by simp)
example := C84_rsi (α := XR ℚ) (p := 2) (by norm_num) (s := []) (d := .float) (v := series [4, 3, 2]) (k := 3)
  ⟨(nums_ok _).1, (nums_ok _).2.1, _, (nums_ok _).2.2, by simp, rfl, by simp only [List.mem_map]; rintro _ ⟨a, -, rfl⟩; rfl⟩

end TS
