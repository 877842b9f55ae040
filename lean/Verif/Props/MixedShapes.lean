import Verif.Props.Broadcast
import Verif.Props.Contract
import Verif.Props.Correlation
/-
C86: Correlation of samples of different shapes.
-/
namespace TS
open PyVal
variable {α : Type} [TFNum α] {s t : List Nat}

/-- The shape `r` of a coefficient computed from windows of `p` samples of the shapes `s` and `t`: that of
mean((values1 - mean1) * (values2 - mean2)) / (stddev1 * stddev2), where the mean drops the first axis. -/
def CorrShape (p : Nat) (s t r : List Nat) : Prop :=
  ∃ (m : Nat) (a q : List Nat), Broadcasts (p :: s) (p :: t) (m :: a) ∧ Broadcasts s t q ∧ Broadcasts a q r

theorem broadcast_shape {β γ : Type} {f : β → β → γ} {x y : Tensor β} {z : Tensor γ} (h : broadcast f x y = .ok z) : Broadcasts x.shape y.shape z.shape := by
  simp only [broadcast, bind_eq_ok] at h
  obtain ⟨r, h1, g, -, g', -, h⟩ := h
  cases h
  exact bcShape_iff.1 h1

theorem computeCorrelation_shape {p : Nat} {xs : List (Idx s → α)} {ys : List (Idx t → α)} (hx : xs.length = p) (hy : ys.length = p) {z : Tensor α}
    (h : computeCorrelation xs ys = .ok z) : CorrShape p s t z.shape := by
  simp only [computeCorrelation, bind_eq_ok] at h
  obtain ⟨w, h1, c, h2, d, h3, h4⟩ := h
  have h1 := broadcast_shape h1
  simp only [Tensor.pack, List.length_map, hx, hy] at h1
  obtain ⟨r, v⟩ := w
  cases r with
  | nil => simp [reduceMean0] at h2
  | cons m a =>
    cases h2
    exact ⟨m, a, d.shape, h1, broadcast_shape h3, broadcast_shape h4⟩

theorem computeCorrelation_ok {p : Nat} {r : List Nat} (h : CorrShape p s t r) :
    ∃ F : List (Idx s → α) → List (Idx t → α) → Idx r → α, ∀ xs ys, xs.length = p → ys.length = p → computeCorrelation xs ys = .ok ⟨r, F xs ys⟩ := by
  obtain ⟨m, a, q, h1, h2, h3⟩ := h
  have key : ∀ (xs : List (Idx s → α)) (ys : List (Idx t → α)), ∃ z : Idx r → α, xs.length = p → ys.length = p → computeCorrelation xs ys = .ok ⟨r, z⟩ := by
    intro xs ys
    by_cases hl : xs.length = p ∧ ys.length = p
    · obtain ⟨g, g', -, -, h⟩ := broadcast_ok (· * · : α → α → α) h1
      obtain ⟨k, k', -, -, hk⟩ := broadcast_ok (· * · : α → α → α) h2
      obtain ⟨l, l', -, -, hl'⟩ := broadcast_ok (· / · : α → α → α) h3
      have hp : ∀ {s : List Nat} (l : List (Idx s → α)), l.length = p → ∃ v, Tensor.pack s l = ⟨p :: s, v⟩ := by
        rintro s l rfl; exact ⟨_, rfl⟩
      obtain ⟨v, hv⟩ := hp (xs.map (· - Arith.mean xs)) (by simpa using hl.1)
      obtain ⟨w, hw⟩ := hp (ys.map (· - Arith.mean ys)) (by simpa using hl.2)
      have : ∃ z, computeCorrelation xs ys = .ok ⟨r, z⟩ := by
        simp only [computeCorrelation, Arith.moments, hv, hw, h, ok_bind, reduceMean0, hk, hl']
        exact ⟨_, rfl⟩
      obtain ⟨z, hz⟩ := this
      exact ⟨z, fun _ _ => hz⟩
    · exact ⟨fun _ => Arith.zero, fun h h' => absurd ⟨h, h'⟩ hl⟩
  choose F hF using key
  exact ⟨F, hF⟩

/-- the state of `Correlation(p)` after a history of pairs of samples -/
def mixedState (p : Nat) (h : List ((Idx s → α) × (Idx t → α))) : Val α :=
  .tup [vI h.length, vBuf (padded Arith.zero p (h.map Prod.fst)), vBuf (padded Arith.zero p (h.map Prod.snd))]

theorem mixedState_ok {p : Nat} (h : List ((Idx s → α) × (Idx t → α))) :
    (mixedState p h).WF ∧ HasType (mixedState p h) (.tup [.leaf .int, .leaf .float, .leaf .float]) :=
  ⟨by simp [mixedState, WF_tup], HasType_iff.2 rfl⟩

theorem mixed_step {p : Nat} (hp : 0 < p) (h : List ((Idx s → α) × (Idx t → α))) (x : (Idx s → α) × (Idx t → α)) :
    (Correlation (p : Int)).forwardStep (.tup [vF x.1, vF x.2]) (some (mixedState p h)) = (do
      let c ← correlationOrZero p h.length (padded Arith.zero p (h.map Prod.fst ++ [x.1])) (padded Arith.zero p (h.map Prod.snd ++ [x.2]))
      .ok (.leaf (.f c), mixedState p (h ++ [x]), mixedState p h)) := by
  simp [Correlation, streamable, unpackArgs, arity, correlationStep, roll_padded hp, mixedState]

theorem mixed_first {p : Nat} (hp : 0 < p) (x : (Idx s → α) × (Idx t → α)) :
    (Correlation (p : Int)).forwardStep (.tup [vF x.1, vF x.2]) none = .ok (vF (s := s) Arith.zero, mixedState p [x], mixedState (α := α) (s := s) (t := t) p []) := by
  simp [Correlation, streamable, unpackArgs, arity, correlationStep, zerosBuf_natCast, roll_padded hp, mixedState, correlationOrZero, hp]

theorem mixed_coeff {p : Nat} (h : List ((Idx s → α) × (Idx t → α))) (x : (Idx s → α) × (Idx t → α)) :
    correlationOrZero p h.length (padded Arith.zero p (h.map Prod.fst ++ [x.1])) (padded Arith.zero p (h.map Prod.snd ++ [x.2])) =
      if h.length < p then .ok ⟨s, Arith.zero⟩ else computeCorrelation (window p ((h ++ [x]).map Prod.fst)) (window p ((h ++ [x]).map Prod.snd)) := by
  rw [correlationOrZero]
  by_cases hh : h.length < p
  · rw [if_pos (by omega), if_pos hh]
  · rw [if_neg (by omega), if_neg hh, padded_eq_window (by simp; omega), padded_eq_window (by simp; omega)]
    simp

/-- what is output after a history, if `F` computes the coefficient of two windows -/
def mixedOut (p : Nat) (F : List (Idx s → α) → List (Idx t → α) → Idx s → α) (h : List ((Idx s → α) × (Idx t → α))) : Idx s → α :=
  if h.length ≤ p then Arith.zero else F (window p (h.map Prod.fst)) (window p (h.map Prod.snd))

theorem mixed_tracks {p : Nat} (hp : 0 < p) (F : List (Idx s → α) → List (Idx t → α) → Idx s → α) :
    Tracks (Correlation (p : Int) : Operator α)
      (fun h => h.length ≤ p ∨ ∀ (xs : List (Idx s → α)) (ys : List (Idx t → α)), xs.length = p → ys.length = p → computeCorrelation xs ys = .ok ⟨s, F xs ys⟩)
      (fun x : (Idx s → α) × (Idx t → α) => .tup [vF x.1, vF x.2]) (fun h => vF (mixedOut p F h)) (mixedState p) := by
  constructor
  · intro x _
    rw [mixed_first hp, mixedOut, if_pos (by simp; omega)]
  · intro h x hV
    rw [mixed_step hp, mixed_coeff]
    by_cases hh : h.length < p
    · rw [if_pos hh, ok_bind, mixedOut, if_pos (by simpa using hh)]
    · rw [if_neg hh, (hV.resolve_left (by simpa using hh)) _ _ (by simp [window_length]; omega) (by simp [window_length]; omega), ok_bind, mixedOut, if_neg (by simpa using hh)]
  · intro x; exact ⟨by simp [WF_tup], by simp [Tensors, flatten, flattens]⟩
  · exact ⟨.leaf (.float, s), fun h _ => ⟨by simp, rfl⟩⟩
  · exact ⟨_, mixedState_ok⟩

theorem mixed_trace {p : Nat} (hp : 0 < p) (l h : List ((Idx s → α) × (Idx t → α))) {tr : List (Val α × Val α)}
    (hr : stepAll (Correlation (p : Int) : Operator α) (l.map fun x => .tup [vF x.1, vF x.2]) (mixedState p h) = .ok tr) (i : Nat) (hi : i < tr.length) :
    ∃ o : Tensor α, tr[i].1 = .leaf (.f o) ∧ (h.length + i < p → o.shape = s) ∧ (p ≤ h.length + i → CorrShape p s t o.shape) := by
  induction l generalizing h tr i with
  | nil => cases hr; simp at hi
  | cons x l ih =>
    rw [List.map_cons, stepAll_cons_ok] at hr
    obtain ⟨o, n, i', tr', h1, h2, rfl⟩ := hr
    have h1 := ((call_step_ok (by simp [WF_tup]) (by rintro _ ⟨⟩; exact (mixedState_ok h).1)).1 h1).2.2
    rw [mixed_step hp, mixed_coeff, bind_eq_ok] at h1
    obtain ⟨c, h3, h4⟩ := h1
    cases h4
    cases i with
    | zero =>
      refine ⟨c, rfl, fun hh => ?_, fun hh => ?_⟩
      · rw [if_pos (by simpa using hh)] at h3
        cases h3; rfl
      · rw [if_neg (by simpa using hh)] at h3
        exact computeCorrelation_shape (by simp [window_length]; omega) (by simp [window_length]; omega) h3
    | succ i =>
      obtain ⟨o, e, k1, k2⟩ := ih (h ++ [x]) h2 i (by simpa using hi)
      simp only [List.length_append, List.length_singleton] at k1 k2
      exact ⟨o, by simpa using e, fun hh => k1 (by omega), fun hh => k2 (by omega)⟩

theorem broadcasts_1 {a : Nat} {r : List Nat} : Broadcasts [a] [] r ↔ r = [a] := by
  rw [← bcShape_iff]
  by_cases h : a = 1 <;> simp [bcShape, padShape, bcDim, h, eq_comm]

theorem broadcasts_1' {a : Nat} {r : List Nat} : Broadcasts [] [a] r ↔ r = [a] := by
  rw [← bcShape_iff]
  by_cases h : a = 1 <;> simp [bcShape, padShape, bcDim, h, eq_comm]

theorem broadcasts_11 {a b : Nat} {r : List Nat} : Broadcasts [a] [b] r ↔ ∃ d, r = [d] ∧ ((a = b ∧ d = a) ∨ (a = 1 ∧ d = b) ∨ (b = 1 ∧ d = a)) := by
  rw [← bcShape_iff]
  have : bcShape [a] [b] = (do .ok [← bcDim a b]) := by simp [bcShape, padShape]
  simp only [this, bind_eq_ok, bcDim_iff, Except.ok.injEq]
  constructor
  · rintro ⟨d, h, rfl⟩; exact ⟨d, rfl, h⟩
  · rintro ⟨d, rfl, h⟩; exact ⟨d, h, rfl⟩

theorem broadcasts_21 {a b c : Nat} {r : List Nat} : Broadcasts [a, b] [c] r ↔ ∃ d, r = [a, d] ∧ ((b = c ∧ d = b) ∨ (b = 1 ∧ d = c) ∨ (c = 1 ∧ d = b)) := by
  rw [← bcShape_iff]
  have : bcShape [a, b] [c] = (do .ok [← bcDim a 1, ← bcDim b c]) := by simp [bcShape, padShape]
  simp only [this, bind_eq_ok, bcDim_iff, Except.ok.injEq]
  constructor
  · rintro ⟨e, h', d, h, rfl⟩
    obtain rfl : e = a := by rcases h' with ⟨h1, h2⟩ | ⟨h1, h2⟩ | ⟨h1, h2⟩ <;> simp_all
    exact ⟨d, rfl, h⟩
  · rintro ⟨d, rfl, h⟩; exact ⟨a, by simp, d, h, rfl⟩

theorem broadcasts_12 {a b c : Nat} {r : List Nat} : Broadcasts [a] [b, c] r ↔ ∃ d, r = [b, d] ∧ ((a = c ∧ d = a) ∨ (a = 1 ∧ d = c) ∨ (c = 1 ∧ d = a)) := by
  rw [← bcShape_iff]
  have : bcShape [a] [b, c] = (do .ok [← bcDim 1 b, ← bcDim a c]) := by simp [bcShape, padShape]
  simp only [this, bind_eq_ok, bcDim_iff, Except.ok.injEq]
  constructor
  · rintro ⟨e, h', d, h, rfl⟩
    obtain rfl : e = b := by rcases h' with ⟨h1, h2⟩ | ⟨h1, h2⟩ | ⟨h1, h2⟩ <;> simp_all
    exact ⟨d, rfl, h⟩
  · rintro ⟨d, rfl, h⟩; exact ⟨b, by simp, d, h, rfl⟩

/-- **C86 Correlation of samples of different shapes**: once a coefficient is computed, the call succeeds exactly when the coefficients have the shape of the first series. -/
theorem C86_shapes {p : Nat} (hp : 0 < p) {l : List ((Idx s → α) × (Idx t → α))} (hl : p < l.length) :
    (∃ r, call (Correlation (p : Int) : Operator α) (.tup [vBuf (l.map Prod.fst), vBuf (l.map Prod.snd)]) none = .ok r) ↔ CorrShape p s t s := by
  constructor
  · rintro ⟨⟨outs, sf, s0⟩, h⟩
    obtain ⟨hf, x, xs, hin, o, n, i, h1, rfl, -, -, tr, h2, -, h3, -⟩ := (C01_library (Lib.basic (.correlation (p : Int))) (twoShapes_ok l).1 (by simp) _ _ _).1 h
    have e := (twoShapes_ok l).2.2.det hf hin
    rw [← e] at h2
    obtain ⟨y, l', rfl⟩ : ∃ y l', l = y :: l' := List.exists_cons_of_length_pos (by omega)
    simp only [List.map_cons, List.cons.injEq] at e
    obtain ⟨rfl, -⟩ := e
    have h1 := ((call_step_ok (by simp [WF_tup]) (by simp)).1 h1).2.2
    rw [mixed_first hp] at h1
    cases h1
    have hlen := stepAll_length h2
    rw [List.length_map] at hlen
    obtain ⟨ty, hty⟩ := slice_sig h3
    obtain ⟨a, ha, k1, -⟩ := mixed_trace hp (y :: l') [] h2 0 (by omega)
    obtain ⟨b, hb, -, k2⟩ := mixed_trace hp (y :: l') [] h2 p (by omega)
    have ta := hty _ (List.mem_map_of_mem (List.getElem_mem (l := tr) (n := 0) (by omega)))
    have tb := hty _ (List.mem_map_of_mem (List.getElem_mem (l := tr) (n := p) (by omega)))
    rw [ha, HasSig_iff] at ta
    rw [hb, HasSig_iff] at tb
    have : a.shape = b.shape := by
      have := ta.2.trans tb.2.symm
      simpa [flatten, Leaf.sig] using this
    have k1 := k1 (by simpa using hp)
    have k2 := k2 (by simp)
    rwa [← this, k1] at k2
  · intro hs
    obtain ⟨F, hF⟩ := computeCorrelation_ok (α := α) hs
    obtain ⟨h1, h2, h3⟩ := twoShapes_ok l
    exact ⟨_, (mixed_tracks hp F).eval (by rintro rfl; simp at hl) (fun _ _ _ => .inr hF) h1 h2 h3 (by
      have := isSeries_vBuf (scan (mixedOut p F) [] l)
      rwa [scan_map] at this)⟩
example : CorrShape 2 [2] [] [2] := ⟨2, [2], [2], broadcasts_21.2 ⟨2, rfl, by simp⟩, broadcasts_1.2 rfl, broadcasts_11.2 ⟨2, rfl, by simp⟩⟩
example := C86_shapes (α := XR ℚ) (p := 2) (by norm_num) (s := [2]) (t := []) (l := [((fun c => .fin (c.1.1 : ℚ)), pt (.fin 1)), ((fun _ => .fin 4), pt (.fin 3)), ((fun _ => .fin 9), pt (.fin 4))]) (by simp)

/-- Series of at most `p` samples of any two shapes are accepted: the outputs are zeros of the shape of the first. -/
theorem C86_cold {p : Nat} (hp : 0 < p) {l : List ((Idx s → α) × (Idx t → α))} (h0 : l ≠ []) (hl : l.length ≤ p) :
    ∃ sf s0, call (Correlation (p : Int) : Operator α) (.tup [vBuf (l.map Prod.fst), vBuf (l.map Prod.snd)]) none =
      .ok (vBuf (List.replicate l.length (Arith.zero : Idx s → α)), sf, s0) := by
  obtain ⟨h1, h2, h3⟩ := twoShapes_ok l
  have := (mixed_tracks (α := α) (s := s) (t := t) hp fun _ _ => Arith.zero).eval h0 (fun k _ hk => .inl (by simp; omega)) h1 h2 h3 (by
      have := isSeries_vBuf (scan (mixedOut p fun (_ : List (Idx s → α)) (_ : List (Idx t → α)) => (Arith.zero : Idx s → α)) [] l)
      rwa [scan_map] at this)
  have e : scan (mixedOut p fun (_ : List (Idx s → α)) (_ : List (Idx t → α)) => (Arith.zero : Idx s → α)) [] l = List.replicate l.length Arith.zero := ?_
  · rw [e] at this
    exact ⟨_, _, this⟩
  apply List.ext_getElem (by simp)
  intro i hi _
  simp only [scan_length] at hi
  rw [scan_getElem, mixedOut, if_pos (by simp; omega)]
  simp
example := C86_cold (α := XR ℚ) (p := 3) (by norm_num) (s := [2]) (t := [5, 4]) (l := [((fun _ => .fin 1), fun _ => .fin 2)]) (by simp) (by simp)

/-- **C86, vectors against numbers**: accepted exactly when the vectors are as long as the period (or the period is 1). -/
theorem C86_vector_number {p n : Nat} (hp : 0 < p) {l : List ((Idx [n] → α) × (Idx [] → α))} (hl : p < l.length) :
    (∃ r, call (Correlation (p : Int) : Operator α) (.tup [vBuf (l.map Prod.fst), vBuf (l.map Prod.snd)]) none = .ok r) ↔ n = p ∨ p = 1 := by
  rw [C86_shapes hp hl, CorrShape]
  simp only [broadcasts_21, broadcasts_1]
  constructor
  · rintro ⟨m, a, q, ⟨d, h1, h2⟩, rfl, h3⟩
    cases h1
    obtain ⟨e, h4, h5⟩ := broadcasts_11.1 h3
    cases h4
    omega
  · intro h
    exact ⟨p, [n], [n], ⟨n, rfl, by omega⟩, rfl, broadcasts_11.2 ⟨n, rfl, by omega⟩⟩
example := C86_vector_number (α := XR ℚ) (p := 2) (n := 3) (by norm_num) (l := [((fun _ => .fin 1), pt (.fin 1)), ((fun _ => .fin 4), pt (.fin 3)), ((fun _ => .fin 9), pt (.fin 4))]) (by simp)

/-- Numbers against vectors: never. -/
theorem C86_number_vector {p n : Nat} (hp : 0 < p) {l : List ((Idx [] → α) × (Idx [n] → α))} (hl : p < l.length) :
    ¬ ∃ r, call (Correlation (p : Int) : Operator α) (.tup [vBuf (l.map Prod.fst), vBuf (l.map Prod.snd)]) none = .ok r := by
  rw [C86_shapes hp hl, CorrShape]
  simp only [broadcasts_12, broadcasts_1']
  rintro ⟨m, a, q, ⟨d, h1, h2⟩, rfl, h3⟩
  cases h1
  obtain ⟨e, h4, -⟩ := broadcasts_11.1 h3
  cases h4
example := C86_number_vector (α := XR ℚ) (p := 1) (n := 1) (by norm_num) (l := [(pt (.fin 1), fun _ => .fin 1), (pt (.fin 2), fun _ => .fin 3)]) (by simp)

/-- What comes out for one coordinate of a vector: `xs` are the last values of the coordinate, `ys` the last numbers, and `y` the one of them whose
age is the number of the coordinate. -/
def misaligned {E : Type} [Arith E] (xs : List E) (y : E) (ys : List E) : E :=
  Arith.mean (xs.map fun x => (x - Arith.mean xs) * (y - Arith.mean ys)) /
    (Arith.sqrt (Arith.mean (xs.map fun x => (x - Arith.mean xs) * (x - Arith.mean xs))) * Arith.sqrt (Arith.mean (ys.map fun y => (y - Arith.mean ys) * (y - Arith.mean ys))))

theorem computeCorrelation_vector {p : Nat} {xs : List (Idx [p] → α)} {ys : List (Idx [] → α)} (hx : xs.length = p) (hy : ys.length = p) :
    computeCorrelation xs ys = .ok ⟨[p], fun c => misaligned (xs.map (· c)) ((ys[(c.1 : Nat)]'(by rw [hy]; exact c.1.2)) ()) (ys.map (· ()))⟩ := by
  have key : ∀ {β : Type} (l : List β) n, l.length = n → ∃ g : Fin n → β, l = List.ofFn g := by rintro β l _ rfl; exact ⟨l.get, by simp⟩
  obtain ⟨g, rfl⟩ := key xs p hx
  obtain ⟨g', rfl⟩ := key ys p hy
  obtain ⟨r1, r2, a1, a2, a3⟩ := broadcast_ok (· * · : α → α → α) (broadcasts_21.2 ⟨p, rfl, .inl ⟨rfl, rfl⟩⟩ : Broadcasts [p, p] [p] [p, p])
  obtain ⟨b1, b2, c1, c2, c3⟩ := broadcast_ok (· * · : α → α → α) (broadcasts_1.2 rfl : Broadcasts [p] [] [p])
  have e1 : ∀ c, r1 c = c := by
    intro c
    have := a1 c
    have h1 := (r1 c).1.2; have h2 := (r1 c).2.1.2; have h3 := c.1.2; have h4 := c.2.1.2
    simp [Idx.toList, readAt] at this
    refine Prod.ext (Fin.ext ?_) (Prod.ext (Fin.ext ?_) rfl)
    · rw [this.1]; split_ifs <;> omega
    · rw [this.2]; split_ifs <;> omega
  have e2 : ∀ c, r2 c = c.2 := by
    intro c
    have := a2 c
    have h1 := (r2 c).1.2; have h4 := c.2.1.2
    simp [Idx.toList, readAt] at this
    refine Prod.ext (Fin.ext ?_) rfl
    rw [this]; split_ifs <;> omega
  have e3 : ∀ c, b1 c = c := by
    intro c
    have := c1 c
    have h1 := (b1 c).1.2; have h4 := c.1.2
    simp [Idx.toList, readAt] at this
    refine Prod.ext (Fin.ext ?_) rfl
    rw [this]; split_ifs <;> omega
  rw [computeCorrelation]
  simp only [Arith.moments, List.map_ofFn]
  rw [pack_ofFn, pack_ofFn, a3, ok_bind]
  simp only [reduceMean0, ok_bind, c3, broadcast_same, e1, e2, e3]
  congr 2
  funext c
  simp only [misaligned, mul_apply', sqrt_apply', mean_apply, List.map_ofFn, Function.comp_def, sub_apply', List.getElem_ofFn]

/-- **C86, vectors as long as the period against numbers**: coordinate `j` is compared with the number `j` samples ago alone. -/
theorem C86_misaligned {p : Nat} (hp : 0 < p) {l : List ((Idx [p] → α) × α)} (h0 : l ≠ []) :
    ∃ (os : List (Idx [p] → α)) (sf s0 : Val α), call (Correlation (p : Int) : Operator α) (.tup [vBuf (l.map Prod.fst), vSBuf (l.map Prod.snd)]) none = .ok (vBuf os, sf, s0) ∧
      ∃ hl : os.length = l.length, ∀ i (hi : i < l.length) (j : Fin p), os[i] (j, ()) =
        if h : i < p then Arith.zero
        else misaligned ((lastOf p l i hi).map fun x => x.1 (j, ())) (l[i - j]'(by omega)).2 ((lastOf p l i hi).map Prod.snd) := by
  have hF : ∀ (xs : List (Idx [p] → α)) (ys : List (Idx [] → α)), xs.length = p → ys.length = p → computeCorrelation xs ys =
      .ok ⟨[p], (fun xs ys c => misaligned (xs.map (· c)) ((ys[(c.1 : Nat)]?.getD Arith.zero) ()) (ys.map (· ()))) xs ys⟩ := by
    intro xs ys hx hy
    rw [computeCorrelation_vector hx hy]
    congr 2
    funext c
    have : (c.1 : Nat) < ys.length := by rw [hy]; exact c.1.2
    simp [this]
  obtain ⟨h1, h2, h3⟩ := twoShapes_ok (α := α) (l.map fun x => (x.1, pt x.2))
  have := (mixed_tracks hp _).eval (by simpa using h0) (fun _ _ _ => .inr hF) h1 h2 h3 (by
      have := isSeries_vBuf (scan (mixedOut p (fun (xs : List (Idx [p] → α)) (ys : List (Idx [] → α)) c => misaligned (xs.map (· c)) ((ys[(c.1 : Nat)]?.getD Arith.zero) ()) (ys.map (· ())))) [] (l.map fun x => (x.1, pt x.2)))
      rwa [scan_map] at this)
  simp only [List.map_map, Function.comp_def] at this
  have e : (l.map fun x => pt x.2) = (l.map Prod.snd).map pt := by simp
  rw [e] at this
  refine ⟨_, _, _, this, by simp, fun i hi j => ?_⟩
  rw [scan_getElem, mixedOut]
  simp only [List.nil_append, List.length_map, List.length_take]
  by_cases h : i < p
  · rw [if_pos (by omega), dif_pos h]
    rfl
  · have hw : window p ((l.map fun x => (x.1, (pt x.2 : Idx [] → α))).take (i + 1)) = (List.ofFn fun j : Fin p => l[i - j]'(by omega)).map fun x => (x.1, pt x.2) := by
      rw [← List.map_take, window_map, window_take hi (by omega)]
    rw [if_neg (by omega), dif_neg h]
    rw [show ∀ (m : List ((Idx [p] → α) × (Idx [] → α))), window p (m.map Prod.fst) = (window p m).map Prod.fst from fun m => window_map _ _ _,
      show ∀ (m : List ((Idx [p] → α) × (Idx [] → α))), window p (m.map Prod.snd) = (window p m).map Prod.snd from fun m => window_map _ _ _, hw]
    simp [pt, Function.comp_def]
example := C86_misaligned (α := XR ℚ) (p := 1) (by norm_num) (l := [((fun _ => .fin 1), .fin 5), ((fun _ => .fin 4), .fin 3)]) (by simp)

open Classical in
theorem misaligned_fin {xs ys : List ℝ} (hx : xs ≠ []) (hy : ys ≠ []) (y : ℝ) :
    (misaligned (xs.map XR.fin) (XR.fin y) (ys.map XR.fin) : XR ℝ) = if Varies xs ∧ Varies ys then XR.fin 0 else XR.nan := by
  have s1 := XR.std_fin hx
  have s2 := XR.std_fin hy
  simp only [Arith.moments] at s1 s2
  have h0 : Arith.mean ((xs.map XR.fin).map fun x => (x - XR.fin (avg xs)) * (XR.fin y - XR.fin (avg ys))) = (XR.fin 0 : XR ℝ) := by
    have : (xs.map XR.fin).map (fun x => (x - XR.fin (avg xs)) * (XR.fin y - XR.fin (avg ys))) = (xs.map fun x => (x - avg xs) * (y - avg ys)).map (XR.fin : ℝ → XR ℝ) := by
      simp [XR.fin_sub, XR.fin_mul]
    rw [this, XR.mean_fin (by simpa using hx)]
    congr 1
    have hn : (xs.length : ℝ) ≠ 0 := by simpa using hx
    have : ∀ (m : List ℝ) (a : ℝ), (m.map fun x => x - a).sum = m.sum - m.length * a := by
      intro m a
      induction m with
      | nil => simp
      | cons x m ih => simp [ih]; ring
    rw [avg, List.sum_map_mul_right, this, avg]
    field_simp
    simp
  rw [misaligned, s1, s2, XR.mean_fin hx, XR.mean_fin hy, h0, XR.fin_mul]
  have hz : ∀ {l : List ℝ}, ¬ Varies l → stdDev l = 0 := by
    intro l h
    rw [varies_iff, not_not] at h
    rw [stdDev, h, Real.sqrt_zero]
  split_ifs with h
  · have p1 := stdDev_pos ((varies_iff _).1 h.1)
    have p2 := stdDev_pos ((varies_iff _).1 h.2)
    rw [XR.fin_div _ _ (by positivity), zero_div]
  · have : stdDev xs * stdDev ys = 0 := by
      by_cases h1 : Varies xs
      · rw [hz fun h2 => h ⟨h1, h2⟩, mul_zero]
      · rw [hz h1, zero_mul]
    rw [this]
    show XR.div _ _ = _
    simp [XR.div, XR.infOf]

/-- **C86 in exact arithmetic**: whatever the samples are, every coefficient of vectors and numbers is 0, or NaN if the coordinate or the numbers did not change. -/
theorem C86_uninformative {p : Nat} (hp : 0 < p) {l : List ((Fin p → ℝ) × ℝ)} (h0 : l ≠ []) :
    ∃ (os : List (Idx [p] → XR ℝ)) (sf s0 : Val (XR ℝ)), call (Correlation (p : Int)) (.tup [vBuf (s := [p]) (l.map fun x c => XR.fin (x.1 c.1)), finSeries (l.map Prod.snd)]) none = .ok (vBuf os, sf, s0) ∧
      ∃ hl : os.length = l.length, ∀ i (hi : i < l.length) (j : Fin p),
        (i < p → os[i] (j, ()) = XR.fin 0) ∧
        (p ≤ i → Varies ((lastOf p l i hi).map fun x => x.1 j) → Varies ((lastOf p l i hi).map Prod.snd) → os[i] (j, ()) = XR.fin 0) ∧
        (p ≤ i → ¬ (Varies ((lastOf p l i hi).map fun x => x.1 j) ∧ Varies ((lastOf p l i hi).map Prod.snd)) → os[i] (j, ()) = XR.nan) := by
  classical
  obtain ⟨os, sf, s0, h1, hl, h2⟩ := C86_misaligned (α := XR ℝ) hp (l := l.map fun x => ((fun c : Idx [p] => XR.fin (x.1 c.1)), XR.fin x.2)) (by simpa using h0)
  rw [List.length_map] at hl
  simp only [List.map_map, Function.comp_def] at h1
  have key : ∀ i (hi : i < l.length) (j : Fin p), p ≤ i → os[i] (j, ()) = if Varies ((lastOf p l i hi).map fun x => x.1 j) ∧ Varies ((lastOf p l i hi).map Prod.snd) then XR.fin 0 else XR.nan := by
    intro i hi j h
    rw [h2 i (by simpa using hi), dif_neg (by omega)]
    have : lastOf p l i hi ≠ [] := by simp [lastOf]; omega
    rw [← misaligned_fin (xs := (lastOf p l i hi).map fun x => x.1 j) (ys := (lastOf p l i hi).map Prod.snd) (by simpa [lastOf] using this) (by simpa [lastOf] using this) (l[i - j]'(by omega)).2]
    simp [lastOf, Function.comp_def]
  refine ⟨os, sf, s0, by simpa [finSeries, Function.comp_def] using h1, hl, fun i hi j => ⟨fun h => ?_, fun h v1 v2 => ?_, fun h hv => ?_⟩⟩
  · rw [h2 i (by simpa using hi), dif_pos h]; simp
  · rw [key i hi j h, if_pos ⟨v1, v2⟩]
  · rw [key i hi j h, if_neg hv]
example := C86_uninformative (p := 2) (by norm_num) (l := [((fun j => j.1), 5), ((fun j => 2 * j.1), 7), ((fun _ => 3), 7)]) (by simp)

/-- **C86, CrossCorrelation** rejects samples of different shapes. -/
theorem C86_cross {p lag : Int} (hst : s ≠ t) {l : List ((Idx s → α) × (Idx t → α))} :
    ¬ ∃ r, call (CrossCorrelation p lag : Operator α) (.tup [vBuf (l.map Prod.fst), vBuf (l.map Prod.snd)]) none = .ok r := by
  rintro ⟨⟨outs, sf, s0⟩, h⟩
  obtain ⟨hf, x, xs, hin, o, n, i, h1, -⟩ := (C01_library (Lib.basic (.crossCorrelation p lag)) (twoShapes_ok l).1 (by simp) _ _ _).1 h
  have e := (twoShapes_ok l).2.2.det hf hin
  obtain ⟨y, l', rfl⟩ : ∃ y l', l = y :: l' := List.exists_cons_of_ne_nil (by rintro rfl; simp at e)
  simp only [List.map_cons, List.cons.injEq] at e
  obtain ⟨rfl, -⟩ := e
  have h1 := ((call_step_ok (by simp [WF_tup]) (by simp)).1 h1).2.2
  have hd : ∃ e, decFs s (vF y.2) = .error e := by
    rcases hr : decFs s (vF y.2) with e | v
    · exact ⟨e, rfl⟩
    · rw [decFs_ok] at hr
      simp at hr
      exact absurd hr.1.symm hst
  obtain ⟨e, hd⟩ := hd
  simp [CrossCorrelation, streamable, unpackArgs, arity, hd] at h1
example := C86_cross (α := XR ℚ) (p := 2) (lag := 1) (s := [2]) (t := []) (by simp) (l := [((fun _ => .fin 1), pt (.fin 5))])

end TS
