import Verif.Props.MixedShapes
import Verif.Props.AtrVectors
import Verif.Props.Accepts
/-
C43 for candles whose prices have different shapes: AverageTrueRange broadcasts the low and the high price to the shape of the closing price.
-/
namespace TS
open PyVal
variable {α : Type} [TFNum α] {s t u : List Nat} {p : Nat}

/-- a candle whose close, low and high have the shapes `s`, `t` and `u` -/
abbrev MixedCandle (α : Type) (s t u : List Nat) := (Idx s → α) × (Idx t → α) × (Idx u → α)

/-- one such candle as a sample -/
def encMixed (c : MixedCandle α s t u) : Val α := .tup [vF c.1, vF c.2.1, vF c.2.2]

/-- a series of them -/
def mixedCandles (l : List (MixedCandle α s t u)) : Val α := .tup [vBuf (l.map fun c => c.1), vBuf (l.map fun c => c.2.1), vBuf (l.map fun c => c.2.2)]

/-- the candle in which the low and the high price were copied to every element of the closing price -/
def expandCandle (g : Idx s → Idx t) (g' : Idx s → Idx u) (c : MixedCandle α s t u) : CLH (Idx s → α) := ⟨c.1, fun i => c.2.1 (g i), fun i => c.2.2 (g' i)⟩

omit [TFNum α] in
theorem mixedCandles_ok (l : List (MixedCandle α s t u)) : (mixedCandles l).WF ∧ flatten (mixedCandles l) ≠ [] ∧ IsSeries (mixedCandles l) (l.map encMixed) := by
  refine ⟨by simp [WF_tup, mixedCandles], by simp [flatten, flattens, PyVal.tup, mixedCandles], ?_⟩
  have h {r : List Nat} (f : MixedCandle α s t u → Idx r → α) : IsSeries (vBuf (l.map f)) (l.map fun x => vF (f x)) := by
    have := isSeries_vBuf (l.map f); rwa [List.map_map] at this
  exact isSeries_tup_map (A := MixedCandle α s t u) (es := [fun x => vF x.1, fun x => vF x.2.1, fun x => vF x.2.2])
    (.cons (h _) (.cons (h _) (.cons (h _) .nil)))

theorem Broadcasts.absorb {a b r : List Nat} (h : Broadcasts a b r) : Broadcasts a r r ∧ Broadcasts b r r := by
  obtain ⟨hl, hd⟩ := h
  refine ⟨⟨by omega, fun j hj => ?_⟩, ⟨by omega, fun j hj => ?_⟩⟩
  all_goals
    rcases hd j hj with ⟨h1, h2⟩ | ⟨h1, h2⟩ | ⟨h1, h2⟩ <;> omega

theorem bcIdx_of {a b r : List Nat} (h : Broadcasts a b r) : ∃ g, bcIdx r a = .ok g ∧ ∀ c, Idx.toList a (g c) = readAt a (Idx.toList r c) :=
  bcIdx_ok (by have := h.1; omega) fun j hj => by have := h.2 j (by have := h.1; omega); omega

theorem trueRangeT_mixed (h : Broadcasts u t s) {g : Idx s → Idx t} {g' : Idx s → Idx u} (hg : bcIdx s t = .ok g) (hg' : bcIdx s u = .ok g')
    (low : Idx t → α) (high : Idx u → α) (last : Idx s → α) :
    trueRangeT ⟨t, low⟩ ⟨u, high⟩ ⟨s, last⟩ = trueRangeT ⟨s, fun i => low (g i)⟩ ⟨s, fun i => high (g' i)⟩ ⟨s, last⟩ := by
  simp [trueRangeT, rangeToClose, broadcast, bcShape_iff.2 h, bcShape_iff.2 h.absorb.1, bcShape_iff.2 (Broadcasts.absorb h).2, hg, hg', bcShape_same, bcIdx_same]

theorem trueRangeT_shapes {low high last : Tensor α} {x : α} (h : trueRangeT low high last = .ok x) : Broadcasts high.shape low.shape last.shape := by
  simp only [trueRangeT, rangeToClose, bind_eq_ok] at h
  obtain ⟨hl, h1, hcp, ⟨_, -, _, -, h2⟩, lcp, ⟨_, -, _, -, h3⟩, w, h4, -⟩ := h
  cases h2; cases h3
  simp only [Tensor.stack, bind_eq_ok] at h4
  obtain ⟨ls, h5, -⟩ := h4
  simp only [List.mapM_cons, bind_eq_ok] at h5
  obtain ⟨_, -, _, ⟨y, h6, -⟩, -⟩ := h5
  rw [Tensor.asShape_eq_ok] at h6
  have := congrArg Tensor.shape h6
  simp only at this
  rw [this]
  exact broadcast_shape h1

theorem mixedCandle_tracks (hp : 0 < p) (h : Broadcasts u t s) {g : Idx s → Idx t} {g' : Idx s → Idx u} (hg : bcIdx s t = .ok g) (hg' : bcIdx s u = .ok g') :
    Tracks (ATR (p : Int) : Operator α) Any (encMixed (s := s) (t := t) (u := u)) (fun l => vS (rollAvg p (rangesOver (l.map (expandCandle g g')))))
      (fun l => atrsState p (l.map (expandCandle g g'))) := by
  have T := atrs_tracks (α := α) (s := s) hp
  have e0 : ∀ c : MixedCandle α s t u, (ATR (p : Int)).forwardStep (encMixed c) none = (ATR (p : Int)).forwardStep (encCLHs (expandCandle g g' c)) none := by
    intro c
    simp only [ATR, streamable, unpackArgs, arity, encCLHs, encMixed, PyVal.tup, expandCandle]
    simp [trueRangeT_mixed h hg hg']
  have e1 : ∀ (c : MixedCandle α s t u) (d : Idx s → α) (r : Val α), (ATR (p : Int)).forwardStep (encMixed c) (some (.tup [vF d, r])) = (ATR (p : Int)).forwardStep (encCLHs (expandCandle g g' c)) (some (.tup [vF d, r])) := by
    intro c d r
    simp only [ATR, streamable, unpackArgs, arity, encCLHs, encMixed, PyVal.tup, expandCandle]
    simp [trueRangeT_mixed h hg hg']
  constructor
  · intro x hx
    rw [e0]
    exact T.1 (expandCandle g g' x) trivial
  · intro l x hx
    have := T.2 (l.map (expandCandle g g')) (expandCandle g g' x) trivial
    rw [List.map_append, List.map_cons, List.map_nil, ← this]
    exact e1 _ _ _
  · exact fun c => ⟨by simp [WF_tup, encMixed], by simp [Tensors, flatten, flattens, encMixed]⟩
  · exact ⟨.leaf (.float, []), fun h _ => ⟨by simp, rfl⟩⟩
  · exact ⟨_, fun l => atrsState_ok p _⟩

/-- **C43, prices of different shapes, every arithmetic**: if the shapes of the high and of the low price broadcast to that of the close, the output is that of the candles
in which both are copied to all elements of the close. -/
theorem C43_mixed_streams (hp : 0 < p) (h : Broadcasts u t s) :
    ∃ (g : Idx s → Idx t) (g' : Idx s → Idx u), (∀ c, Idx.toList t (g c) = readAt t (Idx.toList s c)) ∧ (∀ c, Idx.toList u (g' c) = readAt u (Idx.toList s c)) ∧
      StreamsAs (ATR (p : Int) : Operator α) (mixedCandles (s := s) (t := t) (u := u)) vSBuf fun l => rollAvg p (rangesOver (l.map (expandCandle g g'))) := by
  obtain ⟨g', h1, h2⟩ := bcIdx_of h
  obtain ⟨g, h3, h4⟩ : ∃ g, bcIdx s t = .ok g ∧ ∀ c, Idx.toList t (g c) = readAt t (Idx.toList s c) := bcIdx_of h.absorb.2
  exact ⟨g, g', h4, h2, (mixedCandle_tracks hp h h3 h1).streams mixedCandles_ok isSeries_vSBuf fun _ => rfl⟩
/-- two closing prices, one low price, two high prices -/
theorem broadcasts_example : Broadcasts [2] [] [2] := by
  refine ⟨rfl, ?_⟩
  intro j hj
  have : j = 0 := by simp at hj; omega
  subst this
  simp [axis]
example := C43_mixed_streams (α := XR ℚ) (p := 14) (by norm_num) broadcasts_example

/-- **C43, prices of different shapes**: no other shapes are accepted, whether or not they are known when the graph is built. -/
theorem C43_mixed_iff (hp : 0 < p) {v : Val α} {n : Nat} (hv : SeriesOf (.tup [tF s, tF t, tF u]) v n) :
    ((∃ r, call (ATR (p : Int)) v none = .ok r) ↔ Broadcasts u t s) ∧ ((∃ r, callStatic (ATR (p : Int)) v none = .ok r) ↔ Broadcasts u t s) := by
  refine accepts_iff hv (basic_regular (.atr _)) (fun h => ?_) fun h x hx => ?_
  · obtain ⟨g', h1, h2⟩ := bcIdx_of h
    obtain ⟨g, h3, h4⟩ := bcIdx_of h.absorb.2
    refine ⟨tF [], .tup [tF s, tAvg p []], (mixedCandle_tracks hp h h3 h1).steady (O := tF []) (fun x hx => ?_) (fun _ _ => rfl) fun h => by simp only [atrsState]; sig⟩
    obtain ⟨xs, rfl, h'⟩ := hasSig_tup_inv hx
    rcases h' with _ | ⟨k1, _ | ⟨k2, _ | ⟨k3, ⟨⟩⟩⟩⟩
    obtain ⟨a, rfl⟩ := hasSig_tF k1
    obtain ⟨b, rfl⟩ := hasSig_tF k2
    obtain ⟨c, rfl⟩ := hasSig_tF k3
    exact ⟨⟨a, b, c⟩, rfl⟩
  · obtain ⟨xs, rfl, h'⟩ := hasSig_tup_inv hx
    rcases h' with _ | ⟨k1, _ | ⟨k2, _ | ⟨k3, ⟨⟩⟩⟩⟩
    obtain ⟨a, rfl⟩ := hasSig_tF k1
    obtain ⟨b, rfl⟩ := hasSig_tF k2
    obtain ⟨c, rfl⟩ := hasSig_tF k3
    rcases e : trueRangeT ⟨t, b⟩ ⟨u, c⟩ ⟨s, fun _ => (Arith.zero : α)⟩ with e' | y
    · exact ⟨e', by simp [ATR, streamable, unpackArgs, arity, PyVal.tup, e]⟩
    · exact absurd (trueRangeT_shapes e) h
/-- two candles of this kind -/
abbrev someMixed : List (MixedCandle (XR ℚ) [2] [] [2]) := [(fun c => .fin (c.1 + 1 : ℚ), pt (.fin 1), fun c => .fin (c.1 + 4 : ℚ)), (fun _ => .fin 3, pt (.fin 2), fun c => .fin (5 * c.1 : ℚ))]
example := C43_mixed_iff (α := XR ℚ) (p := 14) (by norm_num) (s := [2]) (t := []) (u := [2]) (v := mixedCandles someMixed) (n := 2)
  ⟨(mixedCandles_ok _).1, (mixedCandles_ok _).2.1, _, (mixedCandles_ok _).2.2, by simp, rfl, by simp only [List.map_cons, List.map_nil, List.mem_cons]; rintro x (rfl | rfl | h) <;> first | rfl | cases h⟩
/-- what they give -/
example : output (call (ATR 1) (mixedCandles someMixed) none) = .ok (vSBuf [.fin 4, .fin 3]) := by decide +kernel
/-- with a number as the close they are rejected -/
example : call (ATR 1) (.tup [vSBuf [XR.fin (1 : ℚ)], vSBuf [XR.fin 1], vBuf (s := [2]) [fun _ => XR.fin 2]]) none = .error .shape := by decide +kernel

end TS
