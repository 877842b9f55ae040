import Verif.Props.Overflow2
import Verif.Lemmas.TrackCorr
/-
C87, continued: lagged correlation.
-/
namespace TS
open PyVal
variable {α : Type} [TFNum α]

section
variable {p lag : Nat} {s : List Nat}

/-- One step of `CrossCorrelation` from any counter. -/
theorem cross_at (hp : 0 < p) (hl : 0 < lag) (n : Int) (x : (Idx s → α) × (Idx s → α)) (g : List ((Idx s → α) × (Idx s → α))) (b : List (Idx s → α)) (hb : b.length = lag) :
    (CrossCorrelation (p : Int) lag : Operator α).forwardStep (.tup [vF x.1, vF x.2]) (some (.tup [vI n, corrState p g, vBuf b])) =
      .ok (vF (if n < (lag : Int) then Arith.zero else corrOf p (g ++ [(x.1, b[lag - 1]'(by omega))])),
        .tup [vI (n + 1), corrState p (if n < (lag : Int) then g else g ++ [(x.1, b[lag - 1]'(by omega))]), vBuf (roll x.2 b)], .tup [vI n, corrState p g, vBuf b]) := by
  have i0 := pyIndex_last hl hb
  have c0 : tfCond (decide (n < (lag : Int))) (.node .tuple [vF (s := s) fun _ => Arith.zero, corrState p g])
      (.node .tuple [vF (corrOf p (g ++ [(x.1, b[lag - 1]'(by omega))])), corrState p (g ++ [(x.1, b[lag - 1]'(by omega))])]) =
      .ok (.node .tuple [vF (if n < (lag : Int) then Arith.zero else corrOf p (g ++ [(x.1, b[lag - 1]'(by omega))])),
        corrState p (if n < (lag : Int) then g else g ++ [(x.1, b[lag - 1]'(by omega))])]) := by
    refine (tfCond_tup2 (tx := .leaf .float) (by simp) (corrState_ok _).1 (by simp) (corrState_ok _).1
      (HasType_iff.2 rfl) (corrState_ok _).2 (HasType_iff.2 rfl) (corrState_ok _).2 (by simp [flatten])).trans ?_
    by_cases h : n < (lag : Int) <;> simp [h] <;> rfl
  simp [CrossCorrelation, streamable, unpackArgs, arity, orZeros, i0, corr_inner hp]
  rw [c0]
  simp

theorem cross_at_none (hp : 0 < p) (hl : 0 < lag) (x : (Idx s → α) × (Idx s → α)) :
    (CrossCorrelation (p : Int) lag : Operator α).forwardStep (.tup [vF x.1, vF x.2]) none =
      (CrossCorrelation (p : Int) lag : Operator α).forwardStep (.tup [vF x.1, vF x.2])
        (some (.tup [vI 0, corrState p ([] : List ((Idx s → α) × (Idx s → α))), vBuf (s := s) (padded Arith.zero lag [])])) := by
  have i0 := pyIndex_last (l := padded (Arith.zero : Idx s → α) lag []) hl (by simp)
  simp [CrossCorrelation, streamable, unpackArgs, arity, orZeros, zerosBuf_natCast, i0, corr_inner_none hp, corr_inner hp]

/-- the state of `CrossCorrelation` with int32 counters, up to `2^32` samples: the inner correlation is not updated from sample `2^31` on -/
def crossState32 (p lag : Nat) {s : List Nat} (h : List ((Idx s → α) × (Idx s → α))) : Val α :=
  .tup [vI (wrap32 h.length), corrState p (lagPairs lag (h.take (2 ^ 31))), vBuf (padded Arith.zero lag (h.map Prod.snd))]

theorem cross32_next (hp : 0 < p) (hl : 0 < lag) (h : List ((Idx s → α) × (Idx s → α))) (x : (Idx s → α) × (Idx s → α)) (hb : h.length < 2 ^ 32) :
    (CrossCorrelation (p : Int) lag : Operator α).int32.forwardStep (.tup [vF x.1, vF x.2]) (some (crossState32 p lag h)) =
      .ok (vF (if 2 ^ 31 ≤ h.length then Arith.zero else crossOf p lag (h ++ [x])), crossState32 p lag (h ++ [x]), crossState32 p lag h) := by
  have w : ∀ (n : Int) (g : List ((Idx s → α) × (Idx s → α))) (b : List (Idx s → α)), g.length < 2 ^ 31 →
      wrapVal (.tup [vI n, corrState p g, vBuf b]) = .tup [vI (wrap32 n), corrState p g, vBuf b] := fun n g b hg => by
    show PyVal.tup [vI (wrap32 n), .tup [vI (wrap32 g.length), vBuf _, vBuf _], vBuf _] = _
    rw [wrap32_of_small (n := g.length) (by omega)]
    rfl
  have hc : wrap32 h.length < (lag : Int) ↔ h.length < lag ∨ 2 ^ 31 ≤ h.length := by rw [wrap32_lt, Cold, Nat.mod_eq_of_lt hb]
  have e1 : (if wrap32 h.length < (lag : Int) then lagPairs lag (h.take (2 ^ 31)) else
      lagPairs lag (h.take (2 ^ 31)) ++ [(x.1, (padded Arith.zero lag (h.map Prod.snd))[lag - 1]'(by simp; omega))]) = lagPairs lag ((h ++ [x]).take (2 ^ 31)) := by
    simp only [hc]
    by_cases h2 : 2 ^ 31 ≤ h.length
    · rw [if_pos (.inr h2), List.take_append_of_le_length h2]
    · rw [List.take_of_length_le (by omega), List.take_of_length_le (l := h ++ [x]) (by simp; omega)]
      by_cases h1 : h.length < lag
      · rw [if_pos (.inl h1), lagPairs_short (by omega), lagPairs_short (by simp; omega)]
      · rw [if_neg (by omega), lagPairs_snoc hl (by omega) Arith.zero]
  have e2 : (if wrap32 h.length < (lag : Int) then Arith.zero else
      corrOf p (lagPairs lag (h.take (2 ^ 31)) ++ [(x.1, (padded Arith.zero lag (h.map Prod.snd))[lag - 1]'(by simp; omega))])) =
      if 2 ^ 31 ≤ h.length then Arith.zero else crossOf p lag (h ++ [x]) := by
    simp only [hc]
    by_cases h2 : 2 ^ 31 ≤ h.length
    · rw [if_pos (.inr h2), if_pos h2]
    · rw [if_neg h2, List.take_of_length_le (by omega), crossOf]
      by_cases h1 : h.length < lag
      · rw [if_pos (.inl h1), lagPairs_short (h := h ++ [x]) (by simp; omega), corrOf, if_pos (by simp)]
      · rw [if_neg (by omega), lagPairs_snoc hl (by omega) Arith.zero]
  rw [crossState32, int32_step (cross_at hp hl _ _ _ _ (by simp)), e1, e2, w _ _ _ (by simp; omega), w _ _ _ (by simp; omega), roll_padded hl, wrap32_wrap32, wrap32_add_one,
    wrapVal_leaf, Leaf.wrap32_f, crossState32, List.length_append, List.length_singleton, Int.natCast_add, Int.natCast_one, List.map_append]
  rfl

theorem cross32_tracks (hp : 0 < p) (hl : 0 < lag) : Tracks (CrossCorrelation (p : Int) lag : Operator α).int32 (fun h => h.length ≤ 2 ^ 32)
    (fun x : (Idx s → α) × (Idx s → α) => .tup [vF x.1, vF x.2]) (fun h => vF (if 2 ^ 31 < h.length then Arith.zero else crossOf p lag h)) (crossState32 p lag) := by
  have e : ∀ (h : List ((Idx s → α) × (Idx s → α))) x, 2 ^ 31 < (h ++ [x]).length ↔ 2 ^ 31 ≤ h.length := by intro h x; simp [Nat.lt_succ_iff]
  refine ⟨fun x hV => ?_, fun h x hV => ?_, fun x => ⟨by simp [WF_tup], by simp [Tensors, flatten, flattens]⟩, ⟨.leaf (.float, s), fun h _ => ⟨by simp, rfl⟩⟩,
    ⟨.tup [.leaf .int, .tup [.leaf .int, .leaf .float, .leaf .float], .leaf .float], fun h => ⟨by simp [crossState32, corrState, WF_tup], HasType_iff.2 rfl⟩⟩⟩
  · have := cross32_next hp hl [] x (by simp)
    rw [List.nil_append] at this
    have e0 := e [] x
    rw [List.nil_append] at e0
    simp only [e0]
    rw [← this, crossState32, List.length_nil, Int.natCast_zero, wrap32_zero]
    simp only [Operator.int32, cross_at_none hp hl, List.take_nil, List.map_nil, lagPairs_short (h := ([] : List ((Idx s → α) × (Idx s → α)))) (Nat.zero_le lag)]
  · simp only [e]
    exact cross32_next hp hl h x (by simp at hV; omega)

/-- Cross-correlation: zero from sample `2^31` on (up to `2^32` samples). -/
theorem C87_crossCorrelation (hp : 0 < p) (hl : 0 < lag) {xs : List ((Idx s → α) × (Idx s → α))} (hx : xs ≠ []) (hb : xs.length ≤ 2 ^ 32) :
    ∃ os sf s0, call (CrossCorrelation (p : Int) lag).int32 (vBuf2 xs) none = .ok (vBuf os, sf, s0) ∧ ∃ _ : os.length = xs.length, ∀ i (hi : i < xs.length),
      os[i] = if 2 ^ 31 ≤ i then Arith.zero else crossOf p lag (xs.take (i + 1)) := by
  have hz := isSeries_vBuf (scan (fun h => if 2 ^ 31 < h.length then Arith.zero else crossOf p lag h) [] xs)
  rw [scan_map] at hz
  refine ⟨_, _, _, (cross32_tracks hp hl).eval hx (fun k _ hk => ?_) (pairs_ok xs).1 (pairs_ok xs).2.1 (pairs_ok xs).2.2 hz, by simp, fun i hi => ?_⟩
  · simp only [List.length_take]; omega
  · simp only [scan_getElem, List.nil_append, List.length_take, Nat.min_eq_left (show i + 1 ≤ xs.length from hi), Nat.lt_succ_iff]
example := C87_crossCorrelation (α := XR ℚ) (p := 2) (lag := 1) (by norm_num) (by norm_num) (xs := List.replicate (2 ^ 31 + 5) (pt (XR.fin 1), pt (XR.fin 2))) (by
  rw [← List.length_pos_iff, List.length_replicate]; norm_num) (by rw [List.length_replicate]; norm_num)

end
end TS
