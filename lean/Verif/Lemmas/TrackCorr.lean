import Verif.Lemmas.TrackCommon
/-
Cross- and auto-correlation as functions of the history.
-/
namespace TS
open PyVal
variable {α : Type} [TFNum α]

section
variable {E : Type} [Arith E]

@[simp] theorem lagPairs_length (lag : Nat) (h : List (E × E)) : (lagPairs lag h).length = h.length - lag := by
  simp [lagPairs]

theorem lagPairs_short {lag : Nat} {h : List (E × E)} (hh : h.length ≤ lag) : lagPairs lag h = [] := by
  apply List.eq_nil_of_length_eq_zero; simp; omega

theorem lagPairs_snoc {lag : Nat} (hl : 0 < lag) {h : List (E × E)} {x : E × E} (hh : lag ≤ h.length) (z : E) :
    lagPairs lag (h ++ [x]) = lagPairs lag h ++ [(x.1, (padded z lag (h.map Prod.snd))[lag - 1]'(by simp; omega))] := by
  rw [padded_getElem (by omega)]
  apply List.ext_getElem
  · simp; omega
  · intro i h1 h2
    simp only [lagPairs_length, List.length_append, List.length_singleton] at h1 h2
    by_cases hi : i < h.length - lag
    · rw [List.getElem_append_left (by simpa using hi)]
      simp only [lagPairs, List.getElem_zip, List.map_append, List.getElem_drop]
      rw [List.getElem_append_left (by simp; omega), List.getElem_append_left (by simp; omega)]
    · rw [List.getElem_append_right (by simp; omega)]
      simp only [lagPairs_length, List.getElem_singleton]
      simp only [lagPairs, List.getElem_zip, List.map_append, List.getElem_drop]
      have : lag + i = h.length := by omega
      rw [List.getElem_append_right (by simp; omega), List.getElem_append_left (by simp; omega)]
      rw [List.getElem?_eq_getElem (by simp; omega)]
      simp only [List.getElem_reverse, Option.getD_some, List.getElem_map, List.length_map]
      have e : i = h.length - 1 - (lag - 1) := by omega
      simp [e]

end

section
variable {p lag : Nat} {s : List Nat}

/-- the state of `CrossCorrelation(p, lag)` -/
def crossState (p lag : Nat) {s : List Nat} (h : List ((Idx s → α) × (Idx s → α))) : Val α :=
  .tup [vI h.length, corrState p (lagPairs lag h), vBuf (padded Arith.zero lag (h.map Prod.snd))]

theorem crossState_ok (h : List ((Idx s → α) × (Idx s → α))) : (crossState p lag h).WF ∧
    HasType (crossState p lag h) (.tup [.leaf .int, .tup [.leaf .int, .leaf .float, .leaf .float], .leaf .float]) :=
  ⟨by simp [crossState, corrState, WF_tup], HasType_iff.2 rfl⟩

/-- output of `CrossCorrelation(p, lag)` -/
def crossOf (p lag : Nat) {E : Type} [Arith E] (h : List (E × E)) : E := corrOf p (lagPairs lag h)

theorem corr_inner (hp : 0 < p) (h : List ((Idx s → α) × (Idx s → α))) (x y : Idx s → α) :
    call (Correlation (p : Int)) (.tup [vF x, vF y]) (some (corrState p h)) false =
      .ok (vF (corrOf p (h ++ [(x, y)])), corrState p (h ++ [(x, y)]), corrState p h) :=
  (corr_tracks hp s).step_next (x := (x, y)) trivial

theorem corr_inner_none (hp : 0 < p) (x y : Idx s → α) :
    call (Correlation (p : Int)) (.tup [vF x, vF y]) none false =
      .ok (vF (corrOf p [(x, y)]), corrState p [(x, y)], corrState p ([] : List ((Idx s → α) × (Idx s → α)))) :=
  (corr_tracks hp s).step_fresh (x := (x, y)) trivial

theorem pyIndex_last {A : Type} {l : List A} {k : Nat} (hk : 0 < k) (hl : l.length = k) :
    pyIndex l ((k : Int) - 1) = .ok (l[k - 1]'(by omega)) := by
  have e : ((k : Int) - 1).toNat = k - 1 := by omega
  simp only [pyIndex]
  rw [if_neg (by omega), if_neg (by omega), e, List.getElem?_eq_getElem (by omega)]

theorem cross_cond (hl : 0 < lag) {h : List ((Idx s → α) × (Idx s → α))} {x : (Idx s → α) × (Idx s → α)} {n : Int} (hn : n = h.length)
    {y : Idx s → α} (hy : y = (padded Arith.zero lag (h.map Prod.snd))[lag - 1]'(by simp; omega)) :
    tfCond (decide (n < (lag : Int))) (.node .tuple [vF (s := s) fun _ => Arith.zero, corrState p (lagPairs lag h)])
      (.node .tuple [vF (corrOf p (lagPairs lag h ++ [(x.1, y)])), corrState p (lagPairs lag h ++ [(x.1, y)])]) =
    .ok (.node .tuple [vF (crossOf p lag (h ++ [x])), corrState p (lagPairs lag (h ++ [x]))]) := by
  subst hn
  refine (tfCond_tup2 (tx := .leaf .float) (by simp) (corrState_ok _).1 (by simp) (corrState_ok _).1
    (HasType_iff.2 rfl) (corrState_ok _).2 (HasType_iff.2 rfl) (corrState_ok _).2 (by simp [flatten])).trans ?_
  by_cases hh : h.length < lag
  · rw [if_pos (by simpa using hh), crossOf, lagPairs_short (h := h ++ [x]) (by simp; omega), lagPairs_short (by omega), corrOf, if_pos (by simp)]
    rfl
  · rw [if_neg (by simpa using hh), crossOf, lagPairs_snoc hl (by omega) Arith.zero, hy]

theorem cross_tracks (hp : 0 < p) (hl : 0 < lag) (s : List Nat) :
    Tracks (CrossCorrelation (p : Int) lag : Operator α) Any (fun x : (Idx s → α) × (Idx s → α) => .tup [vF x.1, vF x.2])
      (fun h => vF (crossOf p lag h)) (crossState p lag) := by
  constructor
  · intro x _
    have c0 := cross_cond (p := p) hl (h := []) (x := x) (n := 0) rfl (y := _) rfl
    have i0 := pyIndex_last (l := padded (Arith.zero : Idx s → α) lag []) hl (by simp)
    simp [CrossCorrelation, streamable, unpackArgs, arity, orZeros, zerosBuf_natCast, i0, corr_inner_none hp, roll_padded hl, crossState]
    have e : lagPairs lag ([] : List ((Idx s → α) × (Idx s → α))) = [] := lagPairs_short (by simp)
    simp only [e, List.map_nil, List.nil_append] at c0
    simp at c0
    simp [c0, e]
  · intro h x _
    have c0 := cross_cond (p := p) hl (h := h) (x := x) (n := h.length) rfl (y := _) rfl
    have i0 := pyIndex_last (l := padded (Arith.zero : Idx s → α) lag (h.map Prod.snd)) hl (by simp)
    simp [CrossCorrelation, streamable, unpackArgs, arity, orZeros, i0, corr_inner hp, roll_padded hl, crossState]
    simp at c0
    simp [c0]
  · intro x; exact ⟨by simp [WF_tup], by simp [Tensors, flatten, flattens]⟩
  · exact ⟨.leaf (.float, s), fun h _ => ⟨by simp, rfl⟩⟩
  · exact ⟨_, crossState_ok⟩

theorem auto_tracks (hp : 0 < p) (hl : 0 < lag) (s : List Nat) :
    Tracks (AutoCorrelation (p : Int) lag : Operator α) Any (fun x : Idx s → α => vF x)
      (fun h => vF (crossOf p lag (h.map fun x => (x, x)))) (fun h => .tup [crossState p lag (h.map fun x => (x, x))]) := by
  constructor
  · intro x _
    have := (cross_tracks (α := α) hp hl s).step_fresh (x := (x, x)) trivial
    simp only at this
    simp [AutoCorrelation, streamable, unpackArgs, arity, this]
  · intro h x _
    have := (cross_tracks (α := α) hp hl s).step_next (h := h.map fun x => (x, x)) (x := (x, x)) trivial
    simp only at this
    simp [AutoCorrelation, streamable, unpackArgs, arity, this]
  · intro x; exact ⟨by simp, by simp [Tensors]⟩
  · exact ⟨.leaf (.float, s), fun h _ => ⟨by simp, rfl⟩⟩
  · exact ⟨_, fun h => ⟨by simp [WF_tup, crossState_ok], hasType_tup (.cons (crossState_ok _).2 .nil)⟩⟩

end
end TS
