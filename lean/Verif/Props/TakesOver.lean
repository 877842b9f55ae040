import Verif.Spec.TakesOver
import Verif.Props.Handover
/-
C93: operators that are called with a state of another period.
-/
namespace TS
open PyVal

section
variable {α A C : Type}

theorem not_lt_one {xs : List A} {x : A} (hx : xs ≠ []) : ¬ xs.length < [x].length := by
  have := List.length_pos_iff.2 hx
  simpa using hx

theorem takesOver_of {op op' : Operator α} {enc : A → Val α} {out st : List A → Val α} (T : Tracks op Any enc out st)
    {ser : List A → Val α} (hs : ∀ l, (ser l).WF ∧ flatten (ser l) ≠ [] ∧ IsSeries (ser l) (l.map enc)) {n : Nat}
    {out' st' : List A → List A → Val α} (T' : ∀ xs, xs ≠ [] → n ≤ xs.length → Tracks op' (fun h => xs.length < h.length ∧ xs <+: h) enc (out' xs) (st' xs) ∧ st' xs xs = st xs)
    {outs : List C → Val α} {dec : C → Val α} (ho : ∀ l, IsSeries (outs l) (l.map dec)) {y : List A → List A → C} (hy : ∀ xs ys, out' xs (xs ++ ys) = dec (y xs ys)) :
    TakesOver op op' ser outs n y := by
  intro xs hx hn
  obtain ⟨z, h1, _⟩ := T.call_fresh hx (fun _ _ _ => trivial) (hs xs).1 (hs xs).2.1 (hs xs).2.2
  obtain ⟨T1, e⟩ := T' xs hx hn
  refine ⟨z, _, _, h1, fun ys hys => ⟨st' xs (xs ++ ys), ?_⟩⟩
  rw [← e]
  refine T1.eval_resume hys (fun k hk hk' => ?_) (hs ys).1 (hs ys).2.1 (hs ys).2.2 ?_
  · refine ⟨?_, List.prefix_append _ _⟩
    rw [List.length_append, List.length_take]; omega
  · have := ho ((List.range ys.length).map fun i => y xs (ys.take (i + 1)))
    rw [List.map_map] at this
    have e : scan (out' xs) xs ys = (List.range ys.length).map (dec ∘ fun i => y xs (ys.take (i + 1))) := by
      rw [scan]; exact List.map_congr_left fun i _ => hy _ _
    rw [e]; exact this

end

variable {α : Type} [TFNum α] {s : List Nat} {p q : Nat}

/-- **C93 Lag**: once there is a state, the period no longer matters: `Lag(p)` goes on as `Lag(q)`. -/
theorem C93_lag (hq : 0 < q) : TakesOver (Lag (q : Int) : Operator α) (Lag (p : Int)) (vBuf (s := s)) vBuf 0 (fun h k => lagged Arith.zero q (h ++ k)) :=
  takesOver_of (lag_tracks hq s) rows_ok (out' := fun _ h => vF (lagged Arith.zero q h)) (st' := fun _ h => vBuf (padded Arith.zero q h)) (fun xs hx _ => ⟨{
    first := fun x hx' => absurd hx'.1 (not_lt_one hx)
    next := fun h x _ => by
      have := lastLeaf_pack (α := α) Leaf.f (fun t i => ⟨rfl, rfl⟩) (l := padded (Arith.zero : Idx s → α) q h) (by simpa using hq)
      simp [Lag, streamable, unpackArgs, arity, lagStep, this, rollLeaf, roll_padded hq, lagged_eq hq]
    enc_ok := (lag_tracks hq s).enc_ok
    out_ok := (lag_tracks (α := α) hq s).out_ok
    st_ok := (lag_tracks (α := α) hq s).st_ok }, rfl⟩) isSeries_vBuf (fun _ _ => rfl)
example := C93_lag (α := XR ℚ) (s := [2]) (p := 3) (q := 2) (by norm_num)

/-- one step of `SimpleMovingAverage(p)` from a state of `SimpleMovingAverage(q)` -/
theorem sma_mixed (hq : 0 < q) {h : List (Idx s → α)} (hh : h ≠ []) (x : Idx s → α) : call (SMA (p : Int)) (vF x) (some (bufState q h)) false =
    .ok (vF (if (h ++ [x]).length < p then Arith.zero else Arith.sum (padded Arith.zero q (h ++ [x])) / Arith.ofInt (p : Int)), bufState q (h ++ [x]), bufState q h) := by
  have T : Tracks (SMA (p : Int) : Operator α) (fun h : List (Idx s → α) => 1 < h.length) vF
      (fun h => vF (if h.length < p then Arith.zero else Arith.sum (padded Arith.zero q h) / Arith.ofInt (p : Int))) (bufState q) := {
    first := fun x hx => by simp at hx
    next := fun h x _ => by
      simp [SMA, bufferOp, streamable, unpackArgs, arity, smaStep, roll_padded hq, bufState]
      exact if_congr (by omega) rfl rfl
    enc_ok := (sma_tracks hq s).enc_ok
    out_ok := ⟨.leaf (.float, s), fun h _ => ⟨by simp, rfl⟩⟩
    st_ok := ⟨_, bufState_ok q⟩ }
  have := List.length_pos_iff.2 hh
  exact T.step_next (by simp; omega)

/-- **C93 SimpleMovingAverage**: the sum of the last `q` samples is divided by `p`, from the `p`-th sample on. -/
theorem C93_sma (hq : 0 < q) : TakesOver (SMA (q : Int) : Operator α) (SMA (p : Int)) (vBuf (s := s)) vBuf 0
    (fun h k => if (h ++ k).length < p then Arith.zero else Arith.sum (padded Arith.zero q (h ++ k)) / Arith.ofInt (p : Int)) :=
  takesOver_of (sma_tracks hq s) rows_ok (out' := fun _ h => vF (if h.length < p then Arith.zero else Arith.sum (padded Arith.zero q h) / Arith.ofInt (p : Int)))
    (st' := fun _ => bufState q) (fun xs hx _ => ⟨{
      first := fun x hx' => absurd hx'.1 (not_lt_one hx)
      next := fun h x _ => by
        simp [SMA, bufferOp, streamable, unpackArgs, arity, smaStep, roll_padded hq, bufState]
        exact if_congr (by omega) rfl rfl
      enc_ok := (sma_tracks hq s).enc_ok
      out_ok := ⟨.leaf (.float, s), fun h _ => ⟨by simp, rfl⟩⟩
      st_ok := ⟨_, bufState_ok q⟩ }, rfl⟩) isSeries_vBuf (fun _ _ => rfl)
example := C93_sma (α := XR ℚ) (s := [2]) (p := 3) (q := 2) (by norm_num)

/-- **C93 MovingStandardDeviation**: that of the last `q` samples, from the `p`-th sample on. -/
theorem C93_msd (hq : 0 < q) : TakesOver (MSD (q : Int) : Operator α) (MSD (p : Int)) (vBuf (s := s)) vBuf 0
    (fun h k => if (h ++ k).length < p then Arith.zero else Arith.sqrt (Arith.moments (padded Arith.zero q (h ++ k))).2) :=
  takesOver_of (msd_tracks hq s) rows_ok (out' := fun _ h => vF (if h.length < p then Arith.zero else Arith.sqrt (Arith.moments (padded Arith.zero q h)).2))
    (st' := fun _ => bufState q) (fun xs hx _ => ⟨{
      first := fun x hx' => absurd hx'.1 (not_lt_one hx)
      next := fun h x _ => by
        simp [MSD, bufferOp, streamable, unpackArgs, arity, msdStep, roll_padded hq, bufState]
        exact if_congr (by omega) rfl rfl
      enc_ok := (msd_tracks hq s).enc_ok
      out_ok := ⟨.leaf (.float, s), fun h _ => ⟨by simp, rfl⟩⟩
      st_ok := ⟨_, bufState_ok q⟩ }, rfl⟩) isSeries_vBuf (fun _ _ => rfl)
example := C93_msd (α := XR ℚ) (s := [2]) (p := 3) (q := 2) (by norm_num)

/-- local extrema: those of the last `q` samples, unless at least `p` but fewer than `q` have come, when the zeros in the buffer count -/
theorem localExtremum_takesOver (red : List α → α) (redI : List Int → Int) (hq : 0 < q) : TakesOver (localExtremum red redI (q : Int)) (localExtremum red redI (p : Int)) vSBuf vSBuf 0
    (fun h k => red (if (h ++ k).length < p then window q (h ++ k) else padded Arith.zero q (h ++ k))) := by
  refine takesOver_of (localExtremum_tracks red redI hq) nums_ok (out' := fun _ h => vS (red (if h.length < p then window q h else padded Arith.zero q h)))
    (st' := fun _ => sbufState q) (fun xs hx _ => ⟨{
      first := fun x hx' => absurd hx'.1 (not_lt_one hx)
      next := fun h x _ => ?_
      enc_ok := (localExtremum_tracks red redI hq).enc_ok
      out_ok := ⟨.leaf (.float, []), fun h _ => ⟨by simp, rfl⟩⟩
      st_ok := ⟨_, sbufState_ok q⟩ }, rfl⟩) isSeries_vSBuf (fun _ _ => rfl)
  have e : localExtremumStep Arith.zero red p x (some (padded Arith.zero q h)) (some (h.length : Int)) =
      .ok (red (if (h ++ [x]).length < p then window q (h ++ [x]) else padded Arith.zero q (h ++ [x])), (padded Arith.zero q (h ++ [x]), ((h ++ [x]).length : Int)), (padded Arith.zero q h, (h.length : Int))) := by
    simp only [localExtremumStep, pure_eq_ok, ok_bind, Option.getD_some, shift_padded hq]
    by_cases hp : (h ++ [x]).length < p
    · rw [if_pos hp, if_pos (by simp at hp; omega)]
      by_cases hh : (h ++ [x]).length ≤ q
      · rw [pyTake_padded hh (by simp), List.length_append]; simp
      · rw [padded_eq_window (by omega), pyTake, if_neg (by omega), List.take_of_length_le (by simp [window])]; simp
    · rw [if_neg hp, if_neg (by simp at hp; omega)]; simp
  simp [localExtremum, localArgs, streamable, unpackArgs, arity, e, sbufState]

/-- **C93 LocalMinimum** -/
theorem C93_local_min (hq : 0 < q) : TakesOver (LocalMinimum (q : Int) : Operator α) (LocalMinimum (p : Int)) vSBuf vSBuf 0
    (fun h k => Arith.redMin (if (h ++ k).length < p then window q (h ++ k) else padded Arith.zero q (h ++ k))) := localExtremum_takesOver _ _ hq
example := C93_local_min (α := XR ℚ) (p := 3) (q := 5) (by norm_num)
-- 4, then 5 with a shorter period: neither is the result
example : (do let (_, s, _) ← call (LocalMinimum 3) (vSBuf [XR.fin (4 : ℚ)]) none
              let (o, _, _) ← call (LocalMinimum 2) (vSBuf [XR.fin (5 : ℚ)]) (some s)
              pure o) = .ok (vSBuf [XR.fin (0 : ℚ)]) := by decide +kernel

/-- **C93 LocalMaximum** -/
theorem C93_local_max (hq : 0 < q) : TakesOver (LocalMaximum (q : Int) : Operator α) (LocalMaximum (p : Int)) vSBuf vSBuf 0
    (fun h k => Arith.redMax (if (h ++ k).length < p then window q (h ++ k) else padded Arith.zero q (h ++ k))) := localExtremum_takesOver _ _ hq
example := C93_local_max (α := XR ℚ) (p := 3) (q := 5) (by norm_num)

/-- **C93 ExponentialMovingAverage**: goes on from the old average with the new weight, if both averages have got all the samples they start with. -/
theorem C93_ema (hq : 0 < q) : TakesOver (EMA (q : Int) : Operator α) (EMA (p : Int)) (vBuf (s := s)) vBuf (max p q)
    (fun h k => k.foldl (fun e x => x * Arith.ofRat (2 / ((p : ℚ) + 1)) + e * Arith.ofRat (1 - 2 / ((p : ℚ) + 1))) (expAvg q h)) := by
  refine takesOver_of (ema_tracks hq s) rows_ok
    (out' := fun xs h => vF ((h.drop xs.length).foldl (fun e x => x * Arith.ofRat (2 / ((p : ℚ) + 1)) + e * Arith.ofRat (1 - 2 / ((p : ℚ) + 1))) (expAvg q xs)))
    (st' := fun xs => avgState q fun h => (h.drop xs.length).foldl (fun e x => x * Arith.ofRat (2 / ((p : ℚ) + 1)) + e * Arith.ofRat (1 - 2 / ((p : ℚ) + 1))) (expAvg q xs))
    (fun xs hx hn => ⟨{
      first := fun x hx' => absurd hx'.1 (not_lt_one hx)
      next := fun h x hV => ?_
      enc_ok := (ema_tracks hq s).enc_ok
      out_ok := ⟨.leaf (.float, s), fun h _ => ⟨by simp, rfl⟩⟩
      st_ok := ⟨_, avgState_ok q _⟩ }, by simp [avgState]⟩) isSeries_vBuf (fun xs ys => by simp)
  have hl : xs.length ≤ h.length := by have := hV.1; simp at this; omega
  have h2 : (h ++ [x]).drop xs.length = h.drop xs.length ++ [x] := List.drop_append_of_le_length hl
  have h3 : (h ++ [x]).take q = h.take q := List.take_append_of_le_length (by omega)
  have hne : h.take q ≠ [] := by
    have := List.length_pos_iff.2 hx
    rw [← List.length_pos_iff, List.length_take]; omega
  have hb : ¬ h.length < p := by omega
  simp [EMA, streamable, unpackArgs, arity, sma_mixed hq hne, avgState, h2, h3]
  rw [tfCond_tup2 (tx := .leaf .float) (ty := .tup [.leaf .int, .leaf .float]) (by simp) (bufState_ok _ _).1 (by simp) (bufState_ok _ _).1
    (HasType_iff.2 rfl) (bufState_ok _ _).2 (HasType_iff.2 rfl) (bufState_ok _ _).2 (by simp [flatten])]
  simp [hb]
example := C93_ema (α := XR ℚ) (s := [2]) (p := 3) (q := 2) (by norm_num)

/-- **C93 RollingMovingAverage**: goes on from the old average with the new weight, if both averages have got all the samples they start with. -/
theorem C93_rma (hq : 0 < q) : TakesOver (RMA (q : Int) : Operator α) (RMA (p : Int)) (vBuf (s := s)) vBuf (max p q)
    (fun h k => k.foldl (fun e x => (e * Arith.ofInt ((p : Int) - 1) + x) / Arith.ofInt (p : Int)) (rollAvg q h)) := by
  refine takesOver_of (rma_tracks hq s) rows_ok
    (out' := fun xs h => vF ((h.drop xs.length).foldl (fun e x => (e * Arith.ofInt ((p : Int) - 1) + x) / Arith.ofInt (p : Int)) (rollAvg q xs)))
    (st' := fun xs => avgState q fun h => (h.drop xs.length).foldl (fun e x => (e * Arith.ofInt ((p : Int) - 1) + x) / Arith.ofInt (p : Int)) (rollAvg q xs))
    (fun xs hx hn => ⟨{
      first := fun x hx' => absurd hx'.1 (not_lt_one hx)
      next := fun h x hV => ?_
      enc_ok := (rma_tracks hq s).enc_ok
      out_ok := ⟨.leaf (.float, s), fun h _ => ⟨by simp, rfl⟩⟩
      st_ok := ⟨_, avgState_ok q _⟩ }, by simp [avgState]⟩) isSeries_vBuf (fun xs ys => by simp)
  have hl : xs.length ≤ h.length := by have := hV.1; simp at this; omega
  have h2 : (h ++ [x]).drop xs.length = h.drop xs.length ++ [x] := List.drop_append_of_le_length hl
  have h3 : (h ++ [x]).take q = h.take q := List.take_append_of_le_length (by omega)
  have hne : h.take q ≠ [] := by
    have := List.length_pos_iff.2 hx
    rw [← List.length_pos_iff, List.length_take]; omega
  have hb : ¬ h.length < p := by omega
  simp [RMA, streamable, unpackArgs, arity, sma_mixed hq hne, avgState, h2, h3]
  rw [tfCond_tup2 (tx := .leaf .float) (ty := .tup [.leaf .int, .leaf .float]) (by simp) (bufState_ok _ _).1 (by simp) (bufState_ok _ _).1
    (HasType_iff.2 rfl) (bufState_ok _ _).2 (HasType_iff.2 rfl) (bufState_ok _ _).2 (by simp [flatten])]
  simp [hb]
example := C93_rma (α := XR ℚ) (s := [2]) (p := 3) (q := 2) (by norm_num)

end TS
