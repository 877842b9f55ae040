import Verif.Props.Bands
import Verif.Props.Order
/-
C43 for candles that are vectors or tensors: AverageTrueRange outputs one number for all coordinates.
-/
namespace TS
open PyVal

section
variable {α : Type} [TFNum α] {s : List Nat} {p : Nat}

/-- The largest of the ranges and of the distances from the previous closes, over all coordinates. -/
def rangeOver (prev low high : Idx s → α) : α :=
  Arith.redMax ((Idx.all s).map (fun c => high c - low c) ++
    (Idx.all s).map (fun c => if TFNum.eq (prev c) (Arith.ofRat 0) then Arith.zero else Arith.abs (high c - prev c)) ++
    (Idx.all s).map (fun c => if TFNum.eq (prev c) (Arith.ofRat 0) then Arith.zero else Arith.abs (low c - prev c)))

/-- these numbers for a series of tensor candles -/
def rangesOver (h : List (CLH (Idx s → α))) : List α :=
  List.zipWith (fun prev c => rangeOver prev c.low c.high) ((fun _ => Arith.zero) :: h.map CLH.close) h

/-- the closes before the current candle -/
def closesBefore (h : List (CLH (Idx s → α))) : Idx s → α := (h.map CLH.close).getLastD fun _ => Arith.zero

/-- series of tensor candles -/
abbrev candlesOf (l : List (CLH (Idx s → α))) : Val α := .tup [vBuf (l.map CLH.close), vBuf (l.map CLH.low), vBuf (l.map CLH.high)]

/-- one tensor candle -/
def encCLHs (c : CLH (Idx s → α)) : Val α := .tup [vF c.close, vF c.low, vF c.high]

omit [TFNum α] in
theorem candlesOf_ok (l : List (CLH (Idx s → α))) : (candlesOf l).WF ∧ flatten (candlesOf l) ≠ [] ∧ IsSeries (candlesOf l) (l.map encCLHs) := by
  refine ⟨by simp [WF_tup], by simp [flatten, flattens, PyVal.tup], ?_⟩
  have h (f : CLH (Idx s → α) → Idx s → α) : IsSeries (vBuf (l.map f)) (l.map fun x => vF (f x)) := by
    have := isSeries_vBuf (l.map f); rwa [List.map_map] at this
  exact isSeries_tup_map (A := CLH (Idx s → α)) (es := [fun x => vF x.close, fun x => vF x.low, fun x => vF x.high])
    (.cons (h _) (.cons (h _) (.cons (h _) .nil)))

theorem rangesOver_snoc (h : List (CLH (Idx s → α))) (x : CLH (Idx s → α)) :
    rangesOver (h ++ [x]) = rangesOver h ++ [rangeOver (closesBefore h) x.low x.high] := by
  have : ∀ z : Idx s → α, List.zipWith (fun prev (c : CLH (Idx s → α)) => rangeOver prev c.low c.high) (z :: (h ++ [x]).map CLH.close) (h ++ [x]) =
      List.zipWith (fun prev (c : CLH (Idx s → α)) => rangeOver prev c.low c.high) (z :: h.map CLH.close) h ++
        [rangeOver ((h.map CLH.close).getLastD z) x.low x.high] := by
    induction h with
    | nil => intro z; simp
    | cons a h ih =>
      intro z
      have := ih a.close
      simp only [List.cons_append, List.map_cons, List.zipWith_cons_cons] at this ⊢
      rw [this]
      congr 3
      cases h with
      | nil => simp
      | cons b t => simp [List.getLast?_eq_some_getLast]
  exact this _

theorem trueRange_over (prev low high : Idx s → α) : trueRange low high prev = rangeOver prev low high := rfl

/-- the state of `ATR(p)` on tensor candles -/
def atrsState (p : Nat) (h : List (CLH (Idx s → α))) : Val α :=
  .tup [vF (closesBefore h), avgState p (s := []) (rollAvg p) ((rangesOver h).map pt)]

theorem atrsState_ok (p : Nat) (h : List (CLH (Idx s → α))) : (atrsState p h).WF ∧
    HasType (atrsState p h) (.tup [.leaf .float, .tup [.leaf .int, .leaf .float, .tup [.leaf .int, .leaf .float]]]) :=
  ⟨by simp [atrsState, WF_tup, avgState_ok], hasType_tup (.cons (HasType_iff.2 rfl) (.cons (avgState_ok _ _ _).2 .nil))⟩

theorem atrs_tracks (hp : 0 < p) : Tracks (ATR (p : Int) : Operator α) Any (encCLHs (s := s)) (fun h => vS (rollAvg p (rangesOver h))) (atrsState p) := by
  constructor
  · intro x _
    have := rma_inner_none (α := α) (p := p) (s := []) hp (pt (rangeOver (fun _ => Arith.zero) x.low x.high))
    simp only [ATR, streamable, unpackArgs, arity, encCLHs, PyVal.tup]
    simp
    rw [trueRange_over]
    have this' : call (RMA (p : Int)) (vS (rangeOver (fun _ => Arith.zero) x.low x.high)) none false = _ := this
    rw [this']
    simp [atrsState, closesBefore, rangesOver]
    exact rollAvg_pt p [_]
  · intro h x _
    have := rma_inner (α := α) (p := p) (s := []) hp ((rangesOver h).map pt) (pt (rangeOver (closesBefore h) x.low x.high))
    have this' : call (RMA (p : Int)) (vS (rangeOver (closesBefore h) x.low x.high)) (some (avgState p (s := []) (rollAvg p) ((rangesOver h).map pt))) false = _ := this
    simp only [ATR, streamable, unpackArgs, arity, encCLHs, PyVal.tup, atrsState]
    simp
    rw [trueRange_over, this']
    have e : closesBefore (h ++ [x]) = x.close := by simp [closesBefore]
    simp [e, rangesOver_snoc]
    have := rollAvg_pt p (rangesOver h ++ [rangeOver (closesBefore h) x.low x.high])
    rw [List.map_append] at this
    exact this
  · exact fun c => ⟨by simp [WF_tup, encCLHs], by simp [Tensors, flatten, flattens, encCLHs]⟩
  · exact ⟨.leaf (.float, []), fun h _ => ⟨by simp, rfl⟩⟩
  · exact ⟨_, atrsState_ok p⟩

/-- **C43, tensor candles, every arithmetic**: one number per candle, the rolling moving average of the largest of the ranges over all coordinates. -/
theorem C43_tensors_streams (hp : 0 < p) : StreamsAs (ATR (p : Int) : Operator α) (candlesOf (s := s)) vSBuf (fun h => rollAvg p (rangesOver h)) :=
  (atrs_tracks hp).streams candlesOf_ok isSeries_vSBuf fun _ => rfl
example := C43_tensors_streams (α := XR ℚ) (s := [2]) (p := 2) (by norm_num)

end

section
variable {K : Type} [Field K] [LinearOrder K] [IsStrictOrderedRing K] [Transc K] [FloorRing K] {s : List Nat} {p : Nat}

/-- series of tensor candles of finite numbers -/
abbrev finCandlesOf (l : List (CLH (Idx s → K))) : Val (XR K) := candlesOf (l.map (CLH.map fun x c => XR.fin (x c)))

/-- the candles of one coordinate -/
abbrev coordCandles (c : Idx s) (l : List (CLH (Idx s → K))) : List (CLH K) := l.map (CLH.map (· c))

theorem rangeOver_fin [Nonempty (Idx s)] (prev low high : Idx s → K) :
    ∃ m, rangeOver (fun c => XR.fin (prev c)) (fun c => XR.fin (low c)) (fun c => XR.fin (high c)) = XR.fin m ∧
      IsGreatest (Set.range fun c => trueRangeK (prev c) (low c) (high c)) m := by
  have hne : Idx.all s ≠ [] := List.ne_nil_of_mem (Idx.mem_all (Classical.arbitrary (Idx s)))
  have e (f : Idx s → K) : (Idx.all s).map (fun c => if TFNum.eq (XR.fin (prev c)) (Arith.ofRat 0) then Arith.zero else Arith.abs (XR.fin (f c) - XR.fin (prev c))) =
      ((Idx.all s).map fun c => if prev c = 0 then 0 else |f c - prev c|).map XR.fin := by
    rw [List.map_map]
    refine List.map_congr_left fun c _ => ?_
    by_cases h : prev c = 0 <;> simp [h]
  obtain ⟨m, hm, h1, h2⟩ := XR.redMax_fin (l := (Idx.all s).map (fun c => high c - low c) ++ (Idx.all s).map (fun c => if prev c = 0 then 0 else |high c - prev c|) ++
    (Idx.all s).map (fun c => if prev c = 0 then 0 else |low c - prev c|)) (by simp [hne])
  have hr : ∀ c, trueRangeK (prev c) (low c) (high c) ≤ m := by
    intro c
    have a1 := h2 (high c - low c) (by simp only [List.mem_append, List.mem_map]; exact .inl (.inl ⟨c, Idx.mem_all c, rfl⟩))
    have a2 := h2 (if prev c = 0 then 0 else |high c - prev c|) (by simp only [List.mem_append, List.mem_map]; exact .inl (.inr ⟨c, Idx.mem_all c, rfl⟩))
    have a3 := h2 (if prev c = 0 then 0 else |low c - prev c|) (by simp only [List.mem_append, List.mem_map]; exact .inr ⟨c, Idx.mem_all c, rfl⟩)
    unfold trueRangeK
    split_ifs at a2 a3 ⊢ with h <;> simp_all
  refine ⟨m, ?_, ?_, by rintro _ ⟨c, rfl⟩; exact hr c⟩
  · rw [← hm, rangeOver, e, e]
    simp [Function.comp_def]
  · have key : ∀ c, m ≤ trueRangeK (prev c) (low c) (high c) → m ∈ Set.range fun c => trueRangeK (prev c) (low c) (high c) := fun c hc => ⟨c, le_antisymm (hr c) hc⟩
    simp only [List.mem_append, List.mem_map] at h1
    rcases h1 with (⟨c, -, hc⟩ | ⟨c, -, hc⟩) | ⟨c, -, hc⟩ <;> refine key c ?_ <;> rw [← hc] <;> unfold trueRangeK <;> split_ifs <;> simp

/-- the largest true range of the coordinates -/
noncomputable def widest [Nonempty (Idx s)] (prev low high : Idx s → K) : K := (rangeOver_fin prev low high).choose

theorem widest_greatest [Nonempty (Idx s)] (prev low high : Idx s → K) : IsGreatest (Set.range fun c => trueRangeK (prev c) (low c) (high c)) (widest prev low high) :=
  (rangeOver_fin prev low high).choose_spec.2

/-- these for a series of candles -/
noncomputable def widests [Nonempty (Idx s)] (l : List (CLH (Idx s → K))) : List K :=
  List.zipWith (fun prev c => widest prev c.low c.high) ((fun _ => 0) :: l.map CLH.close) l

theorem rangesOver_fin [Nonempty (Idx s)] (l : List (CLH (Idx s → K))) : rangesOver (l.map (CLH.map fun x c => XR.fin (x c))) = (widests l).map XR.fin := by
  simp only [rangesOver, widests, List.map_zipWith, List.map_map, Function.comp_def, CLH.map]
  rw [XR.zero_eq, show (fun _ : Idx s => XR.fin (0 : K)) :: l.map (fun x c => XR.fin (x.close c)) = ((fun _ => 0) :: l.map CLH.close).map (fun x c => XR.fin (x c)) by
    simp [Function.comp_def], List.zipWith_map]
  simp only [CLH.map]
  congr 1
  funext prev c
  exact (rangeOver_fin _ _ _).choose_spec.1

@[simp] theorem widests_length [Nonempty (Idx s)] (l : List (CLH (Idx s → K))) : (widests l).length = l.length := by simp [widests]

theorem widests_getElem [Nonempty (Idx s)] (l : List (CLH (Idx s → K))) (i : Nat) (hi : i < l.length) :
    IsGreatest (Set.range fun c => trueRangeK (closeBefore (coordCandles c l) i) (l[i].low c) (l[i].high c)) ((widests l)[i]'(by simpa using hi)) := by
  have := widest_greatest (if h : i = 0 then fun _ => 0 else l[i - 1].close) l[i].low l[i].high
  simp only [widests, List.getElem_zipWith]
  cases i with
  | zero => simpa [closeBefore] using this
  | succ i => simpa [closeBefore, List.getElem?_eq_getElem (show i < l.length by omega), CLH.map] using this

theorem widests_take [Nonempty (Idx s)] (l : List (CLH (Idx s → K))) (n : Nat) : widests (l.take n) = (widests l).take n := by
  apply List.ext_getElem (by simp)
  intro i h1 h2
  rw [List.getElem_take]
  simp only [widests, List.getElem_zipWith, List.getElem_take]
  cases i with
  | zero => rfl
  | succ i => simp

/-- **C43, tensor candles**, exact arithmetic: what `RollingMovingAverage(p)` outputs on the largest true ranges of the coordinates. -/
theorem C43_tensors [Nonempty (Idx s)] (hp : 0 < p) {xs : List (CLH (Idx s → K))} (hx : xs ≠ []) :
    ∃ os trs : List K, (∃ sf s0, call (ATR (p : Int)) (finCandlesOf xs) none = .ok (finSeries os, sf, s0)) ∧
      (∃ sf s0, call (RMA (p : Int)) (finSeries trs) none = .ok (finSeries os, sf, s0)) ∧
      ∃ hl : trs.length = xs.length, ∀ i (hi : i < xs.length),
        IsGreatest (Set.range fun c => trueRangeK (closeBefore (coordCandles c xs) i) (xs[i].low c) (xs[i].high c)) trs[i] := by
  have h0 : StreamsAs (ATR (p : Int) : Operator (XR K)) (finCandlesOf (s := s)) finSeries fun l => recursiveAvgK p (fun m x => m + 1 / (p : K) * (x - m)) (widests l) :=
    (C43_tensors_streams (s := s) hp).comap _ XR.fin fun l _ => by
      show rollAvg p (rangesOver (l.map (CLH.map fun x c => XR.fin (x c)))) = _
      rw [rangesOver_fin, rollAvg_fin hp]
  obtain ⟨sf, s0, h⟩ := h0.at' hx
  obtain ⟨sf', s0', h'⟩ := (rma_reals (K := K) hp).at' (xs := widests xs) (by rw [← List.length_pos_iff] at hx ⊢; simpa using hx)
  refine ⟨_, widests xs, ⟨sf, s0, h⟩, ⟨sf', s0', ?_⟩, by simp, fun i hi => widests_getElem xs i hi⟩
  rw [h']
  have : scan (recursiveAvgK p fun m x => m + 1 / (p : K) * (x - m)) [] (widests xs) =
      scan (fun l => recursiveAvgK p (fun m x => m + 1 / (p : K) * (x - m)) (widests l)) [] xs := by
    apply List.ext_getElem (by simp)
    intro i h1 h2
    simp only [scan_getElem, List.nil_append, widests_take]
  rw [this]
example := C43_tensors (K := ℚ) (s := []) (p := 2) (by norm_num) (xs := [⟨fun _ => 9, fun _ => 8, fun _ => 10⟩]) (by simp)
example : Nonempty (Idx [2]) := ⟨(0, ())⟩

/-- It is nowhere below the average true range of one of the coordinates. -/
theorem C43_tensors_above [Nonempty (Idx s)] (hp : 0 < p) {xs : List (CLH (Idx s → K))} (hx : xs ≠ []) (c : Idx s) :
    ∃ os oc : List K, (∃ sf s0, call (ATR (p : Int)) (finCandlesOf xs) none = .ok (finSeries os, sf, s0)) ∧
      (∃ sf s0, call (ATR (p : Int)) (finCandles (coordCandles c xs)) none = .ok (finSeries oc, sf, s0)) ∧
      os.length = xs.length ∧ oc.length = xs.length ∧ ∀ i (h : i < os.length) (h' : i < oc.length), oc[i] ≤ os[i] := by
  obtain ⟨os, trs, h1, ⟨sf, s0, h2⟩, hl, hg⟩ := C43_tensors (p := p) hp hx
  obtain ⟨oc, trc, h1', ⟨sf', s0', h2'⟩, ⟨hl', hg'⟩, -⟩ := C43_atr (p := p) hp (xs := coordCandles c xs) (by simpa using hx)
  have hlc : trc.length = xs.length := by simpa using hl'
  obtain ⟨ys, sf2, s02, sf3, s03, h3, h4, h5, h6⟩ := C64_isotone_rma (K := K) hp (trc.zip trs) (by rw [← List.length_pos_iff] at hx ⊢; simp [hl, hlc, hx]) fun z hz => by
    obtain ⟨i, hi, rfl⟩ := List.getElem_of_mem hz
    have hi' : i < xs.length := by simp at hi; omega
    rw [List.getElem_zip]
    show trc[i] ≤ trs[i]
    rw [hg' i (by simpa using hi')]
    have := (hg i hi').2 ⟨c, rfl⟩
    simpa [CLH.map] using this
  have e1 : (trc.zip trs).map (fun z => XR.fin z.1) = trc.map XR.fin := by
    rw [show (fun z : K × K => XR.fin z.1) = XR.fin ∘ Prod.fst from rfl, ← List.map_map, List.map_fst_zip (by omega)]
  have e2 : (trc.zip trs).map (fun z => XR.fin z.2) = trs.map XR.fin := by
    rw [show (fun z : K × K => XR.fin z.2) = XR.fin ∘ Prod.snd from rfl, ← List.map_map, List.map_snd_zip (by omega)]
  rw [e1] at h3
  rw [e2] at h4
  have f1 := h2'.symm.trans h3
  have f2 := h2.symm.trans h4
  simp only [Except.ok.injEq, Prod.mk.injEq] at f1 f2
  have g1 := finSeries_inj (f1.1.trans (by rw [finSeries, List.map_map]; rfl) : finSeries oc = finSeries (ys.map Prod.fst))
  have g2 := finSeries_inj (f2.1.trans (by rw [finSeries, List.map_map]; rfl) : finSeries os = finSeries (ys.map Prod.snd))
  subst g1 g2
  refine ⟨_, _, h1, h1', by simp [h5]; omega, by simp [h5]; omega, fun i hi hi' => ?_⟩
  simpa using h6 _ (List.getElem_mem (by simpa using hi))
example := C43_tensors_above (K := ℚ) (s := []) (p := 2) (by norm_num) (xs := [⟨fun _ => 9, fun _ => 8, fun _ => 10⟩]) (by simp) ()

end

/-- So AverageTrueRange, unlike the moving averages, does not work coordinate by coordinate: two series of candles given as vectors get one number, which belongs to neither of them. -/
theorem C43_one_number :
    output (call (ATR 1) (finCandlesOf (s := [2]) [⟨fun c => if c.1 = 0 then 9 else 20, fun c => if c.1 = 0 then 8 else 15, fun c => if c.1 = 0 then 10 else 25⟩,
      ⟨fun c => if c.1 = 0 then 9 else 20, fun c => if c.1 = 0 then 2 else 19, fun c => if c.1 = 0 then 10 else (21 : ℚ)⟩]) none) = .ok (series [10, 8]) ∧
    output (call (ATR 1) (qCandles [(9, 8, 10), (9, 2, 10)]) none) = .ok (series [2, 8]) ∧
    output (call (ATR 1) (qCandles [(20, 15, 25), (20, 19, 21)]) none) = .ok (series [10, 2]) := by
  refine ⟨?_, ?_, ?_⟩ <;> decide +kernel
example := C43_one_number

end TS
