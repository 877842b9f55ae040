import Verif.Model.Utils
import Verif.Lemmas.Streaming
/-
C54, C55: masks, consecutive pairs, rolling buffers, tables.
-/
namespace TS
variable {A B : Type}

/-! ### C54 -/

/-- The elements whose mask is true, in order. -/
def masked (mask : List Bool) (values : List A) : List A := (mask.zip values).filterMap fun z => if z.1 then some z.2 else none

theorem masked_cons_true (mask : List Bool) (v : A) (values : List A) : masked (true :: mask) (v :: values) = v :: masked mask values := by simp [masked]
theorem masked_cons_false (mask : List Bool) (v : A) (values : List A) : masked (false :: mask) (v :: values) = masked mask values := by simp [masked]
theorem masked_nil (mask : List Bool) : masked mask ([] : List A) = [] := by simp [masked]
theorem masked_all_false {mask : List Bool} (h : ∀ b ∈ mask, b = false) (values : List A) : masked mask values = [] := by
  induction mask generalizing values with
  | nil => simp [masked]
  | cons b m ih =>
    have hb := h b (by simp)
    subst hb
    cases values with
    | nil => exact masked_nil _
    | cons v vs => rw [masked_cons_false, ih (fun b hb => h b (by simp [hb]))]

theorem filterLoop_ok (mask : List Bool) (values : List A) : ∀ (rest : List Bool) (i : Nat), mask.drop i = rest → ∀ (done : List A) (out : List (Option A)),
    filterLoop mask values rest.length i done.length (done.map some ++ List.replicate (rest.map fun b => if b then 1 else 0).sum none) = .ok out ↔
      (∀ j, rest[j]? = some true → i + j < values.length) ∧ out = (done ++ masked rest (values.drop i)).map some := by
  intro rest
  induction rest with
  | nil =>
    intro i _ done out
    simp only [List.length_nil, filterLoop, masked, List.zip_nil_left, List.filterMap_nil, List.append_nil, List.map_nil, List.sum_nil, List.replicate_zero, Except.ok.injEq]
    exact ⟨fun h => ⟨by simp, h.symm⟩, fun h => h.2.symm⟩
  | cons b rest ih =>
    intro i hd done out
    have hb : mask[i]? = some b := by
      have := congrArg (·[0]?) hd
      simpa using this
    have hd' : mask.drop (i + 1) = rest := by rw [← List.drop_drop, hd]; rfl
    have hall : (∀ j, (b :: rest)[j]? = some true → i + j < values.length) ↔
        (b = true → i < values.length) ∧ ∀ j, rest[j]? = some true → i + 1 + j < values.length := by
      constructor
      · intro h
        exact ⟨fun hb => by simpa using h 0 (by simpa using hb), fun j hj => by have := h (j + 1) (by simpa using hj); omega⟩
      · rintro ⟨h0, h1⟩ j hj
        cases j with
        | zero => simpa using h0 (by simpa using hj)
        | succ j => have := h1 j (by simpa using hj); omega
    rw [hall]
    simp only [List.length_cons, filterLoop, hb]
    cases b with
    | false =>
      have e : masked (false :: rest) (values.drop i) = masked rest (values.drop (i + 1)) := by
        by_cases hv : i < values.length
        · rw [List.drop_eq_getElem_cons hv, masked_cons_false]
        · rw [List.drop_eq_nil_of_le (by omega), List.drop_eq_nil_of_le (by omega), masked_nil, masked_nil]
      have := ih (i + 1) hd' done out
      simp only [List.map_cons, Bool.false_eq_true, if_false, List.sum_cons, Nat.zero_add, false_imp_iff, true_and, e]
      exact this
    | true =>
      by_cases hv : i < values.length
      · have e : masked (true :: rest) (values.drop i) = values[i] :: masked rest (values.drop (i + 1)) := by
          rw [List.drop_eq_getElem_cons hv, masked_cons_true]
        have hslot : (done.map some ++ List.replicate ((true :: rest).map fun b => if b then 1 else 0).sum (none : Option A))[done.length]? = some none := by
          rw [List.getElem?_append_right (by simp)]
          simp [Nat.add_comm 1, List.replicate_succ]
        have hset : (done.map some ++ List.replicate ((true :: rest).map fun b => if b then 1 else 0).sum (none : Option A)).set done.length (some values[i]) =
            (done ++ [values[i]]).map some ++ List.replicate (rest.map fun b => if b then 1 else 0).sum none := by
          rw [List.set_append_right _ _ (by simp)]
          simp [Nat.add_comm 1, List.replicate_succ]
        rw [List.getElem?_eq_getElem hv, hslot]
        dsimp only
        have := ih (i + 1) hd' (done ++ [values[i]]) out
        rw [List.length_append, List.length_singleton] at this
        rw [hset, this, e]
        simp [hv]
      · rw [List.getElem?_eq_none (by omega)]
        simp [hv]

theorem stackSlots_some (l : List A) : stackSlots (l.map some) = .ok l := by
  induction l with
  | nil => rfl
  | cons a l ih =>
    simp only [stackSlots, List.map_cons, List.mapM_cons] at ih ⊢
    rw [ih]; rfl

/-- **C54 filter_with_mask** succeeds exactly when every true position of the mask is a position of the vector, and then keeps exactly the
elements at the true positions, in order. -/
theorem C54_filter_with_mask (mask : List Bool) (values r : List A) :
    filterWithMask mask values = .ok r ↔ (∀ i, mask[i]? = some true → i < values.length) ∧
      r = (mask.zip values).filterMap fun z => if z.1 then some z.2 else none := by
  have key := filterLoop_ok mask values mask 0 rfl []
  simp only [List.map_nil, List.nil_append, List.length_nil, List.drop_zero, Nat.zero_add] at key
  unfold filterWithMask
  dsimp only
  cases h : filterLoop mask values mask.length 0 0 (List.replicate (mask.map fun b => if b then 1 else 0).sum none) with
  | error e =>
    constructor
    · intro h; cases h
    · rintro ⟨h1, -⟩
      have := (key _).2 ⟨h1, rfl⟩
      rw [h] at this; cases this
  | ok out =>
    obtain ⟨h1, rfl⟩ := (key out).1 h
    show stackSlots _ = _ ↔ _
    rw [stackSlots_some]
    simp only [Except.ok.injEq]
    exact ⟨fun e => ⟨h1, e.symm⟩, fun e => e.2.symm⟩
example := C54_filter_with_mask (A := ℚ) [true, false, true] [1, 2, 3] [1, 3]

/-- In particular a mask as long as the vector always works. -/
theorem C54_filter_same_length (mask : List Bool) (values : List A) (h : mask.length = values.length) :
    filterWithMask mask values = .ok ((mask.zip values).filterMap fun z => if z.1 then some z.2 else none) :=
  (C54_filter_with_mask mask values _).2 ⟨fun i hi => by rw [← h]; exact (List.getElem?_eq_some_iff.1 hi).1, rfl⟩
example := C54_filter_same_length (A := ℚ) [true, false, true] [1, 2, 3] rfl

/-- **C54 map_consecutive_fn** applies the function to every pair (next, previous). -/
theorem C54_map_consecutive (fn : A → A → B) (l : List A) : ∃ hl : (mapConsecutiveFn fn l).length = l.length - 1,
    ∀ i (hi : i + 1 < l.length), (mapConsecutiveFn fn l)[i] = fn l[i + 1] l[i] :=
  ⟨by simp [mapConsecutiveFn], fun i hi => by simp [mapConsecutiveFn]⟩
example := C54_map_consecutive (A := ℚ) (B := ℚ) (fun a b => b - a) [1, 2, 5]

/-- **C54 roll** on a non-empty buffer: the new value first, then the others shifted by one; the oldest one is dropped and the length stays. -/
theorem C54_roll (v : A) {l : List A} (hl : l ≠ []) : ∃ h : (roll v l).length = l.length,
    (∀ h0 : 0 < l.length, (roll v l)[0] = v) ∧ ∀ i (hi : i + 1 < l.length), (roll v l)[i + 1] = l[i] := by
  have := List.length_pos_iff.2 hl
  exact ⟨by simp [roll]; omega, fun _ => rfl, fun i hi => by simp [roll]⟩
example := C54_roll (A := ℚ) 7 (l := [1, 2, 5]) (by simp)

/-- **C54 shift** is the same function. -/
theorem C54_shift (v : A) (l : List A) : shift v l = roll v l := by
  unfold shift roll
  split
  · rename_i h; rw [List.length_eq_zero_iff] at h; subst h; rfl
  · rw [List.dropLast_eq_take]

example : filterWithMask [true, false, true, false] [7, 8, 9] = .ok [7, 9] := by decide
example : filterWithMask [true, false, true, true] [7, 8, 9] = .error .indexError := by decide
example : mapConsecutiveFn (fun x y => x - y) [1, 4, 9, 16] = [3, 5, 7] := by decide
example : roll 0 [3, 2, 1] = [0, 3, 2] := rfl

/-! ### C55 -/

theorem assign_new {data : List (String × B)} {col : String} (x : B) (h : col ∉ data.map (·.1)) : assign data col x = data ++ [(col, x)] := by
  unfold assign
  rw [if_neg]
  simp only [List.any_eq_true, beq_iff_eq, not_exists, not_and]
  intro e he hc
  exact h (by rw [List.mem_map]; exact ⟨e, he, hc⟩)

theorem column_ok {col : String} {t : Table A} {a : A} : column col t = .ok a ↔ t.lookup col = some a := by
  unfold column
  cases t.lookup col <;> simp

theorem transposeLoop_ok (tables : List (Table A)) : ∀ (cols : List String) (data : List (String × List A)), cols.Nodup → (∀ c ∈ cols, c ∉ data.map (·.1)) →
    (∀ c ∈ cols, ∀ t ∈ tables, (t.lookup c).isSome) →
    ∃ new, transposeLoop tables cols data = .ok (data ++ new) ∧ new.map (·.1) = cols ∧
      ∀ e ∈ new, ∃ hl : e.2.length = tables.length, ∀ k (hk : k < tables.length), tables[k].lookup e.1 = some e.2[k] := by
  intro cols
  induction cols with
  | nil => intro data _ _ _; exact ⟨[], by simp [transposeLoop], rfl, by simp⟩
  | cons c cols ih =>
    intro data hn hd hc
    obtain ⟨hn1, hn2⟩ := List.nodup_cons.1 hn
    have hcol : ∃ s, tables.mapM (column c) = .ok s := by
      have : ∀ ts : List (Table A), (∀ t ∈ ts, (t.lookup c).isSome) → ∃ s, ts.mapM (column c) = .ok s := by
        intro ts
        induction ts with
        | nil => intro _; exact ⟨[], rfl⟩
        | cons t ts ih2 =>
          intro h
          obtain ⟨s, hs⟩ := ih2 fun t ht => h t (by simp [ht])
          obtain ⟨a, ha⟩ := Option.isSome_iff_exists.1 (h t (by simp))
          exact ⟨a :: s, by rw [List.mapM_cons, column_ok.2 ha, hs]; rfl⟩
      exact this tables (hc c (by simp))
    obtain ⟨s, hs⟩ := hcol
    obtain ⟨hl, hs'⟩ := mapM_eq_ok_iff_get.1 hs
    obtain ⟨new, h1, h2, h3⟩ := ih (data ++ [(c, s)]) hn2 (fun c' hc' => by
      have := hd c' (by simp [hc'])
      simp only [List.map_append, List.map_cons, List.map_nil, List.mem_append, List.mem_singleton, not_or]
      exact ⟨this, fun e => hn1 (e ▸ hc')⟩) (fun c' hc' => hc c' (by simp [hc']))
    refine ⟨(c, s) :: new, ?_, by simp [h2], ?_⟩
    · rw [transposeLoop, hs]
      show transposeLoop tables cols (assign data c s) = _
      rw [assign_new s (hd c (by simp)), h1]
      simp
    · intro e he
      rcases List.mem_cons.1 he with rfl | he
      · exact ⟨hl.symm, fun k hk => column_ok.1 (hs' k hk)⟩
      · exact h3 e he

/-- **C55 transpose**: if every table has the columns of the first one (whose names are distinct), the result has these columns in their order, and the
`k`-th member of a column is that column of the `k`-th table. -/
theorem C55_transpose {tables : List (Table A)} (hne : tables ≠ []) (hn : ((tables.head hne).map (·.1)).Nodup)
    (hc : ∀ c ∈ (tables.head hne).map (·.1), ∀ t ∈ tables, (t.lookup c).isSome) :
    ∃ data, transposeTables tables = .ok data ∧ data.map (·.1) = (tables.head hne).map (·.1) ∧
      ∀ e ∈ data, ∃ hl : e.2.length = tables.length, ∀ k (hk : k < tables.length), tables[k].lookup e.1 = some e.2[k] := by
  obtain ⟨t, ts, rfl⟩ := List.exists_cons_of_ne_nil hne
  obtain ⟨new, h1, h2, h3⟩ := transposeLoop_ok (t :: ts) (t.map (·.1)) [] hn (by simp) hc
  exact ⟨new, by simpa [transposeTables] using h1, h2, h3⟩
example := C55_transpose (A := ℚ) (tables := [[("a", 1), ("b", 2)], [("b", 3), ("a", 4)]]) (by simp) (by simp) (by simp)

/-- A table without one of the columns of the first one is an error. -/
theorem C55_missing_column {t : Table A} {ts : List (Table A)} {c : String} (hc : c ∈ t.map (·.1)) {u : Table A} (hu : u ∈ ts) (h : u.lookup c = none) (r) :
    transposeTables (t :: ts) ≠ .ok r := by
  have key : ∀ (cols : List String) (data : List (String × List A)), c ∈ cols → ∀ r, transposeLoop (t :: ts) cols data ≠ .ok r := by
    intro cols
    induction cols with
    | nil => intro data hc; simp at hc
    | cons d cols ih =>
      intro data hc r
      rw [transposeLoop]
      cases hs : (t :: ts).mapM (column d) with
      | error e => intro h; cases h
      | ok s =>
        rcases List.mem_cons.1 hc with rfl | hc
        · exfalso
          obtain ⟨hl, hs'⟩ := mapM_eq_ok_iff_get.1 hs
          obtain ⟨k, hk, rfl⟩ := List.mem_iff_getElem.1 (List.mem_cons_of_mem t hu)
          have := column_ok.1 (hs' k hk)
          rw [h] at this; cases this
        · exact ih _ hc r
  exact key _ _ hc r

example : transposeTables [[("a", 1), ("b", 2)], [("b", 4), ("a", 3)]] = .ok [("a", [1, 3]), ("b", [2, 4])] := by decide

end TS
