import Verif.Model.Market
/-
common/__init__.py (map_consecutive_fn, filter_with_mask, transpose) and the functions `details` and
`avg` of finance/drawdown.py.  Vectors are lists.
-/
namespace TS

section
variable {A B : Type}

/-- common/__init__.py:4-6 `map_consecutive_fn(fn, elems)` on a vector: the rows of
`transpose(stack([elems[1:], elems[:-1]]))` go through `fn`. -/
def mapConsecutiveFn (fn : A → A → B) (elems : List A) : List B :=
  (List.zip elems.tail elems.dropLast).map fun x => fn x.1 x.2

/-- common/__init__.py:10-16: the loop of `filter_with_mask`.  `n` iterations are left, `i` is the loop
index, `k` is `output_index`, `output` are the slots of the tensor array.  `mask[i]` exists because the
loop runs to `tf.size(mask)`; `values[i]` is read in the taken branch only. -/
def filterLoop (mask : List Bool) (values : List A) :
    Nat → Nat → Nat → List (Option A) → Res (List (Option A))
  | 0, _, _, output => .ok output
  | n + 1, i, k, output =>
    match mask[i]? with
    | none => .error .indexError
    | some false => filterLoop mask values n (i + 1) k output
    | some true =>
      match values[i]?, output[k]? with
      | none, _ => .error .indexError
      | some v, some none => filterLoop mask values n (i + 1) (k + 1) (output.set k (some v))
      | _, _ => .error .tensorArray

/-- common/__init__.py:21 `results[2].stack()`. -/
def stackSlots (l : List (Option A)) : Res (List A) :=
  l.mapM fun o => match o with
    | some a => .ok a
    | none => .error .tensorArray

/-- common/__init__.py:8-21 `filter_with_mask(mask, values)`; the tensor array has
`reduce_sum(to_int32(mask))` slots. -/
def filterWithMask (mask : List Bool) (values : List A) : Res (List A) := do
  let slots := List.replicate (mask.map fun b => if b then 1 else 0).sum none
  stackSlots (← filterLoop mask values mask.length 0 0 slots)

/-- A pandas data frame as its list of named columns.  Simplified: the row index (on which `pd.concat`
aligns) is not modelled, a column is an arbitrary object (common/__init__.py:30-36). -/
abbrev Table (A : Type) := List (String × A)

/-- `ts[col]` (common/__init__.py:34) -/
def column (col : String) (t : Table A) : Res A :=
  match t.lookup col with
  | some a => .ok a
  | none => .error .keyError

/-- `data[col] = x` on an ordered dict (common/__init__.py:35). -/
def assign (data : List (String × B)) (col : String) (x : B) : List (String × B) :=
  if (data.any fun e => e.1 == col) then data.map fun e => if e.1 == col then (col, x) else e
  else data ++ [(col, x)]

/-- common/__init__.py:33-35 the loop over the columns. -/
def transposeLoop (tables : List (Table A)) : List String → List (String × List A) → Res (List (String × List A))
  | [], data => .ok data
  | col :: cols, data => do
    let series ← tables.mapM (column col)
    transposeLoop tables cols (assign data col series)

/-- common/__init__.py:30-36 `transpose(products_df)`; `pd.concat(series, axis=1)` puts the series side
by side. -/
def transposeTables (tables : List (Table A)) : Res (List (String × List A)) :=
  match tables with
  | [] => .error .indexError
  | t :: _ => transposeLoop tables (t.map (·.1)) []

/-- `v[i:j]` for ints `i`, `j` (finance/drawdown.py:35-36). -/
def pySlice (l : List A) (i j : Int) : List A :=
  let norm := fun k : Int => if k < 0 then (l.length + k).toNat else k.toNat
  (l.take (norm j)).drop (norm i)

end

/-- `tf.reduce_max` on int32 vectors (the minimal int32 when empty) (finance/drawdown.py:36). -/
def intMax (l : List Int) : Int := l.foldl Max.max (-2147483648)

section
variable {α : Type} [TFNum α]

/-- finance/drawdown.py:31-60 `details(drawdown, drawdown_days)`. -/
def drawdownDetails (drawdown : List α) (days : List Int) : Res (List (α × Int)) := do
  let d := 0 :: days ++ [0]                                                       -- line 39
  let idx := (List.range (d.length - 1)).map Int.ofNat                            -- line 40
  let beginMask := d.map fun x => decide (x = 1)                                  -- lines 42-45
  let endMask := mapConsecutiveFn (fun x y => decide (y > 0) && decide (x = 0)) d -- lines 47-49
  let begins ← filterWithMask beginMask idx                                       -- line 51
  let ends ← filterWithMask endMask idx                                           -- line 52
  if begins.length ≠ ends.length then .error .shape                               -- line 55 tf.stack
  else
    let bounds := (begins.zip ends).map fun x => (x.1 - 1, x.2 - 1)               -- lines 54-55
    .ok (bounds.map fun x =>                                                      -- lines 57-60
      (Arith.redMin (pySlice drawdown x.1 (x.2 + 1)), intMax (pySlice days x.1 (x.2 + 1))))  -- 32-37

/-- finance/drawdown.py:62-66 `avg(drawdown, drawdown_days)`. -/
def drawdownAvg (drawdown : List α) (days : List Int) : Res (α × α) := do
  let ps ← drawdownDetails drawdown days
  .ok (Arith.mean (ps.map (·.1)), Arith.mean (ps.map fun p => Arith.ofInt p.2))

end
end TS
