# Design of the formal model of tensorstream

Source: /repo (clems4ever/tensorstream, Python on TensorFlow 1.13.1), read as text, never run.
Proof assistant: Lean 4.33.0, single Mathlib modules. Namespace `TS`. About 44 000 lines in 223 modules.

Contents: 1 what is modelled, 2 what is not, 3 trusted base, 4 how the proofs go, 5 plan per property,
6 where the code does not do what one expects, 7 tests of the theorems.

## 1. What is modelled

### Layers

| layer | modules | contents |
|---|---|---|
| values | `Verif/Base` | errors as values (`Res A = Except Err A`), nested Python values `PyVal` (leaf, tuple, list, dict), tensors (`shape` and a function on indices), numbers |
| code | `Verif/Model` | the library, function by function, each definition citing the lines of /repo |
| specifications | `Verif/Spec` | short definitions in terms of inputs and histories only; they do not use the model's step functions |
| properties | `Verif/Props` | the theorems named in MANIFEST.json (`Cnn_...`), each with an `example` on a concrete case beside it (for C01-C05 and C09 in `Props/CoreExamples`) |
| lemmas | `Verif/Lemmas` | everything else |

### Numbers

The float type is a parameter `α` with operations (`Arith`: 0, 1, +, -, *, /, sqrt, log, pow, moments, casts of literals;
`TFNum`: comparisons, isnan) and **no laws**. A theorem stated for every `[TFNum α]` holds of float32 with any rounding,
and says which operations are applied to which inputs in which order. Statements that need laws (bounds, identities, alternation)
use `XR K` (or, where they survive rounding, any `FloatArith`, see C69): a linearly ordered field extended with +inf, -inf and NaN that follow the IEEE rules for comparison, NaN
propagation and division by zero. `XR ℝ` is used for statements with roots and logarithms, `XR ℚ` for kernel-evaluated examples
(there `sqrt` is exact on squares of rationals only and `log q` is the placeholder `q - 1`; no property theorem uses these two).

### Coverage of /repo/tensorstream

| file | lines | model | notes |
|---|---|---|---|
| streamable.py | 7-122 | `Model/Streamable` (`call`, `callStreamed`, `forwardStep`, `toType`, `checkTypes`, `streamLoop`) | buffers are allocated with `Tensor.pack`, whose shape is the code's `concat([period], shape)` (`zerosBufLike_shape`) |
| helpers/*.py | all | `Model/Helpers` | `any_nan`, `any_value`, `flatten`, `map_fn` |
| meta/*.py | all | `Model/Meta` | `Compose`, `Join`, `Factory`, `Map`, `FFill` |
| common/__init__.py | all | `Model/Common`, `Model/Utils` | `transpose`, `filter_with_mask`, `map_consecutive_fn`, `roll`, `shift` |
| common/common.py, make_streamable.py, lag.py, set_during.py, extremum.py, correlation.py, automaton.py | all | `Model/Common` | |
| finance/moving_average.py, moving_standard_deviation.py, moving_average_convergence_divergence.py, bollinger_bands.py, moving_average_crossover.py | all | `Model/MovingAverage` | |
| finance/returns.py, volatility.py, momentum.py, sharpe_ratio.py, skewness.py, relative_strength_index.py, average_true_range.py, supertrend.py, heikin_ashi.py, drawdown.py | all | `Model/Market` | |
| finance/signals/*.py, finance/evaluators/risk_ratio_evaluator.py | all | `Model/Signals` | |
| TensorFlow: `cond`, `case`, `while_loop`, `TensorArray`, `nn.moments`, `where`, ... | - | `Model/TFControl`, `Base/Tensor`, `Base/Num` | modelled from the documented behaviour of 1.13 |
| *_spec.py, setup.py, fixtures | - | not modelled | tests; some are replayed on the model, see 7 |

Positional argument passing is modelled as Python does it: `step(*inputs, *state)` with arity checks, optional parameters and
their defaults (`Model/Args`). Exceptions raised by Python, by TensorFlow at graph construction and by TensorFlow at run time
are all `Except.error`; the theorems distinguish success from failure, and C04/C05 also say which error.

## 2. What is not modelled

Stated at the definitions concerned, and collected here.

- **NaN in `tf.maximum`, `tf.minimum`, `tf.reduce_min`, `tf.reduce_max`.** `XR` propagates it; Eigen's vectorised kernels may or may not.
  The statements about all of `XR K` that involve these four (C36, C58-C63 for RSI, ATR, Supertrend and the local extrema) are to be read for NaN-free data.
- **Rounding.** Exact-arithmetic theorems do not speak about float32 rounding; the law-free ones do not depend on it; C69 is about rounded arithmetic.
  In `F32` (binary32) zeros have no sign, a quotient by zero has the sign of the dividend, and `sqrt` rounds the root given by `Transc K`; the theorems of C69 assume none of this
  (`FloatArith` leaves it open).
- **Static shapes.** Streaming is modelled twice: with unknown shapes (`call`) and with all shapes known (`callStatic`, C81). Partly known shapes are not modelled. A graph in which TensorFlow
  cannot infer a rank is not distinguished from one in which it can. One consequence:
  `filter_with_mask` with an all-false mask returns `[]` in the model; TensorFlow needs a statically known element shape for that
  (it is known in `details`, the only use in the library). Another: `Positive` and `Negative` use `x.shape` (common/common.py:36-38), so with
  unknown shapes they raise ValueError, and in the model (`call`) they do not; what is proved about them is to be read for known shapes.
- **Broadcasting.** `Add`, `Sub`, `Mul` and `Correlation` broadcast as NumPy and TensorFlow do (C23_broadcasting, C86). Where another operator combines its input with its own state or with a second input inside a larger formula the model demands equal shapes (`decFs`); a broadcastable pair fails there in the model.
- **dtypes**: one float type, one int type, bool. The ints are unbounded; C71 gives the number of samples below which the ints in outputs and states stay within int32; C87 proves that the calls are then the same with int32, and what happens beyond.
- **Python literals.** A step function that returns a Python number instead of a tensor (users' step functions only) is not distinguished from one that returns the constant tensor; `call_streamed` would fail on `.dtype` of the former.
- **Series of length 0.** TensorFlow's behaviour depends on static shapes; the model fails.
- **dicts** are kept as their values in the order of the sorted keys (strings). Python's insertion order matters to `flatten` only, and the
  library uses `flatten` for a count and for `any`, neither of which depends on it.
- **Graph pruning, sessions, device placement, gradients.** The call in `call_streamed` and in `Map.step` that is only used for its
  types is evaluated in the model as well; in TensorFlow it is pruned at run time. A run-time error (only possible in `tf.case(exclusive=True)` and
  in an index out of range) in a pruned call would not show. It is the call on slice 0, which the loop makes anyway.

## 3. Trusted base

- Lean 4.33.0's kernel (`vcheck` also replays every module).
- Axioms: `propext`, `Classical.choice`, `Quot.sound`. AXIOMS.txt lists them for every theorem of MANIFEST.json
  (regenerate: `python3 tools/axioms.py`). No own axioms, no `sorry`, no `native_decide`/`bv_decide`, no `implemented_by`, no `unsafe`.
- `decide +kernel` is used in examples and counterexamples only: the kernel evaluates, no compiled code is trusted.
- That `Verif/Model` says what the Python code does (read side by side, every definition cites its lines; section 7).
- That TensorFlow 1.13 behaves as `Model/TFControl` and `Base` say.

## 4. How the proofs go

- **Loop** (`Lemmas/Loop`, `CallStreamed`, `Streaming`): `callStreamed` is turned into a fold over slices (`stepAll`), both directions
  (`callStreamed_sound`, `callStreamed_complete`). C01-C05, C10, C12-C15 are inductions on this fold.
- **Catalogue** (`Spec/Library`, `Lemmas/Library`): an inductive family `Lib op D E` of everything that can be built from the shipped operators with
  Compose, Join, Factory, Map and FFill. `Lib.ok` proves by induction that all of them are sane (results are tensors), uniform (result structure depends on
  argument structure only) and honour the initial-state contract. So C01-C03, C06, C10, C12 hold for the whole library.
- **Histories** (`Spec/History`, `Lemmas/Track*`): `Tracks op V enc out st` says that after the inputs `ys` the state of `op` is `st ys` and its last output is
  `out ys`. One such lemma per operator. `StreamsAs op ser outs y` is what follows about the API: streaming over any non-empty series,
  in any number of chunks, outputs `y (prefix)` at every index. C17-C47, C49-C53, C57 start from these.
- **Types** (`Spec/Typed`, `Lemmas/Typed`): `TypedIn C op X O S` is a type system for operators, `Typed` the same without a condition on int constants; `TypedIn.steady` is its soundness (C56), `TypedIn.graded` bounds its counters (C71).
- **Expectations that fail**: where the code does not do what one expects, the property is the exact condition under which it does (C16, C24, C35, C38, C44, C50, C59), with witnesses evaluated by the kernel.

## 5. Plan per property

`every arithmetic` means all `[TFNum α]`; `exact` means `XR K` or `XR ℝ`.

- **C01 Streaming equals stepping** - every operator whose result structure is a function of the argument structure; fold form of the loop. An iff: the call succeeds exactly when stepping does and the types agree. `C01_library`: this covers the whole catalogue.
- **C02 Chunked resumption** - induction on the first chunk; an iff. `C02_chunks` is the iff for any number of chunks (`Resumed`, Spec/Chunks.lean), by induction on the list of chunks.
- **C03 Causality** - corollary of the fold form.
- **C04 Series length discipline** - the size check over the flattened leaves; the stack at the end.
- **C05 State type stability** - induction on the loop.
- **C06 Initial state contract** - induction over the catalogue; closure of the four meta-operators also for arbitrary operators. `C06_surplus_input_is_state` shows why the input structure is fixed.
- **C07 map_fn preserves structure**, **C08 flatten and map_fn commute** - structural induction on nested values, for failing leaf functions too. `C07_map_fn_cut`: several sequences are cut to the shortest. `Props/Keys.lean`: dicts as arguments, and arguments of another kind.
- **C09 any_value / any_nan are exact** - reduction to `List.any` over the flattened elements. Equality is that of the arithmetic: no number equals NaN, so `any_value(inputs, nan)` is always false (C09_any_value_nan), and for every other value it is exact (C09_any_value_exact).
- **C10 Compose streams like a pipeline** - simulation of the composed loop by the chain of loops; induction on time and on the chain.
- **C11 Compose is associative and unital** - step-level equalities for arbitrary bracketings (`NestState`), lifted to series.
- **C12 Join streams independently**, **C13 Join / Factory arity** - simulation; list induction over the zip. C13 records the silent truncation.
- **C14 Map works column by column** - reading stacked tensors by rows; induction on time. `C14_map_typed`: unconditional for well-typed operators, which start from one fixed state. `C14_map_shares_initial_state` shows the condition on the initial state is needed.
- **C15 FFill forward-fills** - invariant: state = (last output, state of op after the zero-free prefix).
- **C16 What FFill can wrap** - `C16_ffill_iff`: both directions, for every sane uniform operator with a float signature; the failing operators are instances.
- **C17 Lag**, **C18 SetDuring**, **C19 Momentum** - histories, every arithmetic; Momentum from C10, C12, C17, C18. `C19_momentum_sum` (`Props/Compound.lean`): telescoping along an infinite stream.
- **C20 Global extrema**, **C21 Local extrema** - histories, every arithmetic; minimum/maximum in exact arithmetic. `Props/Infinite.lean`: the same for series in which infinities occur.
- **C22 Automaton** - the transition table as a relation (`Spec/Automaton`); invariant by induction on the run.
- **C23 Stateless operators** - float and int tensors of every shape; operands of different shapes are broadcast by NumPy's rules and fail exactly where these do not apply (C23_broadcasting, Spec/Broadcast).
- **C24 Which indices Select accepts** - `C24_select_iff`; tuples fail for every input and state; ints and lists compute the members.
- **C25-C27 SMA, EMA, RMA** - histories, every arithmetic and shape; recursion by index.
- **C28 Averages stay within the data** - exact; convexity, induction on the history.
- **C29 Moving standard deviation**, **C30 Bollinger bands** - exact; sums over windows.
- **C31 MACD** - history; the signal is what EMA outputs on the suffix of the macd series.
- **C32 SMA crossover** - pipeline of C10, C12, C25.
- **C33 Zero crossover**, **C34 Trading signals** - history with the direction as ghost state; alternation invariant.
- **C35 MACD signals before a genuine crossing** - exact account of what is emitted (`C35_before_signal`); `C35_genuine_iff`: the histogram at the first genuine index is an affine function of the last price with a non-zero slope (`lastWeight_ne`), so a price with a negative value exists.
- **C36 RSI** - history, every arithmetic; extended-real case analysis. `C36_pause` (Props/Underflow.lean): unchanged prices multiply both averages by (p - 1) / p, so their ratio stays.
- **C37 Returns** - history, every arithmetic in which 0 = 0; real logarithms. `C37_compound` (`Props/Compound.lean`): induction over the number of steps, along an infinite stream.
- **C38 Volatility and warm-up zeros** - `C38_volatility` says what the code does everywhere; `C38_genuine_iff` by powers of two, whose genuine returns are all equal.
- **C39 Sharpe ratio**, **C40 Skewness** - histories; identities over sums. The bound of the skewness (`Props/Skew.lean`): with b = √(n - 1), (d - bσ)(d + σ/b)² ≤ 0 for every deviation d from the mean (Samuelson's inequality), summed up.
- **C41 Correlation**, **C42 Cross- and auto-correlation** - histories; Cauchy-Schwarz.
- **C43 Average true range** - history over RMA. Tensor candles (`Props/AtrVectors.lean`): `C43_tensors` (the largest true range over all coordinates), `C43_tensors_above`, and `C43_one_number` (not coordinate by coordinate). `Props/MixedCandles.lean`: prices of different shapes; the model broadcasts the differences, compares with the shape `tf.where` needs and stacks; acceptance by inverting one step.
- **C44 When Supertrend fails** - `C45_supertrend_streams` has the exact condition on a series. `C44_supertrend_iff`: for factor < period a series of equal candles, a jump up and a partial pullback makes it fail; for factor >= period the true range is at most period * ATR, which bounds the gaps (`Props/SupertrendFails.lean`).
- **C45 Supertrend bands** - the band rule as a relation (`SuperStep`), followed along the run.
- **C46 Heikin-Ashi** - history; order facts.
- **C47 Drawdown**, **C48 Drawdown details** - history; run-length structure of the day counts by list induction.
- **C49-C51 Risk ratio** - state machine invariants over the run; C50 for runs without a stop price of 0; `C50_discipline_iff`: with p - 1 equal prices and one lower, the stop price can be made 0 for every stop_factor > 0 and p > 1.
- **C52 Windowed operators forget** - corollaries of the histories.
- **C53 Coordinates** - projection to a coordinate commutes with the histories.
- **C54 Mask and shift helpers**, **C55 Table transposition** - list induction.
- **C56 Well-typed operators stream** - soundness of the type system by induction on the derivation; it covers Compose, Join, FFill, Map and RiskRatioEvaluator, and gives dtype and shape of every state (`C56_typed_initial_state`: the initial state depends on the signature only).
- **C57 Forward-filled histories** - `Tracks.ffill`: FFill of anything tracked is tracked with the zero-free history. Props/FFillHistory.lean, Props/FFillHistory2.lean (there also what a risk-free rate of 0 does to FFill(SharpeRatio)).
- **C58 Change of unit** - `Spec/Transform` says what it means that an operator commutes with a map of the samples; `Lemmas/Scale` shows that every history function commutes with multiplication by c > 0 in the extended reals.
- **C59 Drawdown and the unit** - sufficient conditions for the losses and for the durations; `C59_drawdown_iff`: for every other unit there is a price that is below the threshold in one unit only.
- **C60 Mirror symmetry** - as C58 with negation; RSI and the zero crossover over finite samples; `C60_zero_first` shows why the first sample must not be 0.
- **C61 Superposition** - from the additivity of the historic functions, for any arithmetic with the laws collected in `Adding` (`XR K` has them, infinities and NaN included).
- **C62 Constant series** - the historic functions evaluated on `List.replicate n x`; the RSI and the correlation of a series that does not move are NaN, not 50 and not 0.
- **C63 Offset** - from C61 and C62 for the additive operators; differences of samples do not see the offset for the others.
- **C64 Order and distance** - one invariant for both halves: a relation kept by convex combinations, minimum and maximum (`Averaging`) is kept by the historic functions. MSD is shown not to be monotone.
- **C65 NaN samples** - additions, multiplications by constants and divisions by the period are strict in NaN, folded over the historic functions; comparisons with NaN are false, hence the extrema. `Props/NaN2.lean` adds crossovers, returns, bands, skewness and the first computed value of the relative strength index (there `tf.cond(x > 0)` turns a NaN change into 0). Nothing is claimed about the local extrema: what `tf.reduce_min` does with NaN depends on the build.
- **C66 What pipelines compute** (`Props/Pipelines.lean`): from C10 (pipelines) and C12 (banks) and the notion `StreamsAs op ser outs y` (`Spec/Streams.lean`: on series encoded by `ser` the outputs, encoded by `outs`, are the values of `y` on the prefixes; also when resumed). `C66_compose`, `C66_join` (any number of operators with different sample types), `C66_fork`, `C66_arithmetic`, `C66_fork_join`. The operators have to be in the library (`Lib`).
- **C67 Equations between operators** (`Props/Equations.lean`): `SameStreams op op' ser` (`Spec/Streams.lean`) says that both operators succeed with the same outputs, fresh and resumed from their own states. `C67_lag_lag` and `C67_autoCorrelation` hold in every arithmetic and come from C66 and the history functions of C17 and C42; `C67_averages_one`, `C67_extrema_one`, `C67_extrema_short` are in exact arithmetic over finite samples (an example shows that an infinity stays in EMA(1)). `C67_ffill_zero_free` is a corollary of C15; `C67_ffill_twice` is a simulation between the two forward-filled operators (`Lemmas/Coupled.lean`) for every operator of the type system of C56, over any list of chunks. `C67_not_interchangeable` is the negative result. `C67_local_local`, `C67_global_min`, `C67_global_max` (`Props/Extrema.lean`): a sliding extremum of a sliding extremum is one over the joined window; the minimum so far of sliding minima is the minimum so far.
- **C68 What Map computes** (`Props/MapHistory.lean`): `StreamsAs.steps` reads single steps off the history function of a well-typed operator (C56, C01); `C68_map` assembles them to a `Tracks` proof for Map, with the stack of the columns' states as state. `C68_map_tensors`, `C68_map_ints`, `C68_map_numbers` are the instances by type; `C68_map_sma` ... `C68_map_macd_signal` combine them with the coordinate lemmas of C53 to `SameStreams (Map op m) op`; `C68_map_return` ... `C68_map_extrema` are the instances for operators on numbers. An example shows that FFill(SMA) is not such an operator: mapping it changes the outputs.
- **C69 Bounds that hold in floating-point arithmetic** (`Props/Rounding.lean`, `Spec/Rounding.lean`): `FloatArith` says what is assumed: values in `XR K`, `+ - * /` are the exact results followed by a monotone, idempotent rounding that keeps small integers, comparisons are exact, `reduce_sum` adds along some tree that depends on the length only. `Lemmas/Binary32.lean` proves that round-to-nearest-even with 24 digits, gradual underflow and overflow to infinity is such an arithmetic (`FloatArith (F32 K) K`), as is exact arithmetic. The history functions of C25-C47 hold in every arithmetic; `Within` and `KeepsOrder` follow from closure lemmas for `not negative` and `not above`. `C69_average_exceeds`, `C69_constant_deviates`, `C69_constant_sharpe` are evaluated in binary32. `C69_rsi_pause_nan`, `C69_rsi_pause_stuck` (Props/Underflow.lean): the averages reach a number that one more unchanged price maps to itself (evaluated), from there on induction.
- **C70 Rounding errors do not add up** - `Approximates` (Spec/Accuracy.lean) relates a call in floating-point arithmetic to the same call in exact arithmetic. `Accurate` states the error of rounding; `round32_accurate` proves it for binary32 with ties to even. Sums: induction on the tree of additions with the factor (1 + u)^(n - 1). Recursive averages: one step multiplies the old error by 1 - w and adds a multiple of u M, so a bound proportional to u M / w is invariant. Inputs with errors (MACD signal, true ranges): averages are 1-Lipschitz. `Props/Accuracy2.lean`: delays and extrema only copy and compare; momentum, crossover, returns and Heikin-Ashi candles by adding up the roundings of one step. `Props/Accuracy3.lean`: deviations and Bollinger bands, for arithmetics whose `sqrt` is the rounded root (`SqrtRounded`, proved for binary32 over the reals); the rounded deviations from the rounded mean differ from the exact ones by a multiple of u M, and the root of a mean of squares is 1-Lipschitz in them (Minkowski), so the error of the root does not degrade to the square root of u. `Props/Accuracy4.lean`: errors that depend on the history (`ApproximatesAt`). RSI: gains and losses are averages of inexact changes; the ratio gain / (gain + loss) is Lipschitz with constant 1 / (gain + loss), and the formula the code uses for it loses at most 600 u more, by cases on whether gain / loss is huge. Drawdown: the peak is exact, a quotient at most 1 is rounded twice, and larger ones are cut off exactly. `Props/Accuracy5.lean`: Sharpe ratio; rounding the excess returns moves their mean by 3 u M and their deviation by 6 u M, and the quotient of the two is Lipschitz while the deviation stays away from 0. `Props/Accuracy6.lean`: correlation; products of rounded centred numbers, their mean, and a quotient whose exact numerator is at most the denominator (Cauchy-Schwarz). `Props/Accuracy7.lean`: cross- and auto-correlation, the same for the pairs of a sample and one `lag` earlier. `Props/Accuracy8.lean`: skewness, for arithmetics whose integer powers are rounded (`PowRounded`, true of the binary32 model by definition; `powf` need not be this accurate); the raw-moment formula of the code subtracts numbers of size M³, hence the error in units of u (M / s)³. `Props/Accuracy9.lean`: logarithmic returns and volatility, for arithmetics whose logarithms are rounded (`LogRounded`, again true of the binary32 model by definition only); a relative error 2 u of the quotient moves its logarithm by at most 5/2 u, and the deviation is 2-Lipschitz in the returns. `Props/Skew.lean` runs the binary32 model on 1001, 1003 (−64 instead of 0, a size no two numbers can have: `C40_skewness_bound`).
- **C71 Counters stay below the number of samples** - `TypedIn C` is the type system of C56 with a condition `C` on the int constants. `Operator.Graded Q` (Lemmas/Graded.lean) is an invariant of states that may depend on the number of steps made; `Q k` is what the ints satisfy after `k` steps. Each operator that is a function of its history is graded because its counters are lengths of parts of the history; Compose, Join, FFill and Map preserve the grading (the versions without a grading, used in C56, are the special case `Q = True`). The spec (`IntsWithin`, `CountsFrom`) is in Spec/Counters.lean. The model has unbounded ints; what is proved is that below the stated number of samples the ints in outputs and states are the same as int32 ints. `SignsExact` (proved for exact arithmetic and for binary32) says that -1, 0, 1 survive negation and the cast to int in ZeroCrossoverSignal. Not bounded: sums and products of ints by Add and Mul (not in the type system).
- **C72 Map distributes over pipelines and banks** - `Props/MapLaws.lean`: `C72_map_compose`, `C72_map_join`, `C72_map_identity`, `C72_interchange`. By columns: C14_map_typed gives the columns of a mapped operator, C10 and C12 give what pipelines and banks do with a column, and columns determine a series (`columns_ext`). `chunks_same` carries equal outputs on whole series over to any sequence of calls (C02_chunks). Only the outputs are compared; the states of both sides are nested differently.
- **C73 Recursive averages forget exponentially** - `Props/Fading.lean`, `Spec/Sequences.lean` (`Fades`). Exact arithmetic over every ordered field. The averages are folds of an affine contraction; the closed form of the weights is proved as well.
- **C74 How a step gets its arguments** - `Props/Arguments.lean`. `SameArgs` relates the two ways of writing the arguments; `map_fn` keeps the relation, so it goes through the slices of the loop. No hypothesis on the inputs: the errors agree as well. Every arithmetic.
- **C75 Convergence** - `Spec/Limits.lean` (`Settles`, on top of `Yields` of `Spec/Sequences.lean`: what a call on the first n samples outputs, for every n), `Props/Reals.lean` (values of the operators on the first n samples of a sequence), `Props/Limits.lean`. Exact arithmetic on the real numbers, with the limits of Mathlib (`Filter.Tendsto`). The exponential and rolling averages by comparison: |average - L| is at most a multiple of itself, less than one, plus a term that vanishes.
- **C76 Straight lines and steady growth** - `Props/Trends.lean`. Closed forms for all indices, warm-up included. The recursive averages by `recursiveAvgK_seq`: a sequence with the right start that satisfies the recursion is the output. That the exponential average lags a straight line by exactly as much as the simple one is why the line of MACD is constant there. Exact arithmetic on any ordered field; the square root and the logarithm on the real numbers.
- **C77 What the outputs tell about the samples** - `Spec/Recover.lean` (`Determines`), `Props/Recover.lean`. The necessity half exhibits two series that differ only within the warm-up; the lossy cases two series that differ for ever in a sample no output depends on. Exact arithmetic: in binary32 rounding loses information.
- **C78 The order of samples within the window does not matter** - `Spec/Recover.lean` (`Unordered`), `Props/Symmetric.lean`. The window of the one series is a permutation of the window of the other, and the statistics are functions of the window up to permutation. In binary32 addition is not associative and the claim fails for the sums, so it is stated for exact arithmetic.
- **C79 Order between operators** - `Spec/Recover.lean` (`Compares`), `Props/Between.lean`. The bound on the deviation is Popoviciu's inequality, the one on the bands Samuelson's; a series of equal samples followed by a different one shows that the latter is sharp. `Props/Chebyshev.lean`: Chebyshev's inequality for the window.
- **C80 When correlations are perfect** - `Props/Perfect.lean`. The variance of the residuals y - a x is var y - 2 a cov + a^2 var x; at the slope e sd y / sd x it is 2 var y (1 - e corr), which is zero only if the residuals are constant. `C80_direction` evaluates a pair of series in which the second follows the first: the coefficient is -1, with the series exchanged it is 1.
- **C81 The shapes of a state must not change** - `Model/StaticShapes.lean` (streamable.py:63-64), `Spec/Shapes.lean` (`shapeOf`, `SameShapes`), `Lemmas/StaticShapes.lean`, `Props/StaticShapes.lean`. TensorFlow compares shapes once, on the graph; the model compares the shapes of the values in every iteration. A tensor out of `tf.cond` whose branches have different shapes has an unknown dimension, and `set_shape` accepts it; by values it is accepted if the branch taken has the right shape (EMA(0)).
- **C82 Which periods the operators accept** - `Props/Periods.lean`. A negative period fails in `tf.zeros`, a period 0 in the first step (an index into an empty buffer) or because the buffer grows from 0 to 1 element (C81); positive periods by the typing of C56. EMA(0) and RMA(0) by the invariant that their buffer stays empty: `iteration < 0` never holds, so the first branch of `tf.cond` is never taken. For operators built from others (`Props/PeriodsMore.lean`) the failure is traced to a part: `Jumps op x` says that on `x` the operator fails or its first step changes the shapes of its state, and holds for Compose and Join as soon as it holds for a part on what reaches it.
- **C83 How many tensors a step takes** - `Spec/Arity.lean`: the table of inputs and state parts, read off the documented calls; `Props/Arity.lean`. The arity check is the first thing every step does (`arity`, Python's binding of arguments to parameters), so the failure does not depend on the contents; the number of parts by inversion of each step, along a stream by the equivalence with stepping (C01).
- **C84 Which series the operators accept** - the table is the inductive predicate `Accepts` (`Spec/Accepts.lean`); `C84_accepts` is an equivalence for `call` and for `callStatic`: accepted samples are steady (C56, and history lemmas for ints and tensor candles), others fail at the first step. RSI on tensors that are no scalars is stated for known shapes only (`C84_rsi`): with unknown ones TensorFlow would only notice after the warm-up, which the model does not follow. Positive and Negative likewise (`C84_indicators`): they use the static `x.shape`, which must be known. Tensors of different shapes: C23 for Add, Sub, Mul, C86 for Correlation; for the others the model is stricter than TensorFlow, so nothing is claimed.
- **C85 Back-testing a crossover** - `C85_backtest` takes the pipeline apart with C10 and C12; `C85_trades` is an invariant of the state machine (sells, plus one while a position is open, never exceed buys); `C85_bounded` combines them with C34: signals alternate, so that of any prefix at most half (rounded up) are 1. `C85_crossover` and `C85_macd` instantiate it. An example beside them reaches the bound (two bets in six candles with slow = 2). `Backtest` is not a definition of /repo but the composition of shipped operators a user would write.
- **C86 Correlation of samples of different shapes** - broadcasting by NumPy's rules (`Broadcasts`, Spec/Broadcast); `C86_shapes` is an equivalence: outputs before index p have shape s, so those after it must too (slices of a series have one signature). `C86_misaligned` gives the values, `C86_uninformative` that they say nothing. With shapes known when the graph is built TensorFlow notices incompatible ones already then.
- **C87 When the counters overflow** - `op.int32` (Model/Int32.lean) is the operator whose outputs and states are reduced to int32, two's complement, after each step; that TensorFlow's int32 addition wraps around is the assumption made there. `C87_before` lifts the grading of C71 to an equality of calls, for every operator of the type system (composites included), and so removes the simplification "ints are unbounded" up to `2^31 - 1 - M` samples. The other theorems give what each operator outputs after any history, for all lengths (`StreamsAs`, hence also for resumed calls): `Cold c i` (Spec/Overflow) says that the wrapped counter is below `c` at sample `i`, `reach p i` how many samples Python's `buffer[:iteration + 1]` takes. EMA, RMA, ATR and MACD are stated for a first call up to sample `2^32 - p`, where the counter of the inner average overflows in turn; CrossCorrelation and AutoCorrelation up to sample `2^32` (the inner correlation is no longer updated from sample `2^31` on). The operators composed of the above are covered by `C87_before` only.
- **C88 Infinite samples** - `Spec/Infinities.lean` sorts the numbers into finite, two infinities and NaN and says what a collection of samples adds up to, by membership only. `Props/Infinities.lean` shows that the sort of a sum, of a product with a positive constant and of a quotient is determined by the sorts, and folds this over the historic functions. Multiplication by the weight 0 of EMA(1) and RMA(1) turns an infinity into NaN, which is why these are not the identity on series with infinities. For the deviations one sample minus the mean is NaN as soon as one sample is infinite. Exact arithmetic: in float32 a sum of finite samples may itself overflow to an infinity, which is covered by C70's bounds only. `Props/Infinities2.lean`: MACD, where both averages become the same infinity and their difference NaN, and the Sharpe ratio. `Props/Infinities3.lean`: RSI, where the step up to an infinity makes the average gain infinite and the step down the average loss; one infinity among numbers, so that `tf.maximum` never sees a NaN. Correlation is claimed to be NaN with infinities, not to be a number without (0/0 for constant windows, C41).
- **C89 States can be handed over** - `Spec/Handover.lean` defines taking components from a state and what it means that a part goes on from there; `Props/Handover.lean` derives the claims from the states as functions of the history (`Tracks`). For `Compose` and `Join` in general this is part of C10 and C12.
- **C90 Averages and extrema do not oscillate more than the samples** - `Spec/Variation.lean` defines the distance a series travels (`variation`) and `Calms op n`; `Props/Variation.lean` proves it with a potential that pays for the moves of the outputs: the distance between the average and the last sample (exponential and rolling averages), the distance between the extremum and the last sample (extrema), the variations of the last q samples for every q up to p, divided by p (simple average). `C90_warm_up` and `C90_momentum` show that the warm-up has to be left out and that differences do oscillate more.
- **C91 Lags, differences and simple averages are linear filters** - `Spec/Filters.lean` defines what it means that a polynomial over the field is the transfer function of an operator (`Filters op P w`, X being a delay by one sample, `w` the warm-up); `Props/Filters.lean` proves it of the operators, that it is unique (the answer to a single 1 among zeros), that `Compose` multiplies the polynomials (through `C10_compose_pipeline_library`), hence that filters commute, and that the recursive averages have none (their answer to a single 1 never becomes zero).
- **C92 Moving averages do not add energy** - `Damps` (Spec/Energy.lean) measures size by an arbitrary convex function. `Props/Energy.lean`: a potential holds what the samples have not yet paid for. Simple average: by Jensen's inequality a sample pays phi / p to each of the p windows it is in. Recursive averages with weight w: phi(new) / w is at most phi(old) (1 - w) / w + phi(sample), and the seed is covered because w p >= 1 (2 p / (p + 1) for the exponential, exactly 1 for the rolling average).
- **C93 Resuming with another period** - Spec/TakesOver.lean states `TakesOver`: any series through the first operator, any further samples through the second from the first one's final state. Props/TakesOver.lean proves it with the same invariants as C01, now relating the second operator's steps to the state of the first (`takesOver_of`). The condition in the recursive averages (at least max(p, q) samples) keeps the inner SimpleMovingAverage state out of the result; below it the outcome mixes both periods and is not stated. The example beside `C93_local_min` shows the zeros: 4 through LocalMinimum(3), then 5 through LocalMinimum(2) outputs 0. `Props/TakesOver2.lean`: returns (a shorter period finds its sample in the longer buffer, a longer one indexes past its end), skewness, Sharpe ratio and RSI. `Props/TakesOver3.lean`: correlation, Bollinger bands, momentum and the crossover of two averages; the last two compose the invariants of their parts with C01's chain rules, restricted to histories longer than the first series.
- **C94 Operators in terms of each other** - `Spec/Relations.lean` says what it means that an operator outputs a list of numbers and what rises, falls and candles without width are; `Props/Relations.lean` compares the outputs of the calls, using the closed forms proved for each operator over the reals.
- **C95 Which transformations of the samples pass through the operators** - `PassesThrough` in `Spec/Relations.lean`; `Props/Transforms.lean` reduces it to the closed forms of the outputs (`StreamsAs.passes`) and finds, for functions that do not qualify, a series that tells them apart.
- **C96 Which transformations of the samples the ratios do not notice** - `PassesThrough` in `Spec/Relations.lean`, with the outputs unchanged; `Props/Unnoticed.lean` evaluates the closed forms on series with two or three different samples, from which the shape of f follows, and uses C58 and C63 for the converse.
- **C97 Exactly which outputs are possible** - `CanOutput` in `Spec/Relations.lean`; `Props/Possible.lean` reduces it to the closed forms of the outputs (`StreamsAs.can`) and gives, for every value in the set, a series that attains it; for skewness that series exists by the intermediate value theorem along a circle of samples from one extreme to the other.
- **C98 Exactly which series can be the outputs** - `Image` and `Silent` in `Spec/Relations.lean`, `Alternates` in `Spec/Crossing.lean`; `Props/Images.lean` chooses the samples one after the other (`scan_onto`), for returns with the invariant that a sample is zero only where the output is -1, for the zero crossover with the direction before the first sample. `Props/Images2.lean`: for a local maximum the samples are the least of the next `p` outputs; for the average true range candles that close at 0; for RSI the first `p + 1` samples are chosen at once, then a gain or a loss for each further output (`share_next`, `RsiNext` in `Spec/Relations.lean`). `Props/Images3.lean`: the difference of two averages and the MACD histogram depend on the last sample by a factor that is not zero (`smaDiffK_onto`, `macdHistK_onto`), so their crossings can be chosen; the first MACD signal is always -1 because the direction of the warm-up zeros counts as up (see C35).
- **C99 Repeating every sample** - `hold`, `Slowed`, `SlowedLast` and `once` in `Spec/Relations.lean`. `Props/Hold.lean`: a sample `k * p` back in the repeated series is the one `p` back in the original (`hold_lagged`), a window of `k * p + 1` repeated samples contains the same numbers as one of `p + 1` (`hold_window_mem`), averages of repeated numbers are the averages (`avg_hold`), the sign before the last run does not change within it (`turns_replicate`).
- **C100 Series in reverse order** - `Reverses` in `Spec/Relations.lean`. `Props/Reverse.lean`: a full window of the reversed series is a full window of the series, reversed (`window_reverse`), and the statistics do not depend on the order (the lemmas of C78); the first and the last sample of a window change places (`lagged_reverse`); the correlation of the first full window is never output, which is why one output at the end has no counterpart.
- **C101 Every k-th sample** - `Every` and `Subsamples` in `Spec/Relations.lean`. `Props/Subsample.lean`: the sample `k * p` back in the series is the one `p` back among the taken ones (`Every.lagged`), taken samples in a window lie in the longer window of the series (`Every.mem`), and the loss with respect to a higher peak is deeper (`drawdownK_anti`).
- **C102 What the outputs add up to** - `Totals` in Spec/Relations.lean: f of the outputs is g of the samples. Props/Totals.lean proves each by induction on the series from its end (`scan_induction`), where a step adds one output and moves the two ends of the sums by one. The signals telescope because a signal is always against the direction before it (`turnAt_sign`). Exact arithmetic only: rounded sums do not telescope.
- **C103 Sums, mixtures and extrema of two series** - `Combines` in Spec/Relations.lean: the outputs for the series of all f x y and those for the two series are related index by index. Props/Combine.lean: extrema by their defining inequalities; the standard deviation by the identity for the variance of a sum and Cauchy-Schwarz for the covariance (both from C41/C80). During the warm-up all of it is about zeros. Averages are exactly linear (C61) and need no inequality.
- **C104 Exactly which samples an output depends on** - `Depends` (Spec/Relations) quantifies over pairs of runs of `call`; `StreamsAs.depends_iff` reduces it to the function of the history, whose dependence is decided by `window_set` (a change of one sample changes one entry of the window or none) and by impulses on a series of zeros (`rec_moves` by induction for the recursive averages, `thirdMoment_impulse` for the skewness, `rsi_nan_iff` for the RSI). Theorems: `C104_*` in Props/Depends, Props/Depends2 and Props/Depends3.
- **C105 Exactly which histories have the same future** - `SameFuture` (Spec/Relations) runs `call` on both histories and compares the outputs of every resumed call; `StreamsAs.sameFuture_iff` reduces it to the function of the history on `a ++ xs` and `b ++ xs`. The converse directions choose continuations: zeros that shift a sample to the end of the window (Lag, Momentum, SMA), a sample between the two extrema, a price between the two peaks. `rec_mixed` shows that a history of p - 1 samples can be like a longer one only if the weight is 1/p, which happens for the rolling average and not for the exponential one. Two hyperbolas that agree at two points (`hyperbolas`) tell the gains and losses of the RSI. Theorems: `C105_*` in Props/Future and Props/Future2 to Props/Future8. For the correlation the sign of the covariance with one further pair, far up and far down, tells the sums (`corr_told`); its first output comes after p + 1 pairs and looks at p of them, so the first pair of a series never matters.

## 6. Where the code does not do what one expects

Each is proved about the model.

- **C13** `Join` with fewer inputs than operators drops operators without an error (`zip`).
- **C14** `Map` gives every column the initial state computed from column 0.
- **C16** `FFill` over an operator whose state is a one-element tuple fails: `tf.cond` unpacks it (SetDuring, AutoCorrelation, Map, Compose of one operator).
- **C15** FFill takes the number 0.0 as `missing`, whatever it means; inputs with ints fail.
- **C24** `Select((0, 1))` returns a generator. `Compose()` raises UnboundLocalError (C11).
- **C35** the MACD signal emits -1 at a first genuine negative histogram value, because warm-up zeros count as +. The library's own fixture
  (`finance/signals/tests/resources/macd_signals.ods`) expects 0 there; `SetDuring(0, slow + macd - 1)` would give that. As written, the code
  (and the model) disagrees with the fixture at index 33.
- **C36** with period 1, RSI is NaN whenever the last move is 0.
- **C38** Volatility(m, r) for r > 1 averages warm-up zeros as if they were returns.
- **C41** Correlation(p) emits 0 at index p-1, where a full window is available.
- **C43** the first true range is max(high - low, 0), and a previous close of exactly 0 is read as `no previous close`.
- **C23** Positive and Negative ask for the static shape of their input (`x.shape`, not `tf.shape(x)`): they cannot be built on placeholders of unknown shape, as all others can.
- **C43** ATR over vectors of prices is one number for all coordinates: `tf.reduce_max` has no axis.
- **C44** Supertrend aborts in `tf.case(exclusive=True)` when the close is beyond both previous bands, also with the usual parameters (10, 3); only factor >= period excludes it.
- **C46** Heikin-Ashi uses the previous raw candle (not the previous Heikin-Ashi candle), and a previous open of 0 is read as the first step.
- **C47** the peak of Drawdown lags by one step: a new maximum counts from the next step on.
- **C59** Drawdown compares with the absolute number 0.0001: prices quoted in a coarse unit never have a drawdown.
- **C69** in float32 a constant series has a standard deviation that need not be zero (1.7 three times: 2^-23), so the `stddev == 0` branch of SharpeRatio is missed and the ratio
  is 14260635; a moving average can lie above all its samples. While the price does not move, the averages of gains and losses of RSI decay until they underflow: to 0 for period 2 (the index turns
  NaN), or to the smallest positive number for period 3, where both get stuck and the index turns 50 whatever it was. (A processor that flushes denormal numbers to zero gets NaN for every period.)
- **C70** Skewness subtracts raw moments and so loses (M / s)³ units of accuracy: in float32 the skewness of 1001 and 1003 is -64, of any two numbers it should be 0.
- **C80** the docstring of CrossCorrelation says `Value1 is leading`; the operator compares the first series with the past of the second one, so the second one leads.
- **C82** EMA and RMA, and so ATR, MACD and MACDSignal, accept the period 0; the outputs are twice the alternating sum of the samples, and infinities or NaN.
- **C86** Correlation accepts a series of vectors and a series of numbers if the vectors are as long as the period; broadcasting then aligns time with coordinates and every output is 0 or NaN.
- **C87** after 2^31 samples streamed with the same state the int32 counters turn negative and most operators output constants (0, infinities, NaN), or other averages, for another 2^31 samples.
- **C50** a stop price of exactly 0 is read as `no position`.
- **C54** `roll` and `shift` on an empty buffer return a buffer of length 1; Lag(0) and CrossCorrelation with lag 0 fail.

## 7. Tests of the theorems

`seeded/mutate.py` makes a scratch copy of the project without the examples, applies one edit to the model, rebuilds, and finds the property theorems whose proofs
fail or rest on a lemma whose proof fails; `seeded/mutants_*.json` are the edits, `seeded/LOG.jsonl` the results, with the theorems that were tightened.
Not every edit has been run: one without a line in `LOG.jsonl` has no result. These are all of `mutants_args`, `mutants_base`, `mutants_depends`, `mutants_infinite` (but for one that was run under another name),
`mutants_int32` and `mutants_variation`, five of the six in `mutants_future` (the sixth was run as part of `mutants_totals`), and one in `mutants_further`.

`tools/conformance.py` replays the library's own tests (31 fixture sheets and the literals in the `*_spec.py` files) on the model with Lean's `Float32`; CONFORMANCE.txt is
the result: everything agrees within the tolerance of the tests, except the MACD fixture mentioned under C35.
