{"id": "C01", "title": "Streaming equals stepping", "statement": "Calling an operator on whole series gives, at every index i, exactly the output obtained by calling it with streamable=False on the i-th slice of the inputs with the state left by the previous step, starting from the initial state the call reports; the final state returned is the state after the last slice.", "quantifier": "every operator (any step function), every nested input structure, every series length >= 1, provided or absent state", "why_tests_cant": "Needs all operators, all structures and all lengths; a test fixes one of each.", "anchors": ["tensorstream/streamable.py:Streamable.call_streamed", "tensorstream/streamable.py:Streamable.__call__", "tensorstream/streamable.py:Streamable.forward_step"]}
{"id": "C02", "title": "Chunked resumption", "statement": "Splitting a series at any point, streaming the first chunk and then streaming the second chunk with state= the final state of the first gives the same concatenated outputs, the same final state and the same reported initial state as streaming the whole series at once. The same holds for any number of chunks, each streamed with the final state of the one before.", "quantifier": "every operator, every input structure, every way to split into non-empty chunks, provided or absent state", "why_tests_cant": "Quantifies over every split of every history.", "anchors": ["tensorstream/streamable.py:Streamable.call_streamed"]}
{"id": "C03", "title": "Causality", "statement": "The outputs for the first k time steps do not depend on later inputs: two calls whose inputs agree on the first k steps produce outputs that agree on the first k steps.", "quantifier": "every operator, every pair of input series agreeing on a prefix, every prefix length", "why_tests_cant": "A look-ahead can hide at any index and any input; tests sample a few series.", "anchors": ["tensorstream/streamable.py:Streamable.call_streamed"]}
{"id": "C04", "title": "Series length discipline", "statement": "If the leaves of the inputs do not all have the same leading dimension the call fails; if the call succeeds every output leaf has that same leading dimension.", "quantifier": "every operator, every nested input structure (tuples, lists, dicts), all lengths", "why_tests_cant": "The check must hold for every structure shape and every combination of sizes.", "anchors": ["tensorstream/streamable.py:Streamable.call_streamed", "tensorstream/helpers/flatten.py:flatten"]}
{"id": "C05", "title": "State type stability", "statement": "If one step changes the nested structure or any dtype of the state, the streamed call is rejected; if the call succeeds, the final state has the same nested structure and dtypes as the initial state.", "quantifier": "every operator, every input, every state structure, every number of steps", "why_tests_cant": "Needs every operator and every state structure.", "anchors": ["tensorstream/streamable.py:Streamable.check_types_equality", "tensorstream/streamable.py:Streamable.to_type", "tensorstream/streamable.py:Streamable.call_streamed"]}
{"id": "C06", "title": "Initial state contract", "statement": "For every operator shipped in the library, calling it without a state returns the same result as calling it with the initial state that call reports, and calling it with a state reports that very state as the initial state. Compose, Join, Map and FFill preserve this contract.", "quantifier": "every operator that can be built from the shipped ones, every parameter value, every input of the structure the operator is made for (a surplus element of an input tuple is taken for state), every state of the structure of the initial state", "why_tests_cant": "The streaming loop silently relies on it at the first step; a violation shows only for particular states and inputs.", "anchors": ["tensorstream/streamable.py:Streamable.call_streamed", "tensorstream/meta/compose.py:Compose.step", "tensorstream/meta/join.py:Join.step", "tensorstream/meta/ffill.py:FFill.step", "tensorstream/meta/map.py:Map.step", "tensorstream/finance/moving_average.py"]}
{"id": "C07", "title": "map_fn preserves structure", "statement": "map_fn(x,[x],f) has exactly the structure of x (same containers, same keys, same lengths), applies f to every leaf exactly once in place, maps the identity to the identity and composes: mapping f then g equals mapping g after f. With several sequences of different lengths the result is cut to the shortest. On a dict every argument must be a dict with these keys; the order of its keys does not matter and its other keys are dropped.", "quantifier": "every nested tuple/list/dict value, every leaf function", "why_tests_cant": "Recursive structure of unbounded depth.", "anchors": ["tensorstream/helpers/map_fn.py:map_fn"]}
{"id": "C08", "title": "flatten and map_fn commute", "statement": "flatten returns the leaves in depth-first order, flatten(map_fn(x,[x],f)) is f mapped over flatten(x), and two values with the same structure and the same flatten are equal.", "quantifier": "every nested tuple/list/dict value, every leaf function", "why_tests_cant": "Recursive structure of unbounded depth.", "anchors": ["tensorstream/helpers/flatten.py:flatten", "tensorstream/helpers/map_fn.py:map_fn"]}
{"id": "C09", "title": "any_value / any_nan are exact", "statement": "any_value(inputs,v) is true iff some element of some leaf tensor equals v, and always false for v = NaN, which equals nothing; any_nan(inputs) is true iff some element of some leaf tensor is NaN.", "quantifier": "every nested structure of float tensors of every rank and size", "why_tests_cant": "Needs every structure, rank and position.", "anchors": ["tensorstream/helpers/any_value.py:any_value", "tensorstream/helpers/any_nan.py:any_nan"]}
{"id": "C10", "title": "Compose streams like a pipeline", "statement": "Streaming Compose(f1,...,fn) over inputs gives the same outputs as streaming fn over the inputs, then fn-1 over its outputs, ..., then f1, and its final and initial states are the tuple of the operators' states in execution order.", "quantifier": "every chain of operators honouring the initial state contract, every input series", "why_tests_cant": "All pipelines of all lengths over all inputs.", "anchors": ["tensorstream/meta/compose.py:Compose"]}
{"id": "C11", "title": "Compose is associative and unital", "statement": "Nesting Compose does not change outputs: Compose(f,Compose(g,h)), Compose(Compose(f,g),h) and Compose(f,g,h) give equal outputs at every step and stream; Compose(f) gives the outputs of f; Compose() of nothing fails.", "quantifier": "all operators, all inputs, all states", "why_tests_cant": "All operators and nestings.", "anchors": ["tensorstream/meta/compose.py:Compose"]}
{"id": "C12", "title": "Join streams independently", "statement": "Streaming Join(f1,...,fn) over (x1,...,xn) gives the tuple of what streaming each fi over its own xi gives (outputs, final states, initial states); no operator sees another's input or state.", "quantifier": "every list of operators honouring the initial state contract, all inputs of a common length", "why_tests_cant": "All operator lists and all inputs.", "anchors": ["tensorstream/meta/join.py:Join", "tensorstream/meta/factory.py:Factory"]}
{"id": "C13", "title": "Join / Factory arity", "statement": "Join and Factory return min(#operators, #inputs, #states) outputs (#states = #operators without initial state), the j-th being the output of the j-th operator on the j-th input from the j-th state; with one input per operator there is one output per operator. Surplus operators or inputs are dropped without an error.", "quantifier": "every list of operators, every number of inputs and states", "why_tests_cant": "Every arity combination.", "anchors": ["tensorstream/meta/join.py:Join.step", "tensorstream/meta/factory.py:Factory"]}
{"id": "C14", "title": "Map works column by column", "statement": "Streaming Map(op,size) over series whose slices have a leading dimension `size` gives, in column k, what streaming op over column k alone gives, for outputs and for states.", "quantifier": "every operator whose initial state does not depend on the input values (every well-typed operator is one), every size, every input series", "why_tests_cant": "All operators, widths and series.", "anchors": ["tensorstream/meta/map.py:Map"]}
{"id": "C15", "title": "FFill forward-fills", "statement": "Streaming FFill(op): at a step whose input contains the value 0 the output repeats the previous output (zeros if there is none) and op's state does not move; otherwise the output is what op produces when run only over the zero-free steps so far.", "quantifier": "every operator, every interleaving of zero and zero-free steps", "why_tests_cant": "All interleavings of missing values with all operator states.", "anchors": ["tensorstream/meta/ffill.py:FFill"]}
{"id": "C16", "title": "What FFill can wrap", "statement": "FFill(op), over an operator op that streams float inputs of a fixed signature, streams if and only if op's output is not a tuple or list of fewer than two elements, and op's state is () or not a tuple or list of fewer than two elements. In particular FFill over SetDuring, AutoCorrelation, Map(op, n) and Compose(op) fails on every series.", "quantifier": "every streamable operator, every float input series", "why_tests_cant": "Depends on the state structure of an arbitrary operator.", "anchors": ["tensorstream/meta/ffill.py:FFill.step", "tensorstream/common/set_during.py:SetDuring", "tensorstream/common/correlation.py:AutoCorrelation"]}
{"id": "C17", "title": "Lag delays by exactly period steps", "statement": "The output of Lag(period) at index i is the input at index i-period, or zero when i < period; the final state holds the last `period` inputs, newest first.", "quantifier": "every period >= 1, every series, every dtype and element shape", "why_tests_cant": "All periods and series lengths, including series shorter than the period.", "anchors": ["tensorstream/common/lag.py:Lag", "tensorstream/common/__init__.py:roll"]}
{"id": "C18", "title": "SetDuring", "statement": "SetDuring(v,period) outputs v (in every element) at indices below period and the unchanged input from index period on; resuming from a state keeps counting where the previous call stopped. It streams exactly when v is a scalar and every tensor of the series has its dtype.", "quantifier": "every period, value, series, structure, split", "why_tests_cant": "All periods and resumption points.", "anchors": ["tensorstream/common/set_during.py:SetDuring"]}
{"id": "C19", "title": "Momentum", "statement": "Momentum(period) outputs 0 at indices below period and x[i]-x[i-period] from there on. Successive momenta add up: the outputs at i+p, i+2p, ..., i+kp sum to x[i+kp]-x[i].", "quantifier": "every period >= 1, every float series", "why_tests_cant": "All periods and lengths; composition of five operators.", "anchors": ["tensorstream/finance/momentum.py:Momentum"]}
{"id": "C20", "title": "Global extrema", "statement": "GlobalMinimum / GlobalMaximum output at index i the minimum / maximum of the inputs at indices 0..i (all-positive and all-negative series alike).", "quantifier": "every non-empty series of ints or of floats without NaN, infinities included", "why_tests_cant": "The zero-initialised state would be wrong for some sign patterns; needs all series.", "anchors": ["tensorstream/common/extremum.py:GlobalMinimum", "tensorstream/common/extremum.py:GlobalMaximum"]}
{"id": "C21", "title": "Local extrema", "statement": "LocalMinimum(p) / LocalMaximum(p) output at index i the minimum / maximum of the last min(i+1,p) inputs.", "quantifier": "every period >= 1, every series of ints or of floats without NaN, infinities included", "why_tests_cant": "All periods, lengths and warm-up positions.", "anchors": ["tensorstream/common/extremum.py:LocalMinimum", "tensorstream/common/extremum.py:LocalMaximum", "tensorstream/common/__init__.py:shift"]}
{"id": "C22", "title": "Automaton takes the first enabled transition", "statement": "At each step Automaton takes the first listed transition whose source is the current state and whose guard holds, outputs its action and moves to its target; if none is enabled it outputs the default action and stays. From the initial state it never leaves the set {init_state} plus the targets of the table.", "quantifier": "every transition table, every guard and action, every input series", "why_tests_cant": "All tables, all histories.", "anchors": ["tensorstream/common/automaton.py:Automaton"]}
{"id": "C23", "title": "Stateless arithmetic operators", "statement": "Add, Sub, Mul, Identity, Fork(n), Select, Positive and Negative stream element by element: the output at index i is the operation applied to the inputs at index i, with no dependence on other indices; Add, Sub and Mul combine operands of different shapes by NumPy's broadcasting rules and fail on all other shapes; Fork(n) yields n equal copies; Positive/Negative are 0/1 indicators that are never both 1.", "quantifier": "every series, every n, every index", "why_tests_cant": "All series and element shapes.", "anchors": ["tensorstream/common/common.py", "tensorstream/common/make_streamable.py:LambdaStreamable"]}
{"id": "C24", "title": "Which indices Select accepts", "statement": "On a tuple of series, Select(indices) streams if and only if indices is an int or a list of ints, all within -n..n-1 for a tuple of n members; it then returns that member or the list of these members. With a tuple of indices, which the code has a branch for, it fails on every input: the result is a generator, which the streaming loop and every downstream operator reject.", "quantifier": "every int, list and tuple of indices, every tuple of series", "why_tests_cant": "Not covered by the suite; needs all index tuples.", "anchors": ["tensorstream/common/common.py:Select"]}
{"id": "C25", "title": "Simple moving average", "statement": "SimpleMovingAverage(p) outputs 0 at indices below p-1 and the sum of the last p inputs divided by p from there on.", "quantifier": "every period >= 1, every series, every arithmetic, every element shape", "why_tests_cant": "All periods, lengths and values.", "anchors": ["tensorstream/finance/moving_average.py:SimpleMovingAverage"]}
{"id": "C26", "title": "Exponential moving average", "statement": "ExponentialMovingAverage(p) outputs 0 below index p-1, the simple average of the first p inputs at index p-1, and k*x[i]+(1-k)*ema[i-1] with k=2/(p+1) afterwards.", "quantifier": "every period >= 1, every series, every arithmetic, every element shape", "why_tests_cant": "All periods, lengths and values.", "anchors": ["tensorstream/finance/moving_average.py:ExponentialMovingAverage"]}
{"id": "C27", "title": "Rolling moving average", "statement": "RollingMovingAverage(p) outputs 0 below index p-1, the simple average of the first p inputs at index p-1, and (rma[i-1]*(p-1)+x[i])/p afterwards.", "quantifier": "every period >= 1, every series, every arithmetic, every element shape", "why_tests_cant": "All periods, lengths and values.", "anchors": ["tensorstream/finance/moving_average.py:RollingMovingAverage"]}
{"id": "C28", "title": "Moving averages stay within the data", "statement": "From index p-1 on, SMA, EMA and RMA lie between the minimum and maximum of the inputs seen so far (SMA: of the last p inputs); on a constant series they equal the constant.", "quantifier": "every period >= 1, every finite series, exact arithmetic", "why_tests_cant": "Inequality over all real series.", "anchors": ["tensorstream/finance/moving_average.py"]}
{"id": "C29", "title": "Moving standard deviation", "statement": "MovingStandardDeviation(p) outputs 0 below index p-1 and then the population standard deviation of the last p inputs; it is never negative, is 0 exactly when the last p inputs are equal, is unchanged by adding a constant to the series and scales with |c| when the series is multiplied by c.", "quantifier": "every period >= 1, every finite series, exact arithmetic", "why_tests_cant": "All series; algebraic identities.", "anchors": ["tensorstream/finance/moving_standard_deviation.py:MovingStandardDeviation"]}
{"id": "C30", "title": "Bollinger bands are ordered and centred", "statement": "BollingerBands(n,k) with k>=0 outputs lower <= middle <= upper at every index; middle is SMA(n), and upper-middle = middle-lower = k times the moving standard deviation.", "quantifier": "every n >= 1, k >= 0, every finite series", "why_tests_cant": "All real series and parameters.", "anchors": ["tensorstream/finance/bollinger_bands.py:BollingerBands"]}
{"id": "C31", "title": "MACD", "statement": "MACD(slow,fast,m) outputs (EMA slow, EMA fast, macd, signal, histogram) where macd is EMAfast-EMAslow from index slow-1 on and 0 before, signal is EMA(m) of the macd series started at index slow-1 (0 before), histogram is macd-signal from index slow+m-2 on and 0 before.", "quantifier": "every slow, fast, m >= 1, every series, every arithmetic", "why_tests_cant": "All period triples and alignments of three nested averages.", "anchors": ["tensorstream/finance/moving_average_convergence_divergence.py:MovingAverageConvergenceDivergence"]}
{"id": "C32", "title": "SMA crossover", "statement": "SimpleMovingAverageCrossover(slow,fast) outputs SMA(fast)[i]-SMA(slow)[i] for i >= slow-1 and 0-SMA(slow)[i] = 0 before.", "quantifier": "every slow, fast >= 1, every series", "why_tests_cant": "All period pairs and lengths.", "anchors": ["tensorstream/finance/moving_average_crossover.py:SimpleMovingAverageCrossover"]}
{"id": "C33", "title": "Zero crossover signal", "statement": "ZeroCrossoverSignal outputs -1, 0 or 1; the first output is 0; a non-zero output at i happens exactly when x[i] is non-zero and of sign opposite to the current direction (sign of the first input, 0 counting as +, flipped at each signal) and then equals the sign of x[i]; consecutive non-zero outputs alternate in sign.", "quantifier": "every finite float series", "why_tests_cant": "Alternation over all histories.", "anchors": ["tensorstream/finance/signals/zero_crossover_signal.py:ZeroCrossoverSignal"]}
{"id": "C34", "title": "Trading signals are silent during warm-up and alternate", "statement": "SimpleMovingAverageCrossoverSignal outputs 0 below index slow, MovingAverageConvergenceDivergenceSignal outputs 0 below index slow+macd-2; all outputs are in {-1,0,1}, non-zero outputs alternate in sign and each equals the sign of the underlying series at that index.", "quantifier": "all periods, every finite series", "why_tests_cant": "All histories of a composition of stateful operators.", "anchors": ["tensorstream/finance/signals/moving_average_crossover_signal.py", "tensorstream/finance/signals/moving_average_convergence_divergence_signal.py"]}
{"id": "C35", "title": "MACD signals before a genuine crossing", "statement": "A MACD buy signal (+1) is emitted only at a positive histogram value and after an earlier genuine (post warm-up) negative one; a sell signal (-1) only at a negative value and when an earlier genuine value was positive or all earlier values were zero (the warm-up zeros count as +, so that a first genuine negative value is signalled although nothing was crossed). That every signal is preceded by a genuine histogram value of the opposite sign holds on all series if and only if the histogram is always zero: slow = fast or macd period = 1.", "quantifier": "all periods, every finite series", "why_tests_cant": "Depends on the sign of the first genuine value; all parameters and series.", "anchors": ["tensorstream/finance/signals/moving_average_convergence_divergence_signal.py", "tensorstream/finance/signals/zero_crossover_signal.py"]}
{"id": "C36", "title": "RSI range and formula", "statement": "RelativeStrengthIndex(p) outputs 0 below index p; from index p on it is 100-100/(1+gain/loss) with Wilder-smoothed average gain and loss; each output is in [0,100] or NaN, and NaN exactly when both averages are 0. For p >= 2: NaN exactly when the price never moved so far, otherwise 100 exactly when it never fell and 0 exactly when it never rose (for p = 1 only the last move counts). Also for p >= 2: while the price stays the same the index does.", "quantifier": "every period >= 1 (>= 2 for the last sentence), every finite series", "why_tests_cant": "All series; division by zero corner cases.", "anchors": ["tensorstream/finance/relative_strength_index.py:RelativeStrengthIndex"]}
{"id": "C37", "title": "Returns", "statement": "Return(p) outputs x[i]/x[i-p]-1 when i>=p and x[i-p] is non-zero, else 0; LogarithmicReturn(p) outputs log(x[i]/x[i-p]) under the same condition, else 0. On positive prices log returns telescope: the sum of the p-step log returns over a chain is the log of the overall ratio, and log(1+Return)=LogarithmicReturn. On non-zero prices the growth factors 1+Return multiply: their product at i+p, i+2p, ..., i+kp is x[i+kp]/x[i].", "quantifier": "every period >= 1, every series", "why_tests_cant": "All series and periods.", "anchors": ["tensorstream/finance/returns.py:Return", "tensorstream/finance/returns.py:LogarithmicReturn"]}
{"id": "C38", "title": "Volatility and warm-up zeros", "statement": "Volatility(m,r) outputs 0 below index max(m,r) and then the population standard deviation of the last m outputs of LogReturn(r), which include warm-up zeros up to index m+r-2; from index m+r-1 on all of them are genuine returns. That only genuine returns are ever used holds, on all series of positive prices, if and only if m = 1 or r = 1.", "quantifier": "all m, r >= 1, every positive price series", "why_tests_cant": "All parameter pairs and indices.", "anchors": ["tensorstream/finance/volatility.py"]}
{"id": "C39", "title": "Sharpe ratio", "statement": "SharpeRatio(p) outputs mean/stddev (population) of return minus risk-free rate over the last min(i+1,p) steps, and 0 when that standard deviation is 0.", "quantifier": "every period >= 1, all finite series pairs", "why_tests_cant": "All series and window positions.", "anchors": ["tensorstream/finance/sharpe_ratio.py:SharpeRatio"]}
{"id": "C40", "title": "Skewness is the standardised third central moment", "statement": "Skewness(p) equals mean((x-mu)^3)/sigma^3 over the last min(i+1,p) inputs when sigma is non-zero and 0 otherwise; it is unchanged by shifting the series or scaling it by a positive factor. For p >= 2 no output exceeds (p-2)/sqrt(p-1) in size (so Skewness(2) is always 0), and the series 0, ..., 0, 1 of p samples attains that.", "quantifier": "every period >= 1, all finite series, exact arithmetic", "why_tests_cant": "Algebraic identity over all reals.", "anchors": ["tensorstream/finance/skewness.py:Skewness"]}
{"id": "C41", "title": "Correlation is a correlation", "statement": "Correlation(p) outputs 0 below index p and then the Pearson coefficient of the last p pairs: always in [-1,1] when both windows vary, NaN when one is constant, symmetric in its two inputs, 1 when correlating a varying series with itself.", "quantifier": "every period >= 1, all finite series pairs, exact arithmetic", "why_tests_cant": "Cauchy-Schwarz over all reals.", "anchors": ["tensorstream/common/correlation.py:Correlation"]}
{"id": "C42", "title": "Cross- and auto-correlation alignment", "statement": "CrossCorrelation(p,lag) outputs 0 below index lag+p and then the Pearson coefficient of the last p values of the first series with the p values of the second series ending lag steps earlier; AutoCorrelation(p,lag) is CrossCorrelation(p,lag) of the series with itself.", "quantifier": "all p, lag >= 1, all series pairs, every arithmetic", "why_tests_cant": "All parameter pairs and alignments.", "anchors": ["tensorstream/common/correlation.py:CrossCorrelation", "tensorstream/common/correlation.py:AutoCorrelation"]}
{"id": "C43", "title": "Average true range", "statement": "AverageTrueRange(p) is the rolling moving average of the true range max(high-low,|high-prev close|,|low-prev close|) (max(high-low,0) at the first step or after a zero close); it is never negative. Candles that are vectors or tensors still give one number per step: the rolling moving average of the largest true range over all coordinates, which is nowhere below the ATR of a coordinate. The three prices may have different shapes: a series is accepted exactly when high - low has the shape of the close (so a number as the close rejects vectors), and the output is that of the candles in which low and high are copied to every element of the close.", "quantifier": "every period >= 1, every candle series of every shape (mixed shapes: whether or not they are known when the graph is built)", "why_tests_cant": "All candle series.", "anchors": ["tensorstream/finance/average_true_range.py:AverageTrueRange"]}
{"id": "C44", "title": "When Supertrend fails", "statement": "Supertrend(period, factor) streams without error over every series of candles with positive prices if and only if factor >= period. (Otherwise a gap beyond the opposite band followed by a partial pullback makes both branches of an exclusive case true and the run aborts; Supertrend(10, 3) aborts on a series of twelve candles.) Whatever the period, with a factor >= 0 it streams if every previous close is within factor * ATR of the middle of the candle.", "quantifier": "every period, factor and well-formed candle series", "why_tests_cant": "The failing pattern needs a particular history; the claim is about all parameters and all series.", "anchors": ["tensorstream/finance/supertrend.py:Supertrend.step"]}
{"id": "C45", "title": "Supertrend bands", "statement": "Whenever Supertrend succeeds: it outputs 0 while the ATR is 0; otherwise the trend is +1 or -1 and the output is the lower (trend +1) or upper (trend -1) band; while the previous close stays above the lower band the lower band never decreases, while it stays below the upper band the upper band never increases.", "quantifier": "every period, factor and candle series", "why_tests_cant": "Ratchet invariant over all histories.", "anchors": ["tensorstream/finance/supertrend.py:Supertrend.step"]}
{"id": "C46", "title": "Heikin-Ashi candles", "statement": "HeikinAshi copies the candle at the first step; afterwards open is the midpoint of the previous raw open and close, close is the mean of the four prices, high/low are the max/min of raw high/low with these two; hence low <= open,close <= high at every later step whenever previous open is non-zero.", "quantifier": "every candle series with non-zero opens", "why_tests_cant": "All candle series.", "anchors": ["tensorstream/finance/heikin_ashi.py:HeikinAshi"]}
{"id": "C47", "title": "Drawdown", "statement": "Drawdown outputs are never positive, at least -1 for non-negative prices, equal min(0, x[i]/peak-1) for peak the maximum of 0 and all earlier prices (0 if that peak is below 0.0001 in absolute value); the second output is 0 when the peak rises by more than 0.0001 and otherwise one more than before.", "quantifier": "every finite series", "why_tests_cant": "All histories.", "anchors": ["tensorstream/finance/drawdown.py:Drawdown"]}
{"id": "C48", "title": "Drawdown details segment the history", "statement": "details(drawdown, days) returns one entry per maximal run of positive day counts, in order: the minimum drawdown over the run and the run's length; this holds for every output of a fresh Drawdown run. avg gives the means of these two columns.", "quantifier": "every finite series", "why_tests_cant": "All run patterns, including runs touching either end.", "anchors": ["tensorstream/finance/drawdown.py:details", "tensorstream/finance/drawdown.py:avg", "tensorstream/common/__init__.py:filter_with_mask", "tensorstream/common/__init__.py:map_consecutive_fn"]}
{"id": "C49", "title": "Risk ratio counters", "statement": "RiskRatioEvaluator: 0 <= successful <= total at every step; both never decrease and grow by at most 1 per step; total equals the number of -1 outputs so far.", "quantifier": "every parameter set, every input history", "why_tests_cant": "All histories of a state machine.", "anchors": ["tensorstream/finance/evaluators/risk_ratio_evaluator.py:RiskRatioEvaluator"]}
{"id": "C50", "title": "Risk ratio position discipline", "statement": "In every run of RiskRatioEvaluator in which no position is opened with a stop price of exactly 0, the non-zero output signals alternate buy (+1), sell (-1), buy, ...; without a position it buys exactly on the input signal 1; a sell happens exactly when the open position hits its stop, its limit or its maximal duration. The alternation holds on all series of positive closes if and only if stop_factor <= 0 or volatility_period = 1: otherwise there are series on which a stop price is 0, which the code reads as `no position`, so that it buys twice in a row.", "quantifier": "every parameter set, every input history", "why_tests_cant": "All histories; the counterexample needs close = stop_factor*volatility.", "anchors": ["tensorstream/finance/evaluators/risk_ratio_evaluator.py:RiskRatioEvaluator.step"]}
{"id": "C51", "title": "Risk ratio maximal bet duration", "statement": "With max_bet_duration=d >= 1 a position (with non-zero stop price) is held for at most d steps after the buy.", "quantifier": "every d >= 1, every input history", "why_tests_cant": "All histories.", "anchors": ["tensorstream/finance/evaluators/risk_ratio_evaluator.py:RiskRatioEvaluator.step"]}
{"id": "C52", "title": "Windowed operators forget", "statement": "Once warm, SMA, moving standard deviation, Lag, LocalMinimum/Maximum, Return, Sharpe, Skewness and Correlation depend only on the last window of inputs: two histories of sufficient length with the same last window give the same output, whatever (including NaN) came before.", "quantifier": "all periods, all pairs of histories, every arithmetic", "why_tests_cant": "Pairs of unbounded histories.", "anchors": ["tensorstream/common/__init__.py:roll", "tensorstream/finance/moving_average.py:SimpleMovingAverage", "tensorstream/finance/moving_standard_deviation.py"]}
{"id": "C53", "title": "Multi-dimensional series are processed per coordinate", "statement": "Streaming SMA, EMA, RMA, moving standard deviation, Bollinger bands, MACD, Correlation, Lag or ZeroCrossoverSignal over series of tensors gives at every coordinate what streaming the scalar series of that coordinate gives.", "quantifier": "every element shape, every coordinate, every series", "why_tests_cant": "All ranks, sizes and coordinates.", "anchors": ["tensorstream/finance/moving_average.py", "tensorstream/common/correlation.py:Correlation", "tensorstream/streamable.py:Streamable.concat"]}
{"id": "C54", "title": "Mask and shift helpers", "statement": "filter_with_mask keeps exactly the masked elements in order; map_consecutive_fn applies the function to each (next, previous) pair; roll and shift prepend the new value, drop the oldest one and keep the length.", "quantifier": "all vectors and masks", "why_tests_cant": "All lengths and masks.", "anchors": ["tensorstream/common/__init__.py:filter_with_mask", "tensorstream/common/__init__.py:map_consecutive_fn", "tensorstream/common/__init__.py:roll", "tensorstream/common/__init__.py:shift"]}
{"id": "C55", "title": "Table transposition", "statement": "common.transpose turns a list of tables into one table per column whose k-th member is that column of the k-th table.", "quantifier": "every non-empty list of tables with the first table's columns", "why_tests_cant": "All table lists.", "anchors": ["tensorstream/common/__init__.py:transpose"]}
{"id": "C56", "title": "Well-typed operators stream without an error", "statement": "There is a type system assigning operators (including arbitrary Compose/Join/FFill/Map nestings) an input signature, output signature and state signature, such that a well-typed operator streams over every non-empty series of inputs of its signature, chunk after chunk, without an error, gives as many outputs of the declared signature and states of the declared signature, and starts from one initial state that depends on the signature only.", "quantifier": "every well-typed operator expression, every positive period, every tensor shape, every series and every split into chunks", "why_tests_cant": "Quantifies over all nestings of operators and all inputs; absence of errors cannot be sampled.", "anchors": ["tensorstream/streamable.py:MetaStreamable.__call__", "tensorstream/meta/compose.py:Compose", "tensorstream/meta/join.py:Join", "tensorstream/meta/ffill.py:FFill"]}
{"id": "C57", "title": "Forward-filled operators compute on the history without the missing samples", "statement": "Streaming FFill(op) for op among SMA, MSD, EMA, RMA, Lag, Momentum, the SMA crossover, minima and maxima, returns, volatility, skewness, RSI, correlation, cross-correlation, ATR (numbers or tensors), Heikin-Ashi, drawdown, Bollinger bands, Sharpe ratio, MACD, the zero crossover signal, the moving average crossover signal and the MACD signal outputs at every index the mathematical value of op on the history with all samples containing a zero removed, and zeros before the first zero-free sample; also across chunks. In particular FFill(SharpeRatio(p)) outputs nothing but zeros if the risk-free rate is 0, since every sample then counts as missing.", "quantifier": "every positive period, tensor shape, and series with any pattern of zeros", "why_tests_cant": "All patterns of missing samples and all histories.", "anchors": ["tensorstream/meta/ffill.py:FFill", "tensorstream/finance/moving_average.py", "tensorstream/finance/relative_strength_index.py", "tensorstream/finance/sharpe_ratio.py:SharpeRatio", "tensorstream/finance/moving_average_convergence_divergence.py", "tensorstream/finance/signals"]}
{"id": "C58", "title": "Change of unit", "statement": "Multiplying the input series by a positive constant multiplies the outputs of SMA, EMA, RMA, MSD, MACD, the SMA crossover, Bollinger bands, Lag, Momentum, minima/maxima, ATR, Heikin-Ashi and Supertrend by that constant and leaves Return, LogReturn, Volatility, RSI, SharpeRatio, Skewness, Correlation, CrossCorrelation, AutoCorrelation, the zero crossover, SMA crossover and MACD signals and the RiskRatioEvaluator unchanged.", "quantifier": "every positive constant, every period, tensor shape and series, including infinities and NaN; exact arithmetic", "why_tests_cant": "Relates two runs for all constants and all series (a metamorphic property).", "anchors": ["tensorstream/finance/moving_average.py", "tensorstream/finance/relative_strength_index.py:RelativeStrengthIndex", "tensorstream/finance/supertrend.py:Supertrend", "tensorstream/finance/signals/moving_average_convergence_divergence_signal.py", "tensorstream/finance/evaluators/risk_ratio_evaluator.py"]}
{"id": "C59", "title": "Drawdown and the unit", "statement": "The losses that Drawdown outputs are the same in two units if the first price is at least 0.0001 in both; the durations too, if moreover every rise above the previous maximum exceeds 0.0001 in both units or in none. Both outputs are the same for all series of positive prices if and only if the units are the same (the code compares with the absolute number 0.0001).", "quantifier": "every positive constant and every series of positive prices", "why_tests_cant": "Relates two runs for all constants and series.", "anchors": ["tensorstream/finance/drawdown.py:Drawdown"]}
{"id": "C60", "title": "Mirror symmetry", "statement": "Negating the input series negates the outputs of the averages, MACD, the SMA crossover, Lag, Momentum, SharpeRatio, Skewness and (one series negated) Correlation, exchanges minimum and maximum operators and the lower and upper Bollinger band, leaves MSD unchanged, turns RSI into 100 - RSI, and turns the zero crossover signals when the first sample is not 0. Turning candles upside down leaves ATR unchanged and turns the Heikin-Ashi candles upside down.", "quantifier": "every period, tensor shape and series, including infinities and NaN (RSI and zero crossover: finite samples); exact arithmetic", "why_tests_cant": "Relates two runs, and two different operators, for all series.", "anchors": ["tensorstream/common/extremum.py", "tensorstream/finance/moving_average.py", "tensorstream/finance/relative_strength_index.py:RelativeStrengthIndex", "tensorstream/finance/heikin_ashi.py:HeikinAshi", "tensorstream/finance/signals/zero_crossover_signal.py"]}
{"id": "C61", "title": "Superposition", "statement": "Streaming the sum of two series gives the sum of the two streams for SMA, EMA, RMA, MACD (all five outputs), the SMA crossover, Lag and Momentum.", "quantifier": "every period, tensor shape and pair of series, including infinities and NaN; exact arithmetic", "why_tests_cant": "Relates three runs for all pairs of series.", "anchors": ["tensorstream/finance/moving_average.py", "tensorstream/finance/moving_average_convergence_divergence.py", "tensorstream/finance/moving_average_crossover.py", "tensorstream/common/lag.py:Lag", "tensorstream/finance/momentum.py:Momentum"]}
{"id": "C62", "title": "Constant series", "statement": "On a series all of whose samples are the same number x: SMA, EMA and RMA output 0 during the warm-up and x afterwards; the macd line, signal and histogram, the SMA crossover (fast <= slow), Momentum, MSD, Return, LogReturn, Volatility, SharpeRatio and Skewness output 0; Lag outputs x from index p on; minima and maxima output x; the Bollinger bands coincide; RSI and Correlation output NaN from index p on, CrossCorrelation and AutoCorrelation from index p + lag on; no crossing or trading signal is given; Drawdown reports no loss.", "quantifier": "every number, period, number of samples; exact arithmetic, real numbers where roots or logarithms occur", "why_tests_cant": "All lengths, all constants, including 0 and negative ones.", "anchors": ["tensorstream/finance/moving_average.py", "tensorstream/finance/relative_strength_index.py:RelativeStrengthIndex", "tensorstream/finance/signals/zero_crossover_signal.py", "tensorstream/finance/drawdown.py:Drawdown", "tensorstream/common/correlation.py:Correlation"]}
{"id": "C63", "title": "Offset", "statement": "Adding a number to all samples adds it to the outputs of SMA, EMA, RMA and Lag and to the Bollinger bands once their warm-up is over, adds it to the minima and maxima at every index, and leaves the macd line, signal and histogram, the SMA crossover and both trading signals (fast <= slow), Momentum, MSD, RSI, Skewness, SharpeRatio (same number added to returns and rates) AutoCorrelation, Correlation and CrossCorrelation (any two numbers) unchanged.", "quantifier": "every number, period, tensor shape and series, including infinities and NaN (Skewness: real samples); exact arithmetic", "why_tests_cant": "Relates two runs for all offsets and all series.", "anchors": ["tensorstream/finance/moving_average.py", "tensorstream/finance/moving_average_convergence_divergence.py", "tensorstream/finance/bollinger_bands.py", "tensorstream/common/extremum.py", "tensorstream/common/correlation.py:Correlation", "tensorstream/finance/signals"]}
{"id": "C64", "title": "Order and distance", "statement": "For SMA, EMA, RMA, Lag, GlobalMinimum, GlobalMaximum, LocalMinimum and LocalMaximum: when no sample of a first series exceeds the corresponding sample of a second one, no output on the first exceeds the corresponding output on the second; and when corresponding samples differ by at most e, corresponding outputs differ by at most e.", "quantifier": "every period, pair of series of equal length, and e >= 0; exact arithmetic, finite samples", "why_tests_cant": "Relates pairs of runs; errors in weights that sum to more than one, or a negative weight, appear only for particular pairs.", "anchors": ["tensorstream/finance/moving_average.py", "tensorstream/common/lag.py:Lag", "tensorstream/common/extremum.py"]}
{"id": "C65", "title": "NaN samples", "statement": "On samples that are numbers or NaN all outputs are numbers or NaN, and an output is NaN exactly: for SMA and MSD when the warm-up is over and one of the last p samples is NaN; for EMA and RMA when the warm-up is over and any sample so far was NaN (one NaN poisons the rest of the series); for Lag when the sample p steps ago is NaN; for Momentum when index >= p and the sample or the one p steps ago is NaN; for GlobalMinimum and GlobalMaximum when the very first sample is NaN (later ones are ignored); for SMACrossover when the slow average is warm and a sample in one of the two windows is NaN; for Return when index >= p and the sample p steps ago is NaN, or it is a number other than 0 and the newest sample is NaN (from 0 the return is 0 even to NaN); for each of the three Bollinger bands exactly like SMA; for Skewness when one of the last p samples (or of all so far, if fewer) is NaN. The first computed value of RSI (index p) ignores NaN samples: it is NaN exactly when no two consecutive ones of the first p + 1 samples are different numbers, and a number between 0 and 100 otherwise.", "quantifier": "every period, every series of numbers and NaN; exact arithmetic with NaN (MSD, Bollinger bands and Skewness: real numbers)", "why_tests_cant": "All positions of NaN within all series.", "anchors": ["tensorstream/finance/moving_average.py", "tensorstream/finance/moving_standard_deviation.py", "tensorstream/finance/momentum.py", "tensorstream/common/lag.py:Lag", "tensorstream/common/extremum.py", "tensorstream/finance/returns.py", "tensorstream/finance/relative_strength_index.py", "tensorstream/finance/bollinger_bands.py", "tensorstream/finance/skewness.py"]}
{"id": "C66", "title": "What pipelines compute", "statement": "If the operator g computes the function y of the history of its inputs and f computes z on the outputs of g, then Compose(f, g) computes z of the history of the values of y, in one call and when resumed. If every operator of a Join computes its own function of its own series, the Join computes the tuple of the values; Fork(n) hands on its sample n times, Add, Sub and Mul combine the two samples, and Compose(Join(f1, ..., fn), Fork(n)) runs all the operators on the same series.", "quantifier": "every pair (family) of operators of the library with known history functions, every arithmetic, every series and every number of chunks", "why_tests_cant": "Any pipeline built from the combinators, not the ones that happen to be in the specs.", "anchors": ["tensorstream/meta/compose.py:Compose", "tensorstream/meta/join.py:Join", "tensorstream/common/common.py:Fork"]}
{"id": "C67", "title": "Equations between operators", "statement": "Lag(a) after Lag(b) is Lag(a+b). AutoCorrelation(p, lag) is Compose(CrossCorrelation(p, lag), Fork(2)). Over finite samples SMA(1), EMA(1), RMA(1), LocalMinimum(1) and LocalMaximum(1) are Identity; LocalMinimum(p) and LocalMaximum(p) agree with GlobalMinimum and GlobalMaximum on series not longer than p. LocalMinimum(p) after LocalMinimum(q) is LocalMinimum(p+q-1), and GlobalMinimum before or after LocalMinimum(p) or GlobalMinimum is GlobalMinimum; so are maxima. FFill(op) gives the outputs of op on series without zeros, and FFill(FFill(op)) those of FFill(op). Operators with the same outputs cannot always be interchanged: FFill(AutoCorrelation(2, 1)) fails, FFill of the equal pipeline does not.", "quantifier": "every positive a, b, p, lag, every series and every number of chunks; FFill: every well-typed operator", "why_tests_cant": "Equality on all series.", "anchors": ["tensorstream/common/lag.py:Lag", "tensorstream/common/correlation.py", "tensorstream/meta/ffill.py:FFill", "tensorstream/common/extremum.py", "tensorstream/finance/moving_average.py", "tensorstream/meta/compose.py:Compose"]}
{"id": "C68", "title": "What Map computes", "statement": "If an operator outputs y of the samples so far, Map(op, m) outputs, in row k, y of the samples of row k so far, on fresh streams and on resumed ones. Hence mapping an operator that works coordinate by coordinate (SMA, EMA, RMA, MSD, Lag, Momentum, SMACrossover, ZeroCrossoverSignal, SMACrossoverSignal, MACDSignal) changes no output, and the indicators made for single numbers (Return, LogReturn, Volatility, RSI, Skewness, extrema) run on vectors of m numbers through Map, each coordinate by itself.", "quantifier": "every well-typed operator with a history function, every m > 0, every row shape, every series in any number of chunks, every arithmetic", "why_tests_cant": "Quantifies over all operators, numbers of columns and series.", "anchors": ["tensorstream/meta/map.py:Map"]}
{"id": "C69", "title": "Bounds that hold in floating-point arithmetic", "statement": "With rounding after every operation: SMA, EMA and RMA of samples that are not negative are not negative, and raising samples does not lower them; MSD is never negative; Bollinger bands are ordered; ATR of finite candles is not negative; RSI of finite samples lies in [0, 100]; Return of finite samples that are not negative is not below -1; Drawdown lies in [-1, 0]; Heikin-Ashi candles are well-formed. What does not survive rounding: in binary32 the SMA(3) of 1.7, 1.7, 1.7 exceeds 1.7, hence MSD(3) of a constant series is not zero and SharpeRatio(3) of constant returns is 14260635 instead of 0. After a rise by 1 and at least 150 unchanged prices RSI(2) is NaN in binary32 until the price moves (exactly: 100); after a rise by 3, a fall by 1 and at least 255 unchanged prices RSI(3) is 50 (exactly: 75).", "quantifier": "every arithmetic whose operations are monotone roundings of the exact ones (binary32 in particular, any order of summation), every period, every series in one call or resumed", "why_tests_cant": "The specs compare rounded results with a tolerance; a bound for all inputs is out of their reach.", "anchors": ["tensorstream/finance/moving_average.py", "tensorstream/finance/relative_strength_index.py", "tensorstream/finance/bollinger_bands.py", "tensorstream/finance/average_true_range.py", "tensorstream/finance/drawdown.py", "tensorstream/finance/heikin_ashi.py", "tensorstream/finance/sharpe_ratio.py"]}
{"id": "C70", "title": "Rounding errors do not add up", "statement": "In floating-point arithmetic of relative accuracy u, on samples up to M in size, every output of SimpleMovingAverage(p), ExponentialMovingAverage(p) and RollingMovingAverage(p) is a number that differs from what the operator outputs in exact arithmetic on the same samples by at most 4 p u M, 7 (p + 1) u M and 9 p u M, no matter how many samples were streamed or in how many calls. Similar bounds hold for the five outputs of MACD and for AverageTrueRange. Lag, LocalMinimum, LocalMaximum, GlobalMinimum and GlobalMaximum make no error at all; Momentum at most 3 u M; the difference of moving averages of SimpleMovingAverageCrossover 6 (slow + fast) u M; HeikinAshi 15 u M on each price; Return on samples between m and M in size 3 u (M / m + 1). RelativeStrengthIndex(p), from sample p on and whenever the average gain and loss together, s, are at least 88 p u M: it is the number 100 gain / s up to 7000 p u M / s (also when the loss is zero or the quotient overflows). Drawdown of non-negative prices: 3 u, unless the earlier peak is within u / 5000 of the constant 0.0001. With a square root that is rounded like the other operations: MovingStandardDeviation(p) 18 p u M, the outer BollingerBands(p, k) 30 p (|k| + 1) u M and the middle one 4 p u M, so the deviation of a constant series, exactly 0, stays below 18 p u M; SharpeRatio(p), whenever the exact deviation s of the excess returns is at least 120 p u M, 320 p u (M / s)^2; Correlation(p), exactly 0 for the first p pairs and, whenever the exact deviations s and t of the two halves (of sizes up to M and L) are at least 120 p u M and 120 p u L, 200 p u (M / s)(L / t) after that; CrossCorrelation(p, lag) and AutoCorrelation(p, lag) likewise, exactly 0 for the first p + lag samples and with the same bound for the pairs of a sample and an earlier one after that. With integer powers rounded like the other operations: Skewness(p), whenever the exact deviation s is at least 120 p u M, 1000 p u (M / s)^3; the cube matters: in binary32 the skewness of 1001 and 1003, exactly 0, comes out as -64. With logarithms rounded like the other operations, on prices between m > 0 and M: LogarithmicReturn(p) u (log(M / m) + 3), and Volatility(p, r) 42 p u (log(M / m) + 1), for binary32 whenever M <= 2^125 m. For binary32 (u = 2^-24): all periods below 2^18 and all M from 2^-126 to 2^100 (2^-51 to 2^50 where squares are taken, 2^-26 to 2^34 where cubes are).", "quantifier": "all rounding functions with |round x - x| <= u (|x| + c), all orders of summation, all periods p with 32 (p + 1) u <= 1, all series, all continuations with the final state", "why_tests_cant": "A recursive average feeds its own rounding errors back for as long as the stream lasts; no finite run shows that the error stays below a fixed bound forever.", "anchors": ["tensorstream/finance/moving_average.py", "tensorstream/finance/moving_average_convergence_divergence.py:MovingAverageConvergenceDivergence", "tensorstream/finance/average_true_range.py:AverageTrueRange", "tensorstream/common/lag.py:Lag", "tensorstream/common/extremum.py", "tensorstream/finance/momentum.py:Momentum", "tensorstream/finance/heikin_ashi.py:HeikinAshi", "tensorstream/finance/returns.py:Return", "tensorstream/finance/moving_standard_deviation.py:MovingStandardDeviation", "tensorstream/finance/bollinger_bands.py:BollingerBands", "tensorstream/finance/relative_strength_index.py:RelativeStrengthIndex", "tensorstream/finance/drawdown.py:Drawdown", "tensorstream/finance/sharpe_ratio.py:SharpeRatio", "tensorstream/common/correlation.py:Correlation", "tensorstream/common/correlation.py:CrossCorrelation", "tensorstream/common/correlation.py:AutoCorrelation", "tensorstream/finance/skewness.py:Skewness", "tensorstream/finance/returns.py:LogarithmicReturn", "tensorstream/finance/volatility.py"]}
{"id": "C71", "title": "Counters stay below the number of samples", "statement": "Operators keep int counters in their states (iterations, days since the peak, bets won and placed). Over n samples no int in the outputs or in the final state of any well-typed operator goes beyond M + n, where M bounds the ints in the input, the int constants of SetDuring in the pipeline, and 1. So no counter leaves int32 within 2^31 - 1 - M samples. In particular SMACrossoverSignal and MACDSignal: no int beyond n + 1, whatever the prices.", "quantifier": "all operators of the library in the type system and all their combinations by Compose, Join, FFill and Map (any nesting), all positive periods, all inputs of the right signature, all lengths n, exact arithmetic and binary32", "why_tests_cant": "Overflow of an int32 counter shows after two billion samples; and the bound is about all pipelines, in which counters of counters may occur.", "anchors": ["tensorstream/common/set_during.py:SetDuring", "tensorstream/finance/drawdown.py:Drawdown", "tensorstream/finance/evaluators/risk_ratio_evaluator.py:RiskRatioEvaluator", "tensorstream/finance/moving_average.py", "tensorstream/meta/map.py:Map"]}
{"id": "C72", "title": "Map distributes over pipelines and banks", "statement": "Map(Compose(g, ..., f), m) gives the outputs of Compose(Map(g, m), ..., Map(f, m)); Map(Join(f, g, ...), m) those of Join(Map(f, m), Map(g, m), ...); Map(Identity, m) those of Identity. A pipeline of two banks, Compose(Join(g1, g2, ...), Join(f1, f2, ...)), gives the outputs of the bank of pipelines Join(Compose(g1, f1), Compose(g2, f2), ...). All this on every sequence of series that fit, each call going on from the final state of the one before.", "quantifier": "all operators in the type system of C56 and all their combinations (nested Map, Join, Compose, FFill included), any number of stages, all m > 0, all series, all numbers of chunks; every stage takes and gives at least one tensor", "why_tests_cant": "Equality of two ways of building a program, for all programs and all inputs.", "anchors": ["tensorstream/meta/map.py:Map", "tensorstream/meta/compose.py:Compose", "tensorstream/meta/join.py:Join", "tensorstream/common/common.py:Identity"]}
{"id": "C73", "title": "Recursive averages forget exponentially", "statement": "Two series with different pasts of at least p samples each go on with the same samples. The difference of the outputs of ExponentialMovingAverage(p) shrinks by the factor (p - 1) / (p + 1) with every common sample, that of RollingMovingAverage(p) by (p - 1) / p, and that of AverageTrueRange(p) by (p - 1) / p from the first common candle on. From index p - 1 on the output of either average is the average of the first p samples times (1 - w)^(i + 1 - p) plus the sum of w (1 - w)^j x[i - j], where w = 2 / (p + 1) and w = 1 / p.", "quantifier": "all ordered fields (exact arithmetic), all p > 0, all pasts and all common continuations, all indices", "why_tests_cant": "The law relates two runs and holds for unboundedly many samples; a wrong weight or a wrong start is small after a few samples.", "anchors": ["tensorstream/finance/moving_average.py:ExponentialMovingAverage", "tensorstream/finance/moving_average.py:RollingMovingAverage", "tensorstream/finance/average_true_range.py:AverageTrueRange"]}
{"id": "C74", "title": "How a step gets its arguments", "statement": "An operator that is not a MetaStreamable, a pipeline beginning with one, and FFill of one give the same result (values and errors alike) on a list of inputs as on the tuple of these inputs, and on a tensor or dict as on the tuple of this alone; streamed or stepped, with or without a state. A step sees inputs and state in one row, so part of the state may be passed among the inputs, and an empty state is no state. A Streamable whose step is not overridden gives no result on any inputs, and raises the error of the missing step on every series.", "quantifier": "all operators given by any step function, all shipped operators but Join, Map, SetDuring and Automaton, all pipelines beginning with them, all inputs (well-typed or not), all states", "why_tests_cant": "Quantified over all step functions, all inputs and all states, including the erroneous ones.", "anchors": ["tensorstream/streamable.py:Streamable.forward_step", "tensorstream/streamable.py:Streamable.step", "tensorstream/streamable.py:Streamable.__call__", "tensorstream/streamable.py:Streamable.call_streamed"]}
{"id": "C75", "title": "Convergence", "statement": "When the samples tend to a limit L, so do the outputs of the simple, exponential and rolling averages, of Lag and of the local extrema; the standard deviation tends to 0 and all three Bollinger bands to L; the first two outputs of MACD tend to L and the other three to 0; SMACrossover and Momentum tend to 0; Return does if L is not 0, LogReturn and Volatility if L and the samples are positive. The limit of a pipeline is found stage by stage.", "quantifier": "all periods, all infinite series of real numbers with a limit, all limits; for pipelines any operators whose outputs converge", "why_tests_cant": "A limit over infinite series; no finite run shows it.", "anchors": ["tensorstream/finance/moving_average.py:SimpleMovingAverage.step", "tensorstream/finance/moving_average.py:ExponentialMovingAverage.step", "tensorstream/finance/moving_average.py:RollingMovingAverage.step", "tensorstream/common/lag.py:Lag.step", "tensorstream/common/extremum.py:LocalMinimum.step", "tensorstream/common/extremum.py:LocalMaximum.step", "tensorstream/finance/moving_standard_deviation.py:MovingStandardDeviation.step", "tensorstream/finance/bollinger_bands.py:BollingerBands.step", "tensorstream/finance/moving_average_convergence_divergence.py", "tensorstream/finance/returns.py", "tensorstream/finance/volatility.py", "tensorstream/finance/momentum.py", "tensorstream/meta/compose.py:Compose.step"]}
{"id": "C76", "title": "Straight lines and steady growth", "statement": "On the samples a + b i the simple and the exponential average over p samples are equal and lie b (p - 1) / 2 behind from index p - 1 on; the rolling average ends up b (p - 1) behind; Lag and Momentum differ by p b; SMACrossover and the line of MACD (fast <= slow) are b (slow - fast) / 2, the signal of MACD equals its line and its histogram is 0; neither kind of trading signal (fast <= slow) ever fires; the local extrema are the newest and the oldest sample of the window; the relative strength index is 100 on a rising and 0 on a falling line, and NaN on a level one; the standard deviation is |b| sqrt((p^2 - 1) / 12), the Bollinger bands run parallel, the skewness is 0. On the samples a q^i Return(p) is q^p - 1, LogReturn(p) is p log q, and Volatility is 0 once its window holds no output of the warm-up.", "quantifier": "all periods, all slopes and intercepts (all factors), all indices", "why_tests_cant": "Identities over all indices, periods and real slopes.", "anchors": ["tensorstream/finance/moving_average.py:SimpleMovingAverage.step", "tensorstream/finance/moving_average.py:ExponentialMovingAverage.step", "tensorstream/finance/moving_average.py:RollingMovingAverage.step", "tensorstream/common/lag.py:Lag.step", "tensorstream/finance/momentum.py", "tensorstream/finance/moving_average_convergence_divergence.py", "tensorstream/finance/signals/moving_average_convergence_divergence_signal.py", "tensorstream/common/extremum.py:LocalMinimum.step", "tensorstream/common/extremum.py:LocalMaximum.step", "tensorstream/finance/relative_strength_index.py", "tensorstream/finance/moving_standard_deviation.py:MovingStandardDeviation.step", "tensorstream/finance/bollinger_bands.py:BollingerBands.step", "tensorstream/finance/returns.py", "tensorstream/finance/volatility.py"]}
{"id": "C77", "title": "What the outputs tell about the samples", "statement": "From the outputs of SMA, EMA or RMA with period p the whole input series can be recovered if its first k samples are known, exactly when k >= p - 1; from those of Momentum, and of Return on samples that are not zero, exactly when k >= p; from those of MACD exactly when k >= min(slow, fast) - 1. Two series have the same outputs under Lag(p) exactly when they are equally long and agree except in their last p samples. From the outputs of LocalMinimum and LocalMaximum with p >= 2, and of Return where samples may be zero, no number of known first samples is enough.", "quantifier": "all periods, all k, all pairs of series of numbers (exact arithmetic)", "why_tests_cant": "An injectivity claim about all pairs of series, and the exact number of samples it needs.", "anchors": ["tensorstream/finance/moving_average.py:SimpleMovingAverage.step", "tensorstream/finance/moving_average.py:ExponentialMovingAverage.step", "tensorstream/finance/moving_average.py:RollingMovingAverage.step", "tensorstream/finance/momentum.py", "tensorstream/finance/returns.py", "tensorstream/finance/moving_average_convergence_divergence.py", "tensorstream/common/lag.py:Lag.step", "tensorstream/common/extremum.py:LocalMinimum.step", "tensorstream/common/extremum.py:LocalMaximum.step"]}
{"id": "C78", "title": "The order of samples within the window does not matter", "statement": "If two series differ only in the order of at most p samples at their ends, the last outputs of SMA(p), LocalMinimum(p), LocalMaximum(p), MSD(p), BollingerBands(p), Skewness(p), Correlation(p) and SharpeRatio(p) (pairs kept together) are the same, and those of GlobalMinimum and GlobalMaximum for any number of samples. For EMA, RMA and Momentum the order of the last two samples matters, for Lag(p) that of the last p + 1.", "quantifier": "all periods, all series, all permutations (exact arithmetic; real numbers where square roots occur)", "why_tests_cant": "A claim about all permutations of all windows.", "anchors": ["tensorstream/finance/sharpe_ratio.py:SharpeRatio", "tensorstream/finance/moving_average.py:SimpleMovingAverage.step", "tensorstream/common/extremum.py:LocalMinimum.step", "tensorstream/common/extremum.py:LocalMaximum.step", "tensorstream/common/extremum.py:GlobalMinimum.step", "tensorstream/common/extremum.py:GlobalMaximum.step", "tensorstream/finance/moving_standard_deviation.py:MovingStandardDeviation.step", "tensorstream/finance/bollinger_bands.py:BollingerBands.step", "tensorstream/finance/skewness.py", "tensorstream/common/correlation.py:Correlation.step"]}
{"id": "C79", "title": "Order between operators", "statement": "On the same series, at every index: GlobalMinimum <= LocalMinimum(q) <= LocalMinimum(p) <= sample <= LocalMaximum(p) <= LocalMaximum(q) <= GlobalMaximum whenever p <= q. From index p - 1 on: LocalMinimum(p) <= SMA(p) <= LocalMaximum(p), and GlobalMinimum <= EMA(p), RMA(p) <= GlobalMaximum. MSD(p) is never negative and at most half of LocalMaximum(p) - LocalMinimum(p). The newest sample lies within BollingerBands(p, k) from index p - 1 on for all series exactly when p - 1 <= k^2 (k >= 0). Fewer than one in k^2 of the last p samples lie outside the bands.", "quantifier": "all periods, factors, indices and series of numbers (exact arithmetic; real numbers where square roots occur)", "why_tests_cant": "Inequalities over all series; the boundary k^2 = p - 1 is attained only by special series.", "anchors": ["tensorstream/common/extremum.py:LocalMinimum.step", "tensorstream/common/extremum.py:LocalMaximum.step", "tensorstream/common/extremum.py:GlobalMinimum.step", "tensorstream/common/extremum.py:GlobalMaximum.step", "tensorstream/finance/moving_average.py:SimpleMovingAverage.step", "tensorstream/finance/moving_average.py:ExponentialMovingAverage.step", "tensorstream/finance/moving_average.py:RollingMovingAverage.step", "tensorstream/finance/moving_standard_deviation.py:MovingStandardDeviation.step", "tensorstream/finance/bollinger_bands.py:BollingerBands.step"]}
{"id": "C80", "title": "When correlations are perfect", "statement": "Where both windows vary, Correlation(p) outputs 1 exactly when the p pairs of the window lie on a rising line x = a y + b, a > 0, and -1 exactly when they lie on a falling one; CrossCorrelation(p, lag) does so for the first series and the second one lag steps earlier, AutoCorrelation(p, lag) for the series and itself lag steps earlier. So CrossCorrelation(p, lag) is 1 when the first series repeats the second one lag steps later: the second series leads (the docstring says the first). AutoCorrelation(p, lag) is 1 on series of period lag, on straight lines and on steady growth, and -1 on series that change their sign after lag steps.", "quantifier": "every period >= 1, every lag >= 1, all real series of every length", "why_tests_cant": "The exact equality case of the Cauchy-Schwarz inequality over all real windows; the specs compare one spreadsheet per operator.", "anchors": ["tensorstream/common/correlation.py:Correlation", "tensorstream/common/correlation.py:CrossCorrelation", "tensorstream/common/correlation.py:AutoCorrelation"]}
{"id": "C81", "title": "The shapes of a state must not change", "statement": "When every shape is known while the graph is built, a streamed call succeeds exactly when it succeeds with unknown shapes and every state on the way has, tensor by tensor, the shape of the initial state; outputs and states are then the same. Operators that never fail on a signature keep the shapes of their state, so for them knowing the shapes makes no difference.", "quantifier": "every operator whose output structure is a function of the input and state structure, every series and initial state of every shape", "why_tests_cant": "An equivalence between two ways of building the loop, over all operators, shapes and series; the specs build a handful of graphs.", "anchors": ["tensorstream/streamable.py:Streamable.call_streamed", "tensorstream/streamable.py:Streamable.__call__"]}
{"id": "C82", "title": "Which periods the operators accept", "statement": "Over a series of the declared signature with known shapes, SMA, MSD, BollingerBands, LocalMinimum, LocalMaximum, Correlation, SharpeRatio and Skewness run exactly with the positive periods, Volatility, SMACrossover and SMACrossoverSignal exactly when both periods are positive, RiskRatioEvaluator exactly when the period of the volatility is; Lag, Momentum, Return, LogReturn and RSI run exactly with the positive periods even when shapes are unknown, CrossCorrelation and AutoCorrelation with a positive period exactly with the positive lags. EMA, RMA and ATR also run with the period 0, MACD and MACDSignal with any of their periods 0, and with no negative ones. With 0 they are no averages: EMA(0) outputs twice the alternating sum of the samples, RMA(0) never outputs a number.", "quantifier": "every integer period, every combination of the periods, every shape, every non-empty series", "why_tests_cant": "An equivalence over all integers; no spec uses a period below 1.", "anchors": ["tensorstream/finance/moving_average.py:SimpleMovingAverage", "tensorstream/finance/moving_average.py:ExponentialMovingAverage", "tensorstream/finance/moving_average.py:RollingMovingAverage", "tensorstream/finance/moving_standard_deviation.py:MovingStandardDeviation", "tensorstream/finance/bollinger_bands.py:BollingerBands", "tensorstream/common/lag.py:Lag", "tensorstream/common/extremum.py:LocalExtremum", "tensorstream/common/correlation.py:Correlation", "tensorstream/common/correlation.py:CrossCorrelation", "tensorstream/finance/returns.py:Return", "tensorstream/finance/moving_average_convergence_divergence.py:MovingAverageConvergenceDivergence", "tensorstream/finance/volatility.py", "tensorstream/finance/moving_average_crossover.py:SimpleMovingAverageCrossover", "tensorstream/finance/average_true_range.py:AverageTrueRange", "tensorstream/finance/evaluators/risk_ratio_evaluator.py:RiskRatioEvaluator"]}
{"id": "C83", "title": "How many tensors a step takes", "statement": "Each streamable operator takes a fixed number n of input tensors, and its states have a fixed number m of parts. Called with inputs and a state that together are fewer than n or more than n + m arguments, it raises TypeError - stepped or streamed, whatever the arguments contain. The state returned by every call that succeeds has m parts, and so has the initial state reported when none was given.", "quantifier": "every operator and all its parameters, all inputs and states (nested in any way)", "why_tests_cant": "The specs always pass the right number of inputs and a complete state.", "anchors": ["tensorstream/streamable.py:Streamable.__call__", "tensorstream/streamable.py:Streamable.forward_step", "tensorstream/common/common.py:Fork", "tensorstream/common/correlation.py:CrossCorrelation.step", "tensorstream/finance/bollinger_bands.py:BollingerBands.step", "tensorstream/finance/supertrend.py:Supertrend.step"]}
{"id": "C84", "title": "Which series the operators accept", "statement": "For each operator with positive periods, streamed over samples of n tensors of one shape: Identity, Fork and Lag accept every dtype and shape; Add, Sub and Mul accept floats or ints (no mixture, no bools) of every shape; the averages, deviations, bands, MACD, Momentum, the correlations, ATR, crossovers and their signals accept exactly floats, of every shape; global and local extrema exactly float or int scalars; returns, Volatility, Skewness, Drawdown, Sharpe ratio and Heikin-Ashi exactly float scalars; RiskRatioEvaluator three float scalars and a float or int scalar. Everything else raises; whether or not the shapes are known when the graph is built. When the shapes are known, RSI accepts exactly float scalars, and Positive and Negative exactly floats and ints of every shape.", "quantifier": "every operator, all positive periods and lags, all dtypes and shapes, all series of at least one sample, every arithmetic", "why_tests_cant": "The specs stream float32 series only, mostly scalars.", "anchors": ["tensorstream/common/common.py", "tensorstream/common/lag.py:Lag", "tensorstream/common/extremum.py", "tensorstream/common/correlation.py", "tensorstream/finance/moving_average.py", "tensorstream/finance/returns.py", "tensorstream/finance/drawdown.py:Drawdown", "tensorstream/finance/evaluators/risk_ratio_evaluator.py:RiskRatioEvaluator"]}
{"id": "C85", "title": "Back-testing a crossover", "statement": "Compose(RiskRatioEvaluator(q), Join(Identity(), Identity(), Identity(), S)) over the series (low, high, close, close), where S is a trading signal over one series, outputs what RiskRatioEvaluator(q) outputs over low, high, close and the streamed signals of S. The evaluator buys only on the signal 1, and the total of bets at any moment is at most the number of buys before. With S = SMACrossoverSignal(slow, fast): it never buys while the fast average is not above the slow one; before index slow it outputs signal 0 and total 0; and a positive total t at index i satisfies 2 t + slow <= i + 1. With S = MACDSignal(slow, fast, m) the same holds with the histogram of the MACD and slow + m - 2 in place of slow. The bound is reached.", "quantifier": "every RiskRatioEvaluator with a positive volatility period, all positive periods, all non-empty series of candles (any lows and highs, finite closes); exact arithmetic for the crossovers, every arithmetic in which 0 = 0 for the evaluator", "why_tests_cant": "The evaluator's spec feeds hand-written signals; no spec wires a signal into it.", "anchors": ["tensorstream/finance/evaluators/risk_ratio_evaluator.py:RiskRatioEvaluator", "tensorstream/finance/signals/moving_average_crossover_signal.py", "tensorstream/finance/signals/moving_average_convergence_divergence_signal.py", "tensorstream/meta/compose.py:Compose", "tensorstream/meta/join.py:Join"]}
{"id": "C86", "title": "Correlation of samples of different shapes", "statement": "Correlation(p) over two series whose samples have different shapes s and t: up to p samples any two shapes are accepted and the outputs are zeros of shape s; beyond, the call succeeds exactly when mean((values1-mean1)*(values2-mean2))/(stddev1*stddev2) broadcasts to s. Vectors of length n against numbers are accepted exactly when n = p or p = 1, numbers against vectors never. With n = p, coordinate j of the output compares the last p values of coordinate j with the single number j samples ago, so that in exact arithmetic every output is 0, or NaN when the coordinate or the numbers did not change, whatever the samples are. CrossCorrelation rejects different shapes.", "quantifier": "every period >= 1, all shapes, all series, every arithmetic (the zeros: exact arithmetic), shapes not known when the graph is built", "why_tests_cant": "The specs correlate scalars only; the result has the right shape and is finite.", "anchors": ["tensorstream/common/correlation.py:Correlation", "tensorstream/common/correlation.py:CrossCorrelation"]}
{"id": "C87", "title": "When the counters overflow", "statement": "The counters in the states are int32. Over up to 2^31 - 1 - M samples (M bounds the ints in the input and in SetDuring) every operator of the type system streams exactly as if its ints were unbounded. From sample 2^31 on the counter is negative for 2^31 samples, and however the series is split into calls: SimpleMovingAverage, MovingStandardDeviation, Correlation, CrossCorrelation, AutoCorrelation, Return, LogarithmicReturn and RelativeStrengthIndex output 0, SetDuring(v, p) outputs v, LocalMinimum outputs +inf and LocalMaximum -inf, Skewness and SharpeRatio NaN, whatever the samples are; ExponentialMovingAverage(p) and RollingMovingAverage(p) output the simple moving average over p samples, at first mixed with the first p samples of the series, and AverageTrueRange does the same with the true ranges; the macd line, signal line and histogram of MovingAverageConvergenceDivergence are 0; Drawdown reports a negative number of days. RSI starts afresh when the counter passes zero, forgetting what came before. Lag and the global extrema have no counter and are not affected.", "quantifier": "every period >= 1 (below 2^31 where a buffer is sliced), all series of any length, every split into calls, every arithmetic (infinities and NaN: exact arithmetic)", "why_tests_cant": "No test streams two billion samples.", "anchors": ["tensorstream/finance/moving_average.py:SimpleMovingAverage", "tensorstream/finance/moving_average.py:ExponentialMovingAverage", "tensorstream/finance/moving_average.py:RollingMovingAverage", "tensorstream/finance/moving_standard_deviation.py:MovingStandardDeviation", "tensorstream/common/set_during.py:SetDuring", "tensorstream/common/extremum.py:LocalMinimum", "tensorstream/common/correlation.py:Correlation", "tensorstream/finance/returns.py:Return", "tensorstream/finance/relative_strength_index.py:RelativeStrengthIndex", "tensorstream/finance/skewness.py:Skewness", "tensorstream/finance/sharpe_ratio.py:SharpeRatio", "tensorstream/finance/drawdown.py:Drawdown", "tensorstream/common/correlation.py:CrossCorrelation", "tensorstream/common/correlation.py:AutoCorrelation", "tensorstream/finance/moving_average_convergence_divergence.py:MovingAverageConvergenceDivergence", "tensorstream/finance/average_true_range.py:AverageTrueRange"]}
{"id": "C88", "title": "Infinite samples", "statement": "Whether an output of the moving averages, SimpleMovingAverageCrossover, Lag, Momentum, MovingStandardDeviation, Skewness and BollingerBands is a number, +inf, -inf or NaN depends only on which of these the samples so far are. An infinity in the window of SimpleMovingAverage makes the output that infinity, both infinities (or a NaN) make it NaN, and when they have left the window the outputs are numbers again. ExponentialMovingAverage(p) and RollingMovingAverage(p), p >= 2, behave in the same way with all samples so far in place of the window: they never become numbers again. With p = 1, where both repeat a series of numbers, they repeat the first infinity and are NaN for ever after. SimpleMovingAverageCrossover(slow, fast), fast <= slow, is the difference of the averages: NaN while an infinity is in both windows, and the opposite infinity while it is in the long one only. Momentum is the infinity of the newest sample or the opposite of the sample p before. Return is the signed infinity from a non-zero number to an infinity, exactly -1 from an infinity to a number, NaN between infinities. MovingStandardDeviation, Skewness, Correlation and the outer Bollinger bands are NaN while an infinity is among the last p samples and, the first two and the bands, numbers otherwise; the middle band goes on as SimpleMovingAverage. Once there was an infinity or NaN, the macd line, the signal and the histogram of MACD(slow, fast, m), 2 <= fast <= slow, are NaN for ever after their warm-ups, while its two averages go on as ExponentialMovingAverage. SharpeRatio is NaN exactly while an infinity or NaN is among the last p returns or risk-free rates. RelativeStrengthIndex(p), p >= 2, outputs 100 at a single +inf among numbers after its warm-up (0 at -inf) and NaN ever after.", "quantifier": "every period >= 1, all series of numbers, infinities and NaNs in exact arithmetic (real numbers for the standard deviation, Skewness and the bands)", "why_tests_cant": "The tests use finite data; the combinations of infinities, signs and positions are unbounded.", "anchors": ["tensorstream/finance/moving_average.py:SimpleMovingAverage", "tensorstream/finance/moving_average.py:ExponentialMovingAverage", "tensorstream/finance/moving_average.py:RollingMovingAverage", "tensorstream/finance/moving_average_crossover.py:SimpleMovingAverageCrossover", "tensorstream/finance/moving_standard_deviation.py:MovingStandardDeviation", "tensorstream/finance/bollinger_bands.py:BollingerBands", "tensorstream/finance/skewness.py:Skewness", "tensorstream/common/correlation.py:Correlation", "tensorstream/finance/returns.py:Return", "tensorstream/finance/momentum.py:Momentum", "tensorstream/common/lag.py:Lag", "tensorstream/finance/moving_average_convergence_divergence.py:MovingAverageConvergenceDivergence", "tensorstream/finance/sharpe_ratio.py:SharpeRatio", "tensorstream/finance/relative_strength_index.py:RelativeStrengthIndex"]}
{"id": "C89", "title": "States can be handed over", "statement": "The final state of an operator contains the states of its parts, and a part called with it goes on over further samples exactly as if it had streamed the earlier ones itself: from BollingerBands the moving standard deviation and the moving average; from MovingAverageConvergenceDivergence its two averages and the average of the macd line; from SimpleMovingAverageCrossover its two averages; from Correlation a moving average of either series; from CrossCorrelation the correlation of the shifted series and the lag of the second; from AutoCorrelation the cross-correlation; from AverageTrueRange the rolling average of the true ranges; from the exponential and rolling averages the simple average of the first p samples. SimpleMovingAverage, MovingStandardDeviation, Return and LogarithmicReturn of one period have the same states; Skewness, LocalMinimum, LocalMaximum and (of the excess returns) SharpeRatio have the same with the components exchanged; RelativeStrengthIndex contains it.", "quantifier": "every period >= 1, every coefficient, every shape of samples where the operator takes tensors, all series and all continuations, every arithmetic", "why_tests_cant": "The tests resume an operator with its own state at most, on a few series.", "anchors": ["tensorstream/streamable.py:Streamable.__call__", "tensorstream/finance/bollinger_bands.py:BollingerBands.step", "tensorstream/finance/moving_average_convergence_divergence.py:MovingAverageConvergenceDivergence.step", "tensorstream/common/correlation.py:Correlation.step", "tensorstream/common/correlation.py:CrossCorrelation.step", "tensorstream/finance/average_true_range.py:AverageTrueRange.step", "tensorstream/finance/moving_average.py:SimpleMovingAverage.step", "tensorstream/finance/returns.py:Return"]}
{"id": "C90", "title": "Averages and extrema do not oscillate more than the samples", "statement": "In exact arithmetic, for every period p > 0 and every series of finite samples, the sum of the distances between consecutive outputs of SimpleMovingAverage(p), ExponentialMovingAverage(p) and RollingMovingAverage(p), from the p-th output on, is at most the sum of the distances between consecutive samples. The same holds of Lag(p) from the output after the p-th on, and of LocalMinimum(p), LocalMaximum(p), GlobalMinimum and GlobalMaximum from the first output on. It does not hold of the averages with their warm-up included, nor of Momentum.", "quantifier": "all positive periods, all non-empty series of finite samples of any length, over every ordered field", "why_tests_cant": "The inequality sums over whole series of any length; a wrong weight or a wrong window can keep every output within the range of the samples and still add oscillation on some series only.", "anchors": ["tensorstream/finance/moving_average.py:SimpleMovingAverage", "tensorstream/finance/moving_average.py:ExponentialMovingAverage", "tensorstream/finance/moving_average.py:RollingMovingAverage", "tensorstream/common/lag.py:Lag", "tensorstream/common/extremum.py:LocalMaximum", "tensorstream/common/extremum.py:GlobalMaximum"]}
{"id": "C91", "title": "Lags, differences and simple averages are linear filters", "statement": "In exact arithmetic, after its warm-up every output of Lag(p), Momentum(p), SimpleMovingAverage(p) and SimpleMovingAverageCrossover(slow, fast) (fast <= slow) is a fixed linear combination of the newest samples, with the transfer functions X^p, 1 - X^p, (1 + X + ... + X^(p-1)) / p and the difference of two averages. The transfer function of an operator is unique. Compose multiplies transfer functions and adds warm-ups, so that such operators can be put in any order once the warm-up is over; operators with the same transfer function agree after their warm-ups; Momentum(1) after SimpleMovingAverage(p) is Momentum(p) divided by p. ExponentialMovingAverage(p) and RollingMovingAverage(p), p >= 2, have no transfer function of any finite degree.", "quantifier": "all positive periods, all non-empty series of finite samples of any length, over every ordered field; Compose of any two operators of the library that are filters", "why_tests_cant": "A test compares a few series; that two pipelines agree on every series, or that no finite combination of samples gives an operator's outputs, is a statement about all series.", "anchors": ["tensorstream/common/lag.py:Lag", "tensorstream/finance/momentum.py:Momentum", "tensorstream/finance/moving_average.py:SimpleMovingAverage", "tensorstream/finance/moving_average.py:ExponentialMovingAverage", "tensorstream/finance/moving_average.py:RollingMovingAverage", "tensorstream/finance/moving_average_crossover.py:SimpleMovingAverageCrossover", "tensorstream/meta/compose.py:Compose"]}
{"id": "C92", "title": "Moving averages do not add energy", "statement": "In exact arithmetic, for every period p > 0, every series of finite samples and every convex function phi that is nowhere negative and 0 at 0 (|x|, x^2, the excess of x over a level c >= 0), the sum of phi over all outputs of SimpleMovingAverage(p), ExponentialMovingAverage(p), RollingMovingAverage(p) and Lag(p) is at most the sum of phi over all samples. Pipelines of operators with this property have it too. Momentum and LocalMaximum do not: on 1, -1, 1 Momentum(1) outputs 0, -2, 2, and on 1, 0 LocalMaximum(2) outputs 1, 1.", "quantifier": "all periods, all convex measures of size, all series of finite samples of any length (exact arithmetic)", "why_tests_cant": "The bound holds for series of every length and for infinitely many measures of size at once; it depends on the seed of the recursive averages being weighted no more than the samples it was computed from.", "anchors": ["tensorstream/finance/moving_average.py", "tensorstream/common/lag.py:Lag", "tensorstream/meta/compose.py:Compose"]}
{"id": "C93", "title": "Resuming with another period", "statement": "The final state of an operator with period q > 0 is accepted by the same operator with another period p. Lag(p) then goes on exactly as Lag(q): its period only matters when it starts without a state. SimpleMovingAverage(p) outputs the sum of the last q samples divided by p, and 0 while fewer than p samples have come; MovingStandardDeviation(p) the deviation of the last q samples (0 while fewer than p have come); missing samples count as 0. LocalMinimum(p) and LocalMaximum(p) output the extremum of the last q samples, except when at least p but fewer than q samples have come: then the zeros that fill the buffer count as samples. ExponentialMovingAverage(p) and RollingMovingAverage(p), resumed after at least max(p, q) samples, go on from the old average with the weights of period p. Return(p) and LogarithmicReturn(p) with p <= q go on as if they had got all the samples themselves; with p > q they fail on the first further sample. Skewness(p) and SharpeRatio(p) output the statistic of the last q samples, except when more than p but fewer than q samples have come: then the zeros that fill the buffer count as samples. RelativeStrengthIndex(p), resumed after more than max(p, q) samples, goes on from the old averages of gains and losses with the weights of period p. Correlation(p) outputs the correlation of the last q pairs, and 0 for the first p pairs. BollingerBands(p, k') lie around the sum of the last q samples divided by p, k' times the deviation of the last q samples away; the factor of the bands before the change is forgotten. Momentum(p) outputs the difference to the sample q steps earlier, and 0 for the first p samples. In SimpleMovingAverageCrossover both averages go on in the buffer they had, each divided by its new period.", "quantifier": "all periods p and q > 0, all series before and after the change, samples of any shape (scalars for the extrema), any arithmetic", "why_tests_cant": "Nothing in the library checks that a state belongs to the operator it is given to, and no test changes a period between two calls; what is output depends on which of the two periods each of the formulas reads.", "anchors": ["tensorstream/common/lag.py:Lag", "tensorstream/common/extremum.py:LocalMinimum", "tensorstream/common/extremum.py:LocalMaximum", "tensorstream/finance/moving_average.py", "tensorstream/finance/moving_standard_deviation.py:MovingStandardDeviation", "tensorstream/finance/returns.py", "tensorstream/finance/skewness.py", "tensorstream/finance/sharpe_ratio.py:SharpeRatio", "tensorstream/finance/relative_strength_index.py:RelativeStrengthIndex", "tensorstream/common/correlation.py:Correlation", "tensorstream/finance/bollinger_bands.py", "tensorstream/finance/momentum.py", "tensorstream/finance/moving_average_crossover.py"]}
{"id": "C94", "title": "Operators in terms of each other", "statement": "On finite samples in exact arithmetic the outputs of the operators satisfy, index by index from the end of the warm-up on: RollingMovingAverage(p) and ExponentialMovingAverage(2p - 1) use the same weights, so their difference shrinks by exactly the factor 1 - 1/p per sample; the square of MovingStandardDeviation(p) is SimpleMovingAverage(p) of the squares minus the square of SimpleMovingAverage(p); SharpeRatio(p) is SimpleMovingAverage(p) divided by MovingStandardDeviation(p) of the differences between return and risk-free return (0 where the deviation is 0); Skewness(p) is (SMA of the cubes - 3 SMA MSD^2 - SMA^3) / MSD^3 (0 where the deviation is 0); Correlation(p) is (SMA of the products - product of the SMAs) / product of the MSDs, from index p on, NaN where a deviation is 0; RSI(p) is 100 RMA(p) of the rises divided by the sum of RMA(p) of the rises and of the falls, NaN where that sum is 0; AverageTrueRange(p) on candles without width, none of which closes at 0, is RMA(p) of the absolute values of Momentum(1).", "quantifier": "all periods > 0, all non-empty series of real numbers, all indices", "why_tests_cant": "Each operator is tested alone against a table of its own; that two implementations written independently (RSI and the rolling average, the skewness and the moving average) agree on every series is an identity between functions.", "anchors": ["tensorstream/finance/moving_average.py", "tensorstream/finance/moving_standard_deviation.py:MovingStandardDeviation", "tensorstream/finance/sharpe_ratio.py:SharpeRatio", "tensorstream/finance/skewness.py:Skewness", "tensorstream/common/correlation.py:Correlation", "tensorstream/finance/relative_strength_index.py:RelativeStrengthIndex", "tensorstream/finance/average_true_range.py:AverageTrueRange", "tensorstream/finance/momentum.py:Momentum"]}
{"id": "C95", "title": "Which transformations of the samples pass through the operators", "statement": "Let f be a function from numbers to numbers. Transforming every sample by f and then applying the operator gives the outputs of the operator transformed by f, for all series of finite samples: for GlobalMinimum, GlobalMaximum, LocalMinimum(p) and LocalMaximum(p) with p >= 2 exactly if f is increasing (not necessarily strictly); for Lag(p) exactly if f(0) = 0; for Momentum(p), and for the simple, exponential and rolling moving averages with p >= 2, exactly if f(a + b) = f(a) + f(b) for all a and b. The signals of ZeroCrossoverSignal are unchanged for all series exactly if f keeps the sign (positive, negative, zero) of every number.", "quantifier": "all functions f, all periods in the given ranges, all non-empty series, exact arithmetic", "why_tests_cant": "The claim quantifies over all functions on numbers and is an equivalence; the zeros with which Lag and the averages begin decide which functions pass.", "anchors": ["tensorstream/common/extremum.py", "tensorstream/common/lag.py:Lag", "tensorstream/finance/momentum.py:Momentum", "tensorstream/finance/moving_average.py", "tensorstream/finance/signals/zero_crossover_signal.py"]}
{"id": "C96", "title": "Which transformations of the samples the ratios do not notice", "statement": "Let f be a function from numbers to numbers. The outputs of the operator are the same for every series of finite samples and the series of its samples transformed by f: for Return(p) exactly if f(x) = c*x with c not zero; for RSI(p) with p >= 2 exactly if f(x) = c*x + d with c > 0; for RSI(1) exactly if f is strictly increasing; for Correlation(p) with p >= 3, when only the first series is transformed, exactly if f(x) = c*x + d with c > 0; for MovingStandardDeviation(p) with p >= 2 exactly if f(x) = x + d or f(x) = -x + d.", "quantifier": "all functions f, all periods in the given ranges, all non-empty series, exact arithmetic", "why_tests_cant": "The claim quantifies over all functions on numbers and is an equivalence: for every other function some series gives different outputs, although most series may not.", "anchors": ["tensorstream/finance/returns.py:Return", "tensorstream/finance/relative_strength_index.py:RelativeStrengthIndex", "tensorstream/common/correlation.py:Correlation", "tensorstream/finance/moving_standard_deviation.py:MovingStandardDeviation"]}
{"id": "C97", "title": "Exactly which outputs are possible", "statement": "For series of finite samples, called without a state: RSI(p) with p >= 2 can output exactly not-a-number and the numbers from 0 to 100, RSI(1) exactly not-a-number, 0 and 100; Correlation(p) with p >= 3 exactly not-a-number and the numbers from -1 to 1, Correlation(2) exactly not-a-number, -1, 0 and 1, Correlation(1) exactly not-a-number and 0; MovingStandardDeviation(p) with p >= 2 and AverageTrueRange(p) exactly the numbers that are not negative; Skewness(p) with p >= 2 exactly the numbers of size at most (p - 2) / sqrt(p - 1); Return(p), and SharpeRatio(p) with p >= 2, every number; Drawdown exactly the pairs (d, n) with d <= 0, n >= 0, and n >= 1 if d < 0; BollingerBands(p, k) with p >= 2 and k > 0 exactly the triples (a, b, c) with a <= b and b - a = c - b; ZeroCrossoverSignal exactly -1, 0 and 1.", "quantifier": "all periods in the given ranges, all non-empty series of all lengths, exact arithmetic", "why_tests_cant": "Both directions quantify over infinitely many values: no series may give an output outside the set, and for every value in the set some series must give it.", "anchors": ["tensorstream/finance/relative_strength_index.py:RelativeStrengthIndex", "tensorstream/common/correlation.py:Correlation", "tensorstream/finance/moving_standard_deviation.py:MovingStandardDeviation", "tensorstream/finance/average_true_range.py:AverageTrueRange", "tensorstream/finance/skewness.py:Skewness", "tensorstream/finance/returns.py:Return", "tensorstream/finance/sharpe_ratio.py:SharpeRatio", "tensorstream/finance/drawdown.py:Drawdown", "tensorstream/finance/bollinger_bands.py:BollingerBands", "tensorstream/finance/signals/zero_crossover_signal.py:ZeroCrossoverSignal"]}
{"id": "C98", "title": "Exactly which series can be the outputs", "statement": "For series of finite samples, called without a state, the series of outputs an operator can produce are exactly these non-empty ones: for the simple, exponential and rolling moving averages of period p >= 1 all series that begin with p - 1 zeros (or consist of zeros, if shorter); for Momentum(p) and Lag(p) all that begin with p zeros; for Return(p) all that begin with p zeros and in which, p steps after every -1, there is a zero; for GlobalMinimum all decreasing and for GlobalMaximum all increasing series (not necessarily strictly); for ZeroCrossoverSignal all series of -1, 0 and 1 that begin with 0 and in which the numbers that are not zero alternate in sign; for LocalMaximum(p) (LocalMinimum(p)) all series in which each output lies within p consecutive ones, cut off at the end of the series, none of which is less (greater); for the average true range of period p all series without negative numbers that begin with p - 1 zeros and in which each output is at least (p - 1) / p times the previous one; for RSI(p) with p >= 2 all series that begin with p zeros, then not-a-number or a number from 0 to 100, and then step from not-a-number to not-a-number, 0 or 100 and from a number to a number from 0 to 100 that is 0 (100) only if the previous one was; for RSI(1) all series of not-a-number, 0 and 100 that begin with 0; for SMACrossover(slow, fast) with slow != fast all series that begin with slow - 1 zeros; for SMACrossoverSignal(slow, fast) with slow != fast all series of -1, 0 and 1 that begin with slow zeros and in which the numbers that are not zero alternate; for MACDSignal(slow, fast, m) with slow != fast and m >= 2 all series of -1, 0 and 1 that begin with slow + m - 2 zeros and in which the numbers that are not zero alternate and the first one is -1, so that the first signal is never upwards.", "quantifier": "all periods, all series of outputs of all lengths, exact arithmetic", "why_tests_cant": "The claim is that there is no further regularity in the outputs: every series with the stated properties is produced by some input, and no other one is; both directions quantify over all series.", "anchors": ["tensorstream/finance/moving_average.py", "tensorstream/finance/momentum.py:Momentum", "tensorstream/common/lag.py:Lag", "tensorstream/finance/returns.py:Return", "tensorstream/common/extremum.py", "tensorstream/finance/signals/zero_crossover_signal.py:ZeroCrossoverSignal", "tensorstream/finance/average_true_range.py", "tensorstream/finance/relative_strength_index.py", "tensorstream/finance/moving_average_crossover.py", "tensorstream/finance/signals/moving_average_crossover_signal.py", "tensorstream/finance/signals/moving_average_convergence_divergence_signal.py"]}
{"id": "C99", "title": "Repeating every sample", "statement": "Let every sample of a series come k >= 1 times in a row. Lag, Momentum and Return with period k*p then output what they output with period p on the original series, every output k times; so do GlobalMaximum and GlobalMinimum, and LocalMaximum and LocalMinimum with period k*p + 1 instead of p + 1. The simple moving average, SMACrossover, the moving standard deviation, Bollinger bands, Skewness, SharpeRatio and Correlation with k times the periods output, at the last of each k repeated samples, what they output at the sample on the original series with the original periods. ZeroCrossoverSignal outputs each of its signals once, followed by k - 1 zeros.", "quantifier": "all k, all periods, all non-empty series of finite samples, exact arithmetic", "why_tests_cant": "The claim relates the outputs of two instances with different periods on series of all lengths for every k; a test checks one k and a few series.", "anchors": ["tensorstream/common/lag.py:Lag", "tensorstream/finance/momentum.py:Momentum", "tensorstream/finance/returns.py:Return", "tensorstream/common/extremum.py", "tensorstream/finance/moving_average.py:SimpleMovingAverage", "tensorstream/finance/moving_standard_deviation.py", "tensorstream/finance/bollinger_bands.py:BollingerBands", "tensorstream/finance/skewness.py", "tensorstream/finance/sharpe_ratio.py:SharpeRatio", "tensorstream/common/correlation.py:Correlation", "tensorstream/finance/signals/zero_crossover_signal.py:ZeroCrossoverSignal", "tensorstream/finance/moving_average_crossover.py"]}
{"id": "C100", "title": "Series in reverse order", "statement": "Let a series of finite samples be fed in reverse order. The simple moving average, the moving standard deviation, Bollinger bands, LocalMaximum, LocalMinimum, Skewness and SharpeRatio of period p then output, after the first p - 1 outputs, the same numbers in reverse order. Momentum(p) outputs, after the first p outputs, the negated numbers in reverse order; Return(p), if no sample is zero, 1 / (1 + r) - 1 for each return r, in reverse order. ZeroCrossoverSignal, if no sample is zero, outputs after the first output the negated signals in reverse order. Lag(p) becomes a lead: its outputs after the first p, read backwards, are the series without its first p samples. Correlation(p) outputs, after the first p outputs and without the last one, the same numbers in reverse order. The last outputs of GlobalMaximum and GlobalMinimum are the same for both orders.", "quantifier": "all periods, all non-empty series of finite samples, exact arithmetic", "why_tests_cant": "The claim relates the outputs on two different series at every position, for all periods and lengths.", "anchors": ["tensorstream/finance/moving_average.py:SimpleMovingAverage", "tensorstream/finance/moving_standard_deviation.py", "tensorstream/finance/bollinger_bands.py:BollingerBands", "tensorstream/common/extremum.py", "tensorstream/finance/skewness.py", "tensorstream/finance/sharpe_ratio.py:SharpeRatio", "tensorstream/finance/momentum.py:Momentum", "tensorstream/finance/returns.py:Return", "tensorstream/finance/signals/zero_crossover_signal.py:ZeroCrossoverSignal", "tensorstream/common/lag.py:Lag", "tensorstream/common/correlation.py:Correlation"]}
{"id": "C101", "title": "Every k-th sample", "statement": "Take from a series every k-th sample (k >= 1), beginning with the one at index j. For j < k, the outputs of Lag, Momentum, Return and LogarithmicReturn with period p for these samples are every k-th output, beginning with the one at index j, of the operator with period k*p for the whole series; Lag and Momentum for tensors of any shape, all four in every arithmetic, in particular bit for bit in binary32 floating point and for samples that are not-a-number or infinite. For finite samples and any j, GlobalMaximum of the taken samples is never greater than that of the whole series at the same sample, GlobalMinimum never less; LocalMaximum(p + 1) of the taken samples is never greater than LocalMaximum(k*p + 1) of the whole series, LocalMinimum never less; and if no sample is negative, the drawdown of the taken samples is never deeper than that of the whole series at the same sample.", "quantifier": "all k, j, periods, series and, for the first four operators, all arithmetics", "why_tests_cant": "The claim relates two series and two periods for every k, every offset and every arithmetic.", "anchors": ["tensorstream/common/lag.py:Lag", "tensorstream/finance/momentum.py:Momentum", "tensorstream/finance/returns.py", "tensorstream/common/extremum.py", "tensorstream/finance/drawdown.py:Drawdown"]}
{"id": "C102", "title": "What the outputs add up to", "statement": "In exact arithmetic, for every series of n finite samples: the outputs of Lag(p) add up to the sum of all but the last p samples; those of Momentum(p) to the sum of the samples without the first p minus the sum of those without the last p; those of LogarithmicReturn(p), for positive samples, to the same difference of the sums of logarithms; and the factors 1 + output of Return(p), for samples different from zero, multiply to the product of the samples without the first p divided by the product of those without the last p. p times the sum of the outputs of SimpleMovingAverage(p) is the sum, over the p positions in the window, of the samples that have been at this position of a full window. For ExponentialMovingAverage(p) and RollingMovingAverage(p) with weight w = 2/(p+1) and 1/p: w times the sum of the samples without the first p is the last output minus output p-1 plus w times the sum of the outputs from index p-1 up to the last but one. Twice the sum of the signals of ZeroCrossoverSignal is the difference between the last direction (sign of the last non-zero sample) and the direction of the first sample; twice the sum of the signals of SimpleMovingAverageCrossoverSignal and MACDSignal is the change of the direction of SimpleMovingAverageCrossover and of the histogram of MACD since the end of the warm-up, so that the signals never add up to anything but -1, 0 and 1.", "quantifier": "all periods, all non-empty finite series (non-zero for Return, positive for LogarithmicReturn)", "why_tests_cant": "The tests compare a few outputs with literals; that no sample is lost or counted twice over a series of any length is a statement about sums over all of its outputs.", "anchors": ["tensorstream/common/lag.py:Lag", "tensorstream/finance/momentum.py", "tensorstream/finance/returns.py", "tensorstream/finance/moving_average.py", "tensorstream/finance/signals/zero_crossover_signal.py", "tensorstream/finance/signals/moving_average_crossover_signal.py"]}
{"id": "C103", "title": "Sums, mixtures and extrema of two series", "statement": "In exact arithmetic, for any two finite series of the same length and at every index: for weights a, b >= 0 the outputs of GlobalMaximum and LocalMaximum(p) for the series a x + b y are at most a times the one for x plus b times the one for y, those of GlobalMinimum and LocalMinimum(p) at least that; the extrema are exact on extrema: the maximum of the series of the greater samples is the greater of the two maxima, the minimum of the series of the smaller samples the smaller of the two minima. MovingStandardDeviation(p) is a seminorm: for a x + b y, with any weights, it is at most |a| times the one for x plus |b| times the one for y, and the one for x - y is at least the distance of those for x and y. For a, b >= 0 the BollingerBands(p, k), k >= 0, of a x + b y have the weighted sum of the middle lines in the middle and lie within the weighted sums of the lower and the upper bands.", "quantifier": "all pairs of finite series of equal length, all weights as stated, all periods p > 0, all k >= 0", "why_tests_cant": "Two series and their mixture are never streamed side by side; the inequalities between the three streams hold for infinitely many weights and series.", "anchors": ["tensorstream/common/extremum.py", "tensorstream/finance/moving_standard_deviation.py:MovingStandardDeviation", "tensorstream/finance/bollinger_bands.py"]}
{"id": "C104", "title": "Exactly which samples an output depends on", "statement": "Say that output j depends on sample i if there are two series that differ in sample i only and on which the outputs at j differ. Then output j depends on sample i exactly if: i + p = j for Lag; p <= j and (i = j or i + p = j) for Momentum and Return; the full window covers i (p <= j + 1, i <= j < i + p) for SimpleMovingAverage and, for p >= 2, MovingStandardDeviation; i <= j < i + p for LocalMaximum and LocalMinimum; i <= j < i + p, p >= 3 and j >= 2 for Skewness; i <= j for GlobalMaximum, GlobalMinimum and Drawdown; i <= j and j > 0 for the zero crossover; p <= j + 1, i <= j and (i = j if p = 1) for the exponential and rolling averages; p <= j and i <= j for RelativeStrengthIndex with p >= 2; i = j or i + 1 = j for HeikinAshi; slow <= j + 1 and i <= j < i + slow for SimpleMovingAverageCrossover with fast < slow; p <= j + 1 and i <= j < i + p for BollingerBands; p <= j + 1, i <= j and (i = j or i + 1 = j if p = 1) for AverageTrueRange; p >= 2, j >= 1 and i <= j < i + p for SharpeRatio; p >= 2, p <= j and i <= j < i + p for Correlation. No operator looks ahead, and none ignores a sample that it claims to use. For MovingAverageConvergenceDivergence(slow, fast, m) with 1 < fast <= slow, the five outputs at j depend on exactly the samples i <= j, from index fast - 1 on.", "quantifier": "all periods, all positions i and j, all series of finite numbers (exact arithmetic)", "why_tests_cant": "A test changes a few samples of a few series; that an output does not depend on a sample is a claim about all pairs of series, and that an operator with unbounded memory never forgets a sample needs an argument for every length.", "anchors": ["tensorstream/finance/moving_average.py", "tensorstream/finance/relative_strength_index.py:RelativeStrengthIndex", "tensorstream/common/lag.py:Lag", "tensorstream/common/extremum.py", "tensorstream/finance/heikin_ashi.py"]}
{"id": "C105", "title": "Exactly which histories have the same future", "statement": "Two non-empty histories a and b leave an operator in states from which it outputs the same on every further series exactly if: the last p samples agree, missing ones counted as zero, for Lag(p) and Return(p); the last p samples agree and are equally many for Momentum(p); the last p - 1 samples agree and are equally many for SimpleMovingAverage(p), MovingStandardDeviation(p), BollingerBands(p, k) and SimpleMovingAverageCrossover(p, fast) with fast < p; the last k samples have the same maximum (minimum) for each k from 1 to p - 1 for LocalMaximum(p) (LocalMinimum(p)); they have the same maximum (minimum) for GlobalMaximum (GlobalMinimum); they have the same direction for the zero crossover; the maxima of zero and the samples and the last period counters agree for Drawdown; the last candles both open at zero, or both do not and have the same sum of open and close, for HeikinAshi; for ExponentialMovingAverage(p) p = 1, or both are at least p long and the last outputs agree, or both are shorter than p, equally long, and add up to the same; for RollingMovingAverage(p) the same, or one is at least p long with last output o and the other has p - 1 samples that add up to (p - 1) o; and, for histories of more than p samples, for RelativeStrengthIndex(p) the last prices agree and, unless p = 1, also the average gains and the average losses. For AverageTrueRange(p) the last closes agree and the true ranges of the two histories have the same future for RollingMovingAverage(p). For SharpeRatio(p) the last p - 1 excess returns agree and are equally many. For MovingAverageConvergenceDivergence(slow, fast, m) with 1 < fast <= slow and 1 < m, and histories of at least slow + m - 1 samples, all five last outputs agree. For Correlation(p) the last p - 1 pairs agree and are equally many, where the very first pair of each history does not count. For every operator this is a symmetric and transitive relation, calls that leave the same final state are related if the operator accepts every series from there, and for the operators above histories with the same future keep it when the same samples are appended to both.", "quantifier": "all periods, all pairs of non-empty histories of finite numbers, all continuations (exact arithmetic)", "why_tests_cant": "That two states cannot be told apart is a claim about all continuations; that they can be told apart whenever the condition fails is a claim about all pairs of histories.", "anchors": ["tensorstream/streamable.py:Streamable.call_streamed", "tensorstream/finance/moving_average.py", "tensorstream/common/extremum.py", "tensorstream/finance/drawdown.py", "tensorstream/finance/heikin_ashi.py", "tensorstream/finance/relative_strength_index.py", "tensorstream/finance/average_true_range.py", "tensorstream/finance/sharpe_ratio.py", "tensorstream/finance/moving_average_convergence_divergence.py", "tensorstream/common/correlation.py"]}
