"""Replays the fixtures of the library's own tests (the .ods and .csv files next to the *_spec.py files in /repo) on the model, with Lean's Float32
as the arithmetic, and compares the outputs as the tests do.  Needs a finished build of ../lean.  Writes CONFORMANCE.txt.
This is evidence that the model says what the code does; nothing is proved by it."""
import csv, math, os, subprocess, sys
sys.path.insert(0, os.path.dirname(os.path.abspath(__file__)))
import ods
root = os.path.dirname(os.path.dirname(os.path.abspath(__file__)))
R = '/repo/tensorstream/'
PRE = r'''
import Verif
open TS
def toF (q : ℚ) : Float32 := (Float.ofInt q.num / Float.ofNat q.den).toFloat32
def fsum (l : List Float32) : Float32 := l.foldl (· + ·) 0
instance : TFNum Float32 where
  add := Float32.add
  sub := Float32.sub
  mul := Float32.mul
  div := Float32.div
  neg := Float32.neg
  ofRat := toF
  abs := Float32.abs
  sqrt := Float32.sqrt
  log := Float32.log
  pow x n := (List.replicate n x).foldl (· * ·) 1
  max a b := if a < b then b else a
  min a b := if b < a then b else a
  sum := fsum
  redMin l := l.foldl (fun a b => if b < a then b else a) (1/0)
  redMax l := l.foldl (fun a b => if a < b then b else a) (-1/0)
  lt a b := a < b
  le a b := a ≤ b
  eq a b := a == b
  isNaN := Float32.isNaN
  sign x := if x > 0 then 1 else if x < 0 then -1 else 0
  toInt x := if x < 0 then - (Int.ofNat (-x).toUInt64.toNat) else Int.ofNat x.toUInt64.toNat
abbrev V := Val Float32
def ser (l : List Float32) : V := .leaf (.f (Tensor.pack [] (l.map fun x _ => x)))
def rows (l : List (List Float32)) : V := .leaf (.f (Tensor.pack [3] (l.map fun r i => r.getD i.1.val 0)))
def serI (l : List Int) : V := .leaf (.i (Tensor.pack [] (l.map fun x _ => x)))
/-- all multi-indices of a shape in row-major order -/
def allIdx : (s : List Nat) → List (Idx s)
  | [] => [()]
  | n :: s => (List.finRange n).flatMap fun i => (allIdx s).map fun j => (i, j)
def shw : Leaf Float32 → String
  | .f t => "f " ++ " ".intercalate ((allIdx t.shape).map fun i => toString (t.val i).toFloat)
  | .i t => "i " ++ " ".intercalate ((allIdx t.shape).map fun i => toString (t.val i))
  | .b t => "b " ++ " ".intercalate ((allIdx t.shape).map fun i => toString (t.val i))
  | _ => "?"
def run (name : String) (op : Operator Float32) (x : V) : IO Unit :=
  match call op x none with
  | .ok (y, _, _) => do
    IO.println s!"BEGIN {name}"
    for l in flatten y do IO.println (shw l)
  | .error e => IO.println s!"BEGIN {name}\nERROR {repr e}"
/- operators defined in the tests themselves -/
def num (x : Float32) : V := .leaf (.f (Tensor.scalar x))
def delayOp (f : Float32 → V) : Operator Float32 := streamable fun args => do
  arity 1 2 args
  let x ← req args 0 decS
  let p ← opt args 1 decS
  let p := p.getD 0
  .ok (f p, num x, num p)
def Square := delayOp fun p => num (p * p)
def MulBy (k : Float32) := delayOp fun p => num (p * k)
def Fork2 := delayOp fun p => .tup [num p, num p]
def Lag1 := delayOp num
def rowsI (l : List (List Int)) : V := .leaf (.i (Tensor.pack [2] (l.map fun r i => r.getD i.1.val 0)))
def StateMD : Operator Float32 := streamable fun args => do
  arity 1 2 args
  let x ← req args 0 decS
  let p ← opt args 1 (decFs [2])
  let p : V := vF (p.getD fun _ => 0)
  .ok (p, vF (s := [2]) (fun _ => x), p)
def pr (a b : Int) : V := .leaf (.i (Tensor.pack [] [fun _ => a, fun _ => b]))
def two (f : Int → Int → Bool) (args : List V) : Res Bool := do
  .ok (f (← req args 0 decI) (← req args 1 decI))
def auto : Operator Float32 := Automaton [⟨0, 1, two (fun x y => x < y), fun _ => .ok (pr 0 1)⟩,
  ⟨0, 2, two (fun x y => x > y), fun _ => .ok (pr 0 2)⟩, ⟨1, 2, two (fun x _ => x = 4), fun _ => .ok (pr 1 2)⟩,
  ⟨2, 0, two (fun _ y => y = 4), fun _ => .ok (pr 2 0)⟩] 0 (fun _ => .ok (pr (-1) (-1)))
/- streamable_spec.py -/
def dbl (v : V) (k : Int) : Res V := do let t ← (← decLeaf v).asI; .ok (.leaf (.i ⟨t.shape, fun i => k * t.val i⟩))
def WithState : Operator Float32 := streamable fun args => do
  arity 1 2 args
  let x ← req args 0 decI
  let i := (← opt args 1 decI).getD 0
  .ok (vI (2 * x), vI (i + 2), vI i)
def TupleOp : Operator Float32 := makeStreamable fun args => do
  arity 2 2 args
  .ok (.tup [← dbl (args.getD 0 (vI 0)) 2, ← dbl (args.getD 1 (vI 0)) 3])
def BadIn : Operator Float32 := streamable fun args => do
  let x ← req args 0 decAny
  .ok (x, PyVal.unit, vI 0)
def BadOut : Operator Float32 := streamable fun args => do
  arity 1 1 args
  let x ← req args 0 decAny
  .ok (x, x, PyVal.unit)
def runAvg (name : String) (x : V) : IO Unit :=
  match (do
    let (y, _, _) ← call Drawdown x none
    match flatten y with
    | [.f d, .i n] => drawdownAvg ((← d.unpack []).map fun f => f ()) ((← n.unpack []).map fun f => f ())
    | _ => .error .typeError : Res (Float32 × Float32)) with
  | .ok (a, b) => IO.println s!"BEGIN {name}\nf {a.toFloat}\nf {b.toFloat}"
  | .error e => IO.println s!"BEGIN {name}\nERROR {repr e}"
def runAll (name : String) (op : Operator Float32) (x : V) (st : Option V) : IO Unit :=
  match call op x st with
  | .ok (y, s, _) => do
    IO.println s!"BEGIN {name}"
    for l in flatten (.tup [y, s]) do IO.println (shw l)
  | .error e => IO.println s!"BEGIN {name}\nERROR {repr e}"
'''
jobs, expect = [], {}
def F(v):
    v = 'nan' if v is None or v == '' else repr(float(v))
    if v == 'nan': return '(0/0)'
    return '(%s)' % v if float(v) < 0 else v
def ser(l): return 'ser [%s]' % ', '.join(map(F, l))
def rows(ls): return 'rows [%s]' % ', '.join('[%s]' % ', '.join(map(F, r)) for r in zip(*ls))
def tup(*xs): return '.tup [%s]' % ', '.join(xs)
def table(fn, sheet):
    if fn.endswith('.csv'):
        r = list(csv.reader(open(R + fn)))
    else:
        r = ods.read(R + fn)[sheet]
    h, body = r[0], r[1:]
    return {c: [(row[k] if k < len(row) else None) for row in body] for k, c in enumerate(h)}
def test(name, op, x, exp, dec=3):
    jobs.append('#eval run "%s" (%s) (%s)' % (name, op, x)); expect[name] = (exp, dec)
FN = 'finance/tests/resources/'; CM = 'common/tests/resources/'; MT = 'meta/tests/resources/'; SG = 'finance/signals/tests/resources/'
t = table(FN + 'moving_averages_sma.ods', 'Sheet1')
test('SMA 4', 'SMA 4', ser(t['Close']), [t['SMA4']]); test('SMA 10', 'SMA 10', ser(t['Close']), [t['SMA10']])
t = table(FN + 'moving_averages_ema.ods', 'Sheet1'); test('EMA 10', 'EMA 10', ser(t['Close']), [t['EMA10']])
t = table(FN + 'moving_averages_rma.ods', 'Sheet1'); test('RMA 10', 'RMA 10', ser(t['Close']), [t['RMA10']])
t = table(FN + 'moving_standard_deviation.ods', 'Sheet1'); test('MSD 10', 'MSD 10', ser(t['Value']), [t['mstdev']])
t = table(FN + 'bollinger_bands.ods', 'bollinger_bands')
test('BollingerBands 20 2', 'BollingerBands 20 2', ser(t['Price']), [t['Lower Band'], t['Middle Band'], t['Upper Band']])
t = table(FN + 'moving_average_convergence_divergence.ods', 'Sheet1')
test('MACD 26 12 9', 'MACD 26 12 9', ser(t['Close']), [t[c] for c in ('26 Day EMA', '12 Day EMA', 'MACD', 'Signal', 'Histogram')])
t = table(FN + 'moving_average_crossover.ods', 'Sheet1'); test('SMACrossover 10 4', 'SMACrossover 10 4', ser(t['Close']), [t['MA Crossover']])
t = table(SG + 'moving_average_crossover_signal.ods', 'Sheet1'); test('SMACrossoverSignal 10 4', 'SMACrossoverSignal 10 4', ser(t['Close']), [t['MA Crossover signal']])
t = table(SG + 'macd_signals.ods', 'Sheet1'); test('MACDSignal 26 12 9', 'MACDSignal 26 12 9', ser(t['Close']), [t['Trade Signals']])
t = table(SG + 'zero_crossover_signal.ods', 'Sheet1'); test('ZeroCrossoverSignal', 'ZeroCrossoverSignal', ser(t['Histogram']), [t['Signals']])
t = table(FN + 'relative_strength_index.ods', 'relative_strength_index'); test('RSI 14', 'RSI 14', ser(t['Close']), [t['RSI']])
t = table(FN + 'returns.ods', 'Sheet1'); test('Return 5', 'Return 5', ser(t['Prices']), [t['Return 5d']], 4)
t = table(FN + 'logarithmic_returns.ods', 'Sheet1'); test('LogReturn 5', 'LogReturn 5', ser(t['Prices']), [t['Log Return 5d']], 4)
t = table(FN + 'momentum_5.ods', 'Sheet1'); test('Momentum 5', 'Momentum 5', ser(t['Close']), [t['Momentum']])
t = table(FN + 'volatility.ods', 'Sheet1'); test('Volatility 5', 'Volatility 5 1', ser(t['Prices']), [t['Volatility']])
for s in ('single_dim_zero_rfr', 'single_dim_small_rfr'):
    t = table(FN + 'sharpe_ratio.ods', s); test('SharpeRatio 10 ' + s, 'SharpeRatio 10', tup(ser(t['Return']), ser(t['Risk free rate'])), [t['SR10']])
t = table(FN + 'skewness.ods', 'Sheet1'); test('Skewness 10', 'Skewness 10', ser(t['Return']), [t['Skewness 10D']])
t = table(FN + 'average_true_range.ods', 'average_true_range'); test('ATR 14', 'ATR 14', tup(ser(t['Close']), ser(t['Low']), ser(t['High'])), [t['ATR']])
t = table(FN + 'supertrend.ods', 'supertrend'); test('Supertrend 10 3', 'Supertrend 10 3', tup(ser(t['close']), ser(t['low']), ser(t['high'])), [t['Supertrend']])
t = table(FN + 'heikin_ashi.ods', 'Sheet1')
test('HeikinAshi', 'HeikinAshi', tup(*[ser(t[c]) for c in ('open', 'high', 'low', 'close')]), [t['ha_' + c] for c in ('open', 'high', 'low', 'close')])
t = table(FN + 'drawdown.csv', None); test('Drawdown', 'Drawdown', ser(t['Value']), [t['Drawdown'], t['Time Under Water']])
for s, d in (('Sheet1', 'none'), ('Sheet2', '(some 5)')):
    t = table('finance/evaluators/tests/resources/risk_ratio_evaluator.ods', s)
    test('RiskRatioEvaluator ' + s, 'RiskRatioEvaluator ⟨2, 4, 5, %s⟩' % d, tup(*[ser(t[c]) for c in ('Low', 'High', 'Close', 'Signal')]), [t['successful'], t['total'], None, t['signal']])
t = table(CM + 'correlation.ods', 'Sheet1'); test('Correlation 5', 'Correlation 5', tup(ser(t['Returns 0']), ser(t['Returns 1'])), [t['Correlation']], 6)
t = table(CM + 'cross_correlation.ods', 'Sheet1'); test('CrossCorrelation 5 2', 'CrossCorrelation 5 2', tup(ser(t['Returns 0']), ser(t['Returns 1'])), [t['Correlation']], 6)
t = table(CM + 'auto_correlation.ods', 'Sheet1'); test('AutoCorrelation 5 2', 'AutoCorrelation 5 2', ser(t['Returns 0']), [t['Correlation']], 6)
t = table(CM + 'extremum.ods', 'Sheet1')
for n, c in (('GlobalMinimum', 'GlobalMin'), ('GlobalMaximum', 'GlobalMax'), ('LocalMinimum 5', 'LocalMin'), ('LocalMaximum 5', 'LocalMax')):
    test(n, n, ser(t['Value']), [t[c]])
t = table(CM + 'lag.ods', 'single_dim'); test('Lag 3', 'Lag 3', ser(t['Value']), [t['Delayed']])
t = table(MT + 'compose.ods', 'Sheet1')
test('Compose(Square, Add)', 'Compose [Square, Add]', tup(ser(t['x']), ser(t['y'])), [t['compose']])
test('Compose(Fork, Square, Add)', 'Compose [Fork 2, Square, Add]', tup(ser(t['x']), ser(t['y'])), [t['compose']] * 2)
t = table(MT + 'factory.ods', 'Sheet1'); test('Factory', 'Factory MulBy [3, 5, 10]', tup(*[ser(t['x'])] * 3), [t['Mul 3'], t['Mul 5'], t['Mul 10']])
t = table(MT + 'join.ods', 'Sheet1'); test('Join(Add, Square)', 'Join [Add, Square]', tup(tup(ser(t['x']), ser(t['y'])), ser(t['z'])), [t['add'], t['square']])
t = table(MT + 'join.ods', 'Sheet2'); test('Join(Fork, Square)', 'Join [Fork 2, Square]', tup(ser(t['x']), ser(t['y'])), [t['fork'], t['fork'], t['square']])
t = table(MT + 'ffill.ods', 'Sheet1'); test('FFill(Identity)', 'FFill Identity', ser(t['Value 0']), [t['Ffill 0']])
t = table(MT + 'ffill.ods', 'Lag'); test('FFill(Lag)', 'FFill Lag1', ser(t['Value 0']), [t['Ffill 0']])
def cols(t, p, n=3): return [t[p + str(k)] for k in range(n)]
def flat(ls): return [v for r in zip(*ls) for v in r]
t = table(MT + 'map.ods', 'Sheet1'); test('Map(Square)', 'Map Square 3', rows(cols(t, 'x')), [flat(cols(t, 's'))])
t = table(MT + 'map.ods', 'Sheet2'); test('Map(Fork)', 'Map Fork2 3', rows(cols(t, 'x')), [flat(cols(t, 'y'))] * 2)
t = table(MT + 'map.ods', 'Sheet5'); test('Map(Add)', 'Map Add 3', tup(rows(cols(t, 'x')), rows(cols(t, 'y'))), [flat(cols(t, 'z'))])
t = table(MT + 'map.ods', 'map_ffill'); test('Map(FFill(Square))', 'Map (FFill Square) 3', rows(cols(t, 'x')), [flat(cols(t, 'y'))])
t = table(MT + 'map.ods', 'Sheet3'); test('Map(StateMultiDim)', 'Map StateMD 3', rows(cols(t, 'x')), [flat(cols(t, 'y', 6))])
# literals of common_spec.py, make_streamable_spec.py, set_during_spec.py, automaton_spec.py, streamable_spec.py
def I(l): return 'serI %s' % l
def M(l): return 'rowsI %s' % l
a, b, c = [1, 3, 5, 6, 7, 9], [3, 4, 2, 8, 3, 1], [4, 1, 4, 2, 2, 3]
am, bm = [[1, 2], [3, 4], [5, 6], [3, 2], [5, 7], [4, 9]], [[3, 4], [4, 4], [2, 2], [2, 8], [3, 4], [1, 6]]
f2 = lambda m: [v for r in m for v in r]
test('Sub', 'Sub', tup(I(a), I(b)), [[-2, -1, 3, -2, 4, 8]]); test('Sub 2d', 'Sub', tup(M(am), M(bm)), [f2([[-2, -2], [-1, 0], [3, 4], [1, -6], [2, 3], [3, 3]])])
test('Add', 'Add', tup(I(a), I(b)), [[4, 7, 7, 14, 10, 10]]); test('Add 2d', 'Add', tup(M(am), M(bm)), [f2([[4, 6], [7, 8], [7, 8], [5, 10], [8, 11], [5, 15]])])
test('Mul', 'Mul', tup(I(a), I(b)), [[3, 12, 10, 48, 21, 9]]); test('Mul 2d', 'Mul', tup(M(am), M(bm)), [f2([[3, 8], [12, 16], [10, 12], [6, 16], [15, 28], [4, 54]])])
test('Fork 3', 'Fork 3', I(a), [a] * 3); test('Identity', 'Identity', I(a), [a]); test('Identity 2d', 'Identity', M(am), [f2(am)])
test('Select [0,2]', 'Select (.list [0, 2])', tup(I(a), I(b), I(c)), [a, c]); test('Select [0,2] 2d', 'Select (.list [0, 2])', tup(M(am), I(b), I(c)), [f2(am), c])
s1, sm = [1, -3, 5, -6, 7, 9], [[1, 3], [-3, 2], [5, -3], [-6, -3], [7, -2], [1, 9]]
test('Positive', 'Positive', I(s1), [[1, 0, 1, 0, 1, 1]]); test('Positive 2d', 'Positive', M(sm), [f2([[1, 1], [0, 1], [1, 0], [0, 0], [1, 0], [1, 1]])])
test('Negative', 'Negative', I(s1), [[0, 1, 0, 1, 0, 0]]); test('Negative 2d', 'Negative', M(sm), [f2([[0, 0], [1, 0], [0, 1], [1, 1], [0, 1], [0, 0]])])
test('SetDuring 0 4', 'SetDuring (.i (Tensor.scalar 0)) 4', I([1, 2, 3, 4, 5, 6, 7, 8, 9]), [[0, 0, 0, 0, 5, 6, 7, 8, 9]])
def testS(name, op, x, st, exp):
    jobs.append('#eval runAll "%s" (%s) (%s) (%s)' % (name, op, x, st)); expect[name] = (exp, 3)
testS('Automaton', 'auto', tup(I([3, 5, 4, 10, 7, 8]), I([4, 7, 9, 12, 4, 5])), 'some (vI 0)', [f2([[0, 1], [-1, -1], [1, 2], [-1, -1], [2, 0], [0, 2]]), [2]])
x6, y6 = [0, 1, 2, 3, 4, 5], [1, 2, 3, 4, 5, 6]
testS('WithState, given', 'WithState', I(x6), 'some (vI 5)', [[0, 2, 4, 6, 8, 10], [17]]); testS('WithState', 'WithState', I(x6), 'none', [[0, 2, 4, 6, 8, 10], [12]])
testS('Tuple', 'TupleOp', tup(I(x6), I(y6)), 'none', [[0, 2, 4, 6, 8, 10], [3, 6, 9, 12, 15, 18]])
testS('bad input sizes', 'TupleOp', tup(I(x6), I(y6 + [7])), 'none', 'ERROR'); testS('bad input state', 'BadIn', I(x6), 'some (vI 0)', 'ERROR'); testS('bad output state', 'BadOut', I(x6), 'none', 'ERROR')
av = [100.0, 101.0, 103.0, 102.5, 101.3, 100.5, 101.4, 104.0, 104.5, 103.5, 102.4, 105.0, 105.5, 107.0, 106.4, 106.3, 106.2, 107.0, 108.0, 108.6, 108.0, 108.7]
jobs.append('#eval runAvg "avg" (%s)' % ser(av)); expect['avg'] = ([[-0.014342278], [2.75]], 3)
p = '/tmp/conformance.lean'
open(p, 'w').write(PRE + '\n'.join(jobs) + '\n')
o = subprocess.run(['lake', 'env', 'lean', p], cwd=root + '/lean', capture_output=True, text=True)
got, cur = {}, None
for l in o.stdout.splitlines():
    l = l.split('info: ')[-1]
    if l.startswith('BEGIN '): cur = l[6:]; got[cur] = []
    elif cur and l[:2] in ('f ', 'i ', 'b '): got[cur].append([float({'NaN': 'nan', 'inf': 'inf', '-inf': '-inf'}.get(x, x)) for x in l[2:].split()])
    elif cur and l.startswith('ERROR'): got[cur] = l
    else: print(l[:300])
res, bad = [], 0
for n, (exp, dec) in expect.items():
    g = got.get(n); msg = None
    if exp == 'ERROR': msg = ('ok (%s)' % g) if isinstance(g, str) else 'no error'; exp = []
    elif isinstance(g, str): msg = g
    elif g is None or len(g) < len(exp): msg = 'no output' if not g else '%d outputs' % len(g)
    else:
        worst = 0.0
        for a, b in zip(g, exp):
            if b is None: continue
            if len(a) != len(b): msg = 'lengths %d, %d' % (len(a), len(b)); break
            for k, (x, y) in enumerate(zip(a, b)):
                y = float('nan') if y in (None, '') else float(y)
                if math.isnan(x) and math.isnan(y): continue
                e = abs(x - y)
                if not e < 1.5 * 10 ** -dec: msg = msg or 'index %d: %r, expected %r' % (k, x, y)
                else: worst = max(worst, e)
        msg = msg or 'ok (%d values, largest difference %.1e)' % (sum(len(b) for b in exp if b), worst)
    bad += not msg.startswith('ok'); res.append('%-36s %s' % (n, msg))
open(root + '/CONFORMANCE.txt', 'w').write('Fixtures of the library\'s tests replayed on the model with Float32 (tools/conformance.py)\n' + '\n'.join(res) + '\n')
open(root + '/CONFORMANCE.txt', 'a').write("""
MACDSignal: the fixture macd_signals.ods expects 0 at index 33, the first genuine histogram value (-5.1).  The code as written outputs -1 there
(SetDuring(0, slow + macd - 2) masks the indices below 33 only), and so does the model; see C35 and DESIGN.md section 6.
""")
print('\n'.join(res)); print(bad, 'of', len(res), 'differ')
