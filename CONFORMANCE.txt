Fixtures of the library's tests replayed on the model with Float32 (tools/conformance.py)
SMA 4                                ok (19 values, largest difference 0.0e+00)
SMA 10                               ok (19 values, largest difference 0.0e+00)
EMA 10                               ok (30 values, largest difference 4.0e-06)
RMA 10                               ok (93 values, largest difference 6.0e-07)
MSD 10                               ok (31 values, largest difference 7.8e-07)
BollingerBands 20 2                  ok (126 values, largest difference 5.6e-05)
MACD 26 12 9                         ok (330 values, largest difference 1.6e-04)
SMACrossover 10 4                    ok (19 values, largest difference 1.0e-06)
SMACrossoverSignal 10 4              ok (19 values, largest difference 0.0e+00)
MACDSignal 26 12 9                   index 33: -1.0, expected 0.0
ZeroCrossoverSignal                  ok (33 values, largest difference 0.0e+00)
RSI 14                               ok (33 values, largest difference 7.3e-05)
Return 5                             ok (30 values, largest difference 5.2e-07)
LogReturn 5                          ok (30 values, largest difference 5.0e-07)
Momentum 5                           ok (30 values, largest difference 1.0e-06)
Volatility 5                         ok (30 values, largest difference 5.0e-07)
SharpeRatio 10 single_dim_zero_rfr   ok (30 values, largest difference 5.1e-07)
SharpeRatio 10 single_dim_small_rfr  ok (30 values, largest difference 5.2e-07)
Skewness 10                          ok (30 values, largest difference 1.4e-06)
ATR 14                               ok (30 values, largest difference 4.9e-05)
Supertrend 10 3                      ok (93 values, largest difference 1.0e-05)
HeikinAshi                           ok (160 values, largest difference 0.0e+00)
Drawdown                             ok (1980 values, largest difference 5.5e-07)
RiskRatioEvaluator Sheet1            ok (126 values, largest difference 0.0e+00)
RiskRatioEvaluator Sheet2            ok (126 values, largest difference 0.0e+00)
Correlation 5                        ok (30 values, largest difference 5.1e-07)
CrossCorrelation 5 2                 ok (30 values, largest difference 4.7e-07)
AutoCorrelation 5 2                  ok (30 values, largest difference 5.1e-07)
GlobalMinimum                        ok (33 values, largest difference 0.0e+00)
GlobalMaximum                        ok (33 values, largest difference 0.0e+00)
LocalMinimum 5                       ok (33 values, largest difference 0.0e+00)
LocalMaximum 5                       ok (33 values, largest difference 0.0e+00)
Lag 3                                ok (12 values, largest difference 0.0e+00)
Compose(Square, Add)                 ok (12 values, largest difference 1.6e-05)
Compose(Fork, Square, Add)           ok (24 values, largest difference 1.6e-05)
Factory                              ok (36 values, largest difference 1.0e-06)
Join(Add, Square)                    ok (24 values, largest difference 4.0e-06)
Join(Fork, Square)                   ok (36 values, largest difference 1.0e-05)
FFill(Identity)                      ok (12 values, largest difference 0.0e+00)
FFill(Lag)                           ok (12 values, largest difference 0.0e+00)
Map(Square)                          ok (36 values, largest difference 1.4e-04)
Map(Fork)                            ok (72 values, largest difference 2.0e-06)
Map(Add)                             ok (36 values, largest difference 3.0e-06)
Map(FFill(Square))                   ok (36 values, largest difference 1.4e-04)
Map(StateMultiDim)                   ok (72 values, largest difference 2.0e-06)
Sub                                  ok (6 values, largest difference 0.0e+00)
Sub 2d                               ok (12 values, largest difference 0.0e+00)
Add                                  ok (6 values, largest difference 0.0e+00)
Add 2d                               ok (12 values, largest difference 0.0e+00)
Mul                                  ok (6 values, largest difference 0.0e+00)
Mul 2d                               ok (12 values, largest difference 0.0e+00)
Fork 3                               ok (18 values, largest difference 0.0e+00)
Identity                             ok (6 values, largest difference 0.0e+00)
Identity 2d                          ok (12 values, largest difference 0.0e+00)
Select [0,2]                         ok (12 values, largest difference 0.0e+00)
Select [0,2] 2d                      ok (18 values, largest difference 0.0e+00)
Positive                             ok (6 values, largest difference 0.0e+00)
Positive 2d                          ok (12 values, largest difference 0.0e+00)
Negative                             ok (6 values, largest difference 0.0e+00)
Negative 2d                          ok (12 values, largest difference 0.0e+00)
SetDuring 0 4                        ok (9 values, largest difference 0.0e+00)
Automaton                            ok (13 values, largest difference 0.0e+00)
WithState, given                     ok (7 values, largest difference 0.0e+00)
WithState                            ok (7 values, largest difference 0.0e+00)
Tuple                                ok (12 values, largest difference 0.0e+00)
bad input sizes                      ok (ERROR TS.Err.sizeMismatch)
bad input state                      ok (ERROR TS.Err.stateTypes)
bad output state                     ok (ERROR TS.Err.stateTypes)
avg                                  ok (2 values, largest difference 2.8e-07)

MACDSignal: the fixture macd_signals.ods expects 0 at index 33, the first genuine histogram value (-5.1).  The code as written outputs -1 there
(SetDuring(0, slow + macd - 2) masks the indices below 33 only), and so does the model; see C35 and DESIGN.md section 6.
