import Verif.Base.Err
import Verif.Base.Num
import Verif.Base.PyVal
import Verif.Base.Tensor
import Verif.Base.XR
import Verif.Lemmas.Accuracy
import Verif.Lemmas.AccuracyStd
import Verif.Lemmas.Binary32
import Verif.Lemmas.Call
import Verif.Lemmas.CallStreamed
import Verif.Lemmas.Coord
import Verif.Lemmas.Coupled
import Verif.Lemmas.Decode
import Verif.Lemmas.Exact
import Verif.Lemmas.FFillStream
import Verif.Lemmas.FFillTracks
import Verif.Lemmas.Fails
import Verif.Lemmas.Follows
import Verif.Lemmas.Graded
import Verif.Lemmas.GradedTyped
import Verif.Lemmas.History
import Verif.Lemmas.Int32
import Verif.Lemmas.JoinStream
import Verif.Lemmas.Library
import Verif.Lemmas.Loop
import Verif.Lemmas.MapFn
import Verif.Lemmas.MapRegular
import Verif.Lemmas.MapSteady
import Verif.Lemmas.MapStream
import Verif.Lemmas.MetaRegular
import Verif.Lemmas.OpsRegular
import Verif.Lemmas.OpsRegular2
import Verif.Lemmas.Pipeline
import Verif.Lemmas.PyVal
import Verif.Lemmas.Regular
import Verif.Lemmas.Rounding
import Verif.Lemmas.Scale
import Verif.Lemmas.Series
import Verif.Lemmas.Shipped
import Verif.Lemmas.Sim
import Verif.Lemmas.Stateless
import Verif.Lemmas.StaticShapes
import Verif.Lemmas.Stats
import Verif.Lemmas.Steady
import Verif.Lemmas.Streaming
import Verif.Lemmas.Streams
import Verif.Lemmas.TrackAutomaton
import Verif.Lemmas.TrackAverages
import Verif.Lemmas.TrackCommon
import Verif.Lemmas.TrackCorr
import Verif.Lemmas.TrackMarket
import Verif.Lemmas.TrackMarket2
import Verif.Lemmas.TrackPipelines
import Verif.Lemmas.Typed
import Verif.Lemmas.Window
import Verif.Model.Args
import Verif.Model.Common
import Verif.Model.Helpers
import Verif.Model.Int32
import Verif.Model.Market
import Verif.Model.Meta
import Verif.Model.MovingAverage
import Verif.Model.Signals
import Verif.Model.StaticShapes
import Verif.Model.Streamable
import Verif.Model.TFControl
import Verif.Model.Utils
import Verif.Props.Accepts
import Verif.Props.Accuracy
import Verif.Props.Accuracy2
import Verif.Props.Accuracy3
import Verif.Props.Accuracy4
import Verif.Props.Accuracy5
import Verif.Props.Accuracy6
import Verif.Props.Accuracy7
import Verif.Props.Accuracy8
import Verif.Props.Accuracy9
import Verif.Props.Arguments
import Verif.Props.Arity
import Verif.Props.AtrVectors
import Verif.Props.Averages
import Verif.Props.AveragesExact
import Verif.Props.Backtest
import Verif.Props.Bands
import Verif.Props.Between
import Verif.Props.Broadcast
import Verif.Props.Chebyshev
import Verif.Props.Chunks
import Verif.Props.Combine
import Verif.Props.Common
import Verif.Props.Compose
import Verif.Props.Compound
import Verif.Props.Conditions
import Verif.Props.Constant
import Verif.Props.Contract
import Verif.Props.Coordinates
import Verif.Props.CoreExamples
import Verif.Props.Correlation
import Verif.Props.Counters
import Verif.Props.Depends
import Verif.Props.Depends2
import Verif.Props.Depends3
import Verif.Props.Drawdown
import Verif.Props.Energy
import Verif.Props.Equations
import Verif.Props.Extrema
import Verif.Props.ExtremaInt
import Verif.Props.FFill
import Verif.Props.FFillHistory
import Verif.Props.FFillHistory2
import Verif.Props.Fading
import Verif.Props.Filters
import Verif.Props.Future
import Verif.Props.Future2
import Verif.Props.Future3
import Verif.Props.Future4
import Verif.Props.Future5
import Verif.Props.Future6
import Verif.Props.Future7
import Verif.Props.Future8
import Verif.Props.Handover
import Verif.Props.Helpers
import Verif.Props.Hold
import Verif.Props.Images
import Verif.Props.Images2
import Verif.Props.Images3
import Verif.Props.Infinite
import Verif.Props.Infinities
import Verif.Props.Infinities2
import Verif.Props.Infinities3
import Verif.Props.Join
import Verif.Props.Keys
import Verif.Props.Limits
import Verif.Props.Map
import Verif.Props.MapHistory
import Verif.Props.MapLaws
import Verif.Props.Mirror
import Verif.Props.MixedCandles
import Verif.Props.MixedShapes
import Verif.Props.Moments
import Verif.Props.NaN
import Verif.Props.NaN2
import Verif.Props.Offset
import Verif.Props.Order
import Verif.Props.Overflow
import Verif.Props.Overflow2
import Verif.Props.Overflow3
import Verif.Props.Overflow4
import Verif.Props.Perfect
import Verif.Props.Periods
import Verif.Props.PeriodsMore
import Verif.Props.Pipelines
import Verif.Props.Possible
import Verif.Props.Progress
import Verif.Props.RSI
import Verif.Props.Reals
import Verif.Props.Recover
import Verif.Props.Relations
import Verif.Props.Returns
import Verif.Props.Reverse
import Verif.Props.RiskRatio
import Verif.Props.Rounding
import Verif.Props.SetDuring
import Verif.Props.Signals
import Verif.Props.Skew
import Verif.Props.Stateless
import Verif.Props.StaticShapes
import Verif.Props.Streaming
import Verif.Props.Subsample
import Verif.Props.Superposition
import Verif.Props.SupertrendFails
import Verif.Props.Symmetric
import Verif.Props.Symmetric2
import Verif.Props.TakesOver
import Verif.Props.TakesOver2
import Verif.Props.TakesOver3
import Verif.Props.Totals
import Verif.Props.Transforms
import Verif.Props.Trends
import Verif.Props.Underflow
import Verif.Props.Units
import Verif.Props.Unnoticed
import Verif.Props.Utils
import Verif.Props.Variation
import Verif.Props.Windows
import Verif.Spec.Accepts
import Verif.Spec.Accuracy
import Verif.Spec.Arity
import Verif.Spec.Automaton
import Verif.Spec.Bands
import Verif.Spec.Binary32
import Verif.Spec.Broadcast
import Verif.Spec.Chunks
import Verif.Spec.Common
import Verif.Spec.Counters
import Verif.Spec.Crossing
import Verif.Spec.Energy
import Verif.Spec.FFill
import Verif.Spec.Filters
import Verif.Spec.Handover
import Verif.Spec.History
import Verif.Spec.Infinities
import Verif.Spec.Library
import Verif.Spec.Limits
import Verif.Spec.Market
import Verif.Spec.Meta
import Verif.Spec.MovingAverage
import Verif.Spec.Overflow
import Verif.Spec.Recover
import Verif.Spec.Relations
import Verif.Spec.Rounding
import Verif.Spec.Sequences
import Verif.Spec.Shapes
import Verif.Spec.Signals
import Verif.Spec.Stats
import Verif.Spec.Steady
import Verif.Spec.Streaming
import Verif.Spec.Streams
import Verif.Spec.TakesOver
import Verif.Spec.Transform
import Verif.Spec.Typed
import Verif.Spec.Variation
