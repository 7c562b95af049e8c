import Verif.Basic
import Verif.Bench.Trade
import Verif.Bench.TradeLemmas
import Verif.Spec.Curve
import Verif.Bench.TradeBounds
import Verif.Bench.TradeExact
import Verif.Bench.TradeRat
import Verif.Bench.TradeAccuracy
import Verif.Prop.Trade
import Verif.Bench.Match
import Verif.Prop.Match
import Verif.Bench.MatchBestLemmas
import Verif.Prop.MatchBest
import Verif.Carbon.Pair
import Verif.Carbon.PairLemmas
import Verif.Prop.Pair
import Verif.Carbon.OrderUI
import Verif.Carbon.OrderUILemmas
import Verif.Prop.OrderUI
import Verif.Prop.OrderUIPrice
import Verif.Prop.OrderUIHistory
import Verif.Carbon.Order
import Verif.Carbon.OrderLemmas
import Verif.Prop.Order
import Verif.Carbon.FastRouter
import Verif.Prop.FastRouter
import Verif.Carbon.ExactRouter
import Verif.Carbon.ExactRouterLemmas
import Verif.Prop.ExactRouter
import Verif.Carbon.AlphaRouter
import Verif.Carbon.AlphaRouterLemmas
import Verif.Prop.AlphaRouter
import Verif.Carbon.Simulator
import Verif.Carbon.SimulatorLemmas
import Verif.Carbon.TradeLemmas
import Verif.Prop.SimBook
import Verif.Prop.SimTrade
import Verif.Carbon.RouteContract
import Verif.Tools.Cpc
import Verif.Prop.Cpc
import Verif.Prop.CpcTrade
import Verif.Prop.CpcCarbon
import Verif.Tools.CpcContainer
import Verif.Prop.CpcContainer
import Verif.Prop.CpcFilters
import Verif.Tools.ArbGraph
import Verif.Prop.ArbCycle
import Verif.Prop.ArbRun
import Verif.Prop.ArbGraph
import Verif.Prop.ArbTransport
import Verif.Prop.EdgeAlgebra
import Verif.Prop.ArbDup
import Verif.Prop.ArbConn
import Verif.Prop.ArbStats
import Verif.Tools.Optimizer
import Verif.Prop.Instructions
import Verif.Carbon.GoalSeek
import Verif.Prop.GoalSeek
import Verif.Prop.Margp
import Verif.Prop.SimpleOpt
import Verif.Prop.OptimizerBase
import Verif.Tools.Params
import Verif.Prop.Params
import Verif.Sdk.Token
import Verif.Prop.Token
import Verif.Helpers.FloatInt
import Verif.Prop.FloatInt
import Verif.Helpers.Strategy
import Verif.Prop.Strategy
import Verif.Tools.Univ3
import Verif.Prop.Univ3
import Verif.Prop.CpcValue
import Verif.Sdk.Encoded
import Verif.Prop.Encoded
import Verif.Helpers.RunSim
import Verif.Prop.RunSim
import Verif.Sdk.Base
import Verif.Sdk.Market
import Verif.Prop.SdkBase
import Verif.Prop.SdkMarket
import Verif.Helpers.PathInterp
import Verif.Prop.PathInterp
import Verif.Carbon.Analytics
import Verif.Prop.OrderBook
import Verif.Prop.Liquidity
import Verif.Prop.TradeLog
import Verif.Prop.Effective
import Verif.Carbon.OrderUISdk
import Verif.Prop.OrderUISdk
import Verif.Prop.OrderUIParams
import Verif.Tools.ArbPrice
import Verif.Prop.ArbPrice
import Verif.Prop.ArbNode
import Verif.Bench.TradeSpec
import Verif.Prop.TradeSpec
import Verif.Helpers.Version
import Verif.Helpers.SolTest
import Verif.Helpers.SharedVar
import Verif.Helpers.DataTools
import Verif.Prop.Version
import Verif.Prop.SolTest
import Verif.Prop.SharedVar
import Verif.Prop.DataTools
import Verif.Carbon.FloorRouter
import Verif.Prop.FloorRouter
import Verif.Prop.TradeOutcome
import Verif.Tools.ConvexOpt
import Verif.Prop.ConvexOpt
import Verif.Tools.CpcAnalysis
import Verif.Prop.CpcAnalysis
import Verif.Tools.MargpLoop
import Verif.Prop.MargpLoop
import Verif.Tools.ArbTable
import Verif.Prop.ArbTable
import Verif.Tools.ArbFormat
import Verif.Prop.ArbFormat
import Verif.Prop.ArbMatrix
import Verif.Tools.SimpleResult
import Verif.Prop.SimpleResult
import Verif.Tools.TITable
import Verif.Prop.TITable
import Verif.Helpers.StartCond
import Verif.Prop.StartCond
import Verif.Helpers.Formulas
import Verif.Prop.Formulas
import Verif.Helpers.CryptoCompare
import Verif.Prop.CryptoCompare
import Verif.Witness.Trade
import Verif.Witness.Pair
import Verif.Witness.OrderUI
import Verif.Witness.Routers
import Verif.Witness.Sdk
import Verif.Witness.Sim
import Verif.Witness.Helpers
import Verif.Witness.Data
import Verif.Witness.Cpc
import Verif.Witness.Arb
import Verif.Witness.Optimizer
import Verif.Sdk.Requests
import Verif.Prop.SdkRequests
import Verif.Float.Rounding
import Verif.Carbon.OrderUIFloat
import Verif.Prop.OrderUIFloat
import Verif.Prop.OrderUIFloatOrder
import Verif.Float.Root
import Verif.Carbon.OrderUIFloatPrice
import Verif.Prop.OrderUIFloatPrice
import Verif.Helpers.Widgets
import Verif.Prop.Widgets
import Verif.Carbon.SimulatorRounded
import Verif.Prop.SimulatorRounded
import Verif.Carbon.OrderUIHeap
import Verif.Prop.OrderUIHeap
import Verif.Tools.CpcHeap
import Verif.Prop.CpcHeap
import Verif.Carbon.AlphaRouterOrig
import Verif.Prop.AlphaRouterOrig
import Verif.Tools.ConvexResult
import Verif.Prop.ConvexResult
import Verif.Prop.ExactSplit
import Verif.Prop.SimDepth
import Verif.Witness.Depth
import Verif.Prop.TradeSequence
import Verif.Carbon.ExactUnchecked
import Verif.Prop.ExactUnchecked
import Verif.Helpers.Fls
import Verif.Prop.Fls
import Verif.Prop.MatchCompare
import Verif.Prop.MatchOptimal
import Verif.Helpers.NbConvert
import Verif.Prop.NbConvert
import Verif.Carbon.CurveBook
import Verif.Prop.CurveBook
import Verif.Helpers.Paper
import Verif.Spec.Paper
import Verif.Prop.PaperLemmas
import Verif.Prop.Paper
import Verif.Prop.XEq
import Verif.Prop.PaperOrder
import Verif.Bench.Compare
import Verif.Prop.BenchCompare
import Verif.Carbon.SellDepth
import Verif.Prop.SellDepth
import Verif.Prop.MargpConverge
import Verif.Witness.Converge
import Verif.Prop.MargpGap
import Verif.Prop.MatchOptimalSource
import Verif.Prop.MatchClearing
import Verif.Bench.CompareMatch
import Verif.Prop.BenchMatch
import Verif.Prop.MatchAnyAmount
import Verif.Helpers.Desmos
import Verif.Prop.Desmos
import Verif.Tools.Pickle
import Verif.Prop.Pickle
import Verif.Sdk.MatchRequests
import Verif.Prop.SdkMatch
import Verif.Carbon.Charts
import Verif.Prop.Charts
import Verif.Prop.ExactListing
import Verif.Prop.AddingOrder
import Verif.Prop.AddingOrderFast
import Verif.Prop.AddingOrderAlpha
import Verif.Witness.Adding
import Verif.Witness.AddingFast
import Verif.Prop.DeletedStrategy
import Verif.Prop.DeletedCosts
import Verif.Witness.Deleted
