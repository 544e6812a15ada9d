import Verif.Num.Real
import Verif.Spec.Exact
import Verif.Lemmas.Boost
import Verif.Props.Data
import Verif.Props.Tree
import Verif.Props.Score
import Verif.Props.Boost
import Verif.Props.RawScore
import Verif.Props.Exact
import Verif.Props.ExactTree
import Verif.Props.ExactBoost
import Verif.Props.ExactClass
import Verif.Props.Reject
import Verif.Props.Print
import Verif.Props.Rescale
import Verif.Props.Special
import Verif.Props.Binary64
import Verif.Props.Growth
import Verif.Props.Files
import Verif.Props.Mse
import Verif.Props.Main
import Verif.Props.Relabel
import Verif.Props.ClassOrder
import Verif.Props.Redundant
import Verif.Props.FullFit
import Verif.Props.Hull
import Verif.Props.Place
import Verif.Props.Size
import Verif.Props.Repeat
import Verif.Props.Ties
import Verif.Props.Rounding
import Verif.Props.NearScore
import Verif.Props.NearRaw
import Verif.Props.Vector
import Verif.Props.SingleTree
import Verif.Props.TwoClasses
import Verif.Props.Degenerate
import Verif.Props.Progress
import Verif.Props.LogLoss
import Verif.Props.FeatureOrder
import Verif.Props.Standstill
import Verif.Props.Reads
import Verif.Props.Local
import Verif.Props.Collapse
import Verif.Props.NearBoost
import Verif.Props.ClearCut
import Verif.Props.AmgCollapse
import Verif.Props.Accuracy
import Verif.Props.Unused
import Verif.Props.Distance
import Verif.Props.TestSet
import Verif.Props.Range
import Verif.Props.PowerScale
import Verif.Props.Mirror
import Verif.Props.Accept
import Verif.Props.MainExact
import Verif.Props.SingleRow
import Verif.Props.SingleRowBoost
import Verif.Props.SortedAccept
import Verif.Props.Trend
import Verif.Props.Absent
import Verif.Props.RoundClass
import Verif.Props.NearDepth
import Verif.Spec.Noise
import Verif.Lemmas.Noise
import Verif.Props.Noise
import Verif.Props.PrintBack
import Verif.Props.LeastSquares
import Verif.Props.Bounded
import Verif.Props.Gini
import Verif.Props.Exhaust
import Verif.Props.Additive
import Verif.Props.DeepClass
import Verif.Props.Mistakes
import Verif.Props.Output
import Verif.Props.Credit
import Verif.Props.Custom
import Verif.Props.Ask
import Verif.Props.NearLinear
import Verif.Props.Own
import Verif.Props.Interact
import Verif.Props.InteractNear
import Verif.Applied.Learning
import Verif.Applied.Boosting
import Verif.Applied.Use
import Verif.Props.Weights
import Verif.Props.Continue
import Verif.Props.Dialog
import Verif.Props.Cuts
import Verif.Props.Grid
import Verif.Props.Share
import Verif.Props.Capacity
import Verif.Props.Stop
import Verif.Props.Boundary
import Verif.Props.Rule
import Verif.Props.NearFit
import Verif.Props.NearRule
import Verif.Props.NearPerm
import Verif.Props.NearMean
import Verif.Props.NearTrend
import Verif.Props.FixedPoint
import Verif.Props.ConstTarget
import Verif.Props.NearBest
import Verif.Props.FixedBest
import Verif.Props.NearDistance
import Verif.Props.NearGini
import Verif.Props.LeafMeaning
