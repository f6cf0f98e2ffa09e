import Verif.Model.ActivePy
import Verif.Model.ActiveShap
import Verif.Model.AcvTreeRf
import Verif.Model.Biased
import Verif.Model.CMemory
import Verif.Model.Cdp
import Verif.Model.CfOld
import Verif.Model.ClassColumns
import Verif.Model.Clusters
import Verif.Model.Comb
import Verif.Model.CombDouble
import Verif.Model.CondForest
import Verif.Model.CondGauss
import Verif.Model.Counterfactual
import Verif.Model.CrMetrics
import Verif.Model.CrWorkflow
import Verif.Model.DdpRule
import Verif.Model.Display
import Verif.Model.Divergent
import Verif.Model.Ensemble
import Verif.Model.Explainer
import Verif.Model.Groups
import Verif.Model.InputCast
import Verif.Model.LeafCache
import Verif.Model.LeafShap
import Verif.Model.LeafShapPy
import Verif.Model.LoadCat
import Verif.Model.LoadHist
import Verif.Model.LoadIso
import Verif.Model.LoadJson
import Verif.Model.LoadLgb
import Verif.Model.LoadSpark
import Verif.Model.LoadText
import Verif.Model.LoadXgb
import Verif.Model.ManyColumns
import Verif.Model.Marginal
import Verif.Model.MaxRule
import Verif.Model.MaxVar
import Verif.Model.Normalized
import Verif.Model.Parallel
import Verif.Model.ParallelAcc
import Verif.Model.ParallelMachine
import Verif.Model.Projected
import Verif.Model.Ptrees
import Verif.Model.Quantile
import Verif.Model.QuantileRf
import Verif.Model.Rebuild
import Verif.Model.Recognise
import Verif.Model.Rects
import Verif.Model.Rounded
import Verif.Model.RoundedSdp
import Verif.Model.Rules
import Verif.Model.SdpReg
import Verif.Model.Search
import Verif.Model.SearchCoal
import Verif.Model.SearchReg
import Verif.Model.Sequential
import Verif.Model.SequentialAcc
import Verif.Model.Shaff
import Verif.Model.Swing
import Verif.Model.SwingPy
import Verif.Model.Synthetic
import Verif.Model.Temperature
import Verif.Model.Tree
import Verif.Model.TreeSdp
import Verif.Model.Waterfall
import Verif.Model.Wrapper
import Verif.Spec.ActiveGame
import Verif.Spec.Background
import Verif.Spec.Biased
import Verif.Spec.Cdp
import Verif.Spec.Clusters
import Verif.Spec.Counterfactual
import Verif.Spec.CrWorkflow
import Verif.Spec.Divergent
import Verif.Spec.Explainer
import Verif.Spec.Groups
import Verif.Spec.InputCast
import Verif.Spec.Join
import Verif.Spec.LeafGame
import Verif.Spec.LoadCat
import Verif.Spec.LoadHist
import Verif.Spec.LoadJson
import Verif.Spec.LoadLgb
import Verif.Spec.LoadSpark
import Verif.Spec.LoadText
import Verif.Spec.LoadXgb
import Verif.Spec.Normalized
import Verif.Spec.Numbering
import Verif.Spec.Projected
import Verif.Spec.Quantile
import Verif.Spec.Recognise
import Verif.Spec.Rounded
import Verif.Spec.Rules
import Verif.Spec.SdpReg
import Verif.Spec.Search
import Verif.Spec.Shapley
import Verif.Spec.Swing
import Verif.Spec.Swing2
import Verif.Spec.Tests
import Verif.Spec.Tree
import Verif.Spec.TreeSdp
import Verif.Spec.Units
import Verif.Spec.Unused
import Verif.Lemmas.ActivePy
import Verif.Lemmas.ActiveShap
import Verif.Lemmas.Background
import Verif.Lemmas.Biased
import Verif.Lemmas.CMemory
import Verif.Lemmas.Cdp
import Verif.Lemmas.Comb
import Verif.Lemmas.Counterfactual
import Verif.Lemmas.Ensemble
import Verif.Lemmas.ExpNormalized
import Verif.Lemmas.LeafShap
import Verif.Lemmas.LeafShapPy
import Verif.Lemmas.LoadCat
import Verif.Lemmas.LoadIso
import Verif.Lemmas.LoadLgb
import Verif.Lemmas.LoadSpark
import Verif.Lemmas.LoadText
import Verif.Lemmas.LoadXgb
import Verif.Lemmas.MaxRule
import Verif.Lemmas.Normalized
import Verif.Lemmas.Numbering
import Verif.Lemmas.Parallel
import Verif.Lemmas.ProjCell
import Verif.Lemmas.ProjFull
import Verif.Lemmas.ProjSim
import Verif.Lemmas.Projected
import Verif.Lemmas.Quantile
import Verif.Lemmas.QuantileRf
import Verif.Lemmas.Rounded
import Verif.Lemmas.RoundedShap
import Verif.Lemmas.SdpReg
import Verif.Lemmas.Search
import Verif.Lemmas.SearchEnum
import Verif.Lemmas.ShapEnum
import Verif.Lemmas.ShapPy
import Verif.Lemmas.Shapley
import Verif.Lemmas.Swing
import Verif.Lemmas.Tests
import Verif.Lemmas.Tree
import Verif.Lemmas.TreeOrder
import Verif.Lemmas.TreeSdp
import Verif.Lemmas.Unused
import Verif.Props.ActivePy
import Verif.Props.ActiveShap
import Verif.Props.AcvTreeRf
import Verif.Props.Background
import Verif.Props.Biased
import Verif.Props.CMemory
import Verif.Props.Cdp
import Verif.Props.CfOld
import Verif.Props.ClassColumns
import Verif.Props.Classes
import Verif.Props.Clusters
import Verif.Props.ColumnSet
import Verif.Props.Comb
import Verif.Props.CombDouble
import Verif.Props.CondForest
import Verif.Props.CondGauss
import Verif.Props.Counterfactual
import Verif.Props.CrMetrics
import Verif.Props.CrStages
import Verif.Props.CrWorkflow
import Verif.Props.DdpRule
import Verif.Props.Display
import Verif.Props.Divergent
import Verif.Props.Dominance
import Verif.Props.Ensemble
import Verif.Props.Explainer
import Verif.Props.Extend
import Verif.Props.GlobalFit
import Verif.Props.GlobalRules
import Verif.Props.GroupOrder
import Verif.Props.GroupUnused
import Verif.Props.Groups
import Verif.Props.InputCast
import Verif.Props.Interval
import Verif.Props.Join
import Verif.Props.Larger
import Verif.Props.LeafCache
import Verif.Props.Levels
import Verif.Props.LoadCat
import Verif.Props.LoadHist
import Verif.Props.LoadIso
import Verif.Props.LoadJson
import Verif.Props.LoadLgb
import Verif.Props.LoadSpark
import Verif.Props.LoadText
import Verif.Props.LoadXgb
import Verif.Props.ManyColumns
import Verif.Props.Marginal
import Verif.Props.MaxRule
import Verif.Props.MaxVar
import Verif.Props.MoreColumns
import Verif.Props.Nested
import Verif.Props.NodeSize
import Verif.Props.Normalized
import Verif.Props.Numbering
import Verif.Props.NumberingSearch
import Verif.Props.OutputUnits
import Verif.Props.OwnRow
import Verif.Props.Parallel
import Verif.Props.ParallelAcc
import Verif.Props.ParallelMachine
import Verif.Props.Projected
import Verif.Props.Ptrees
import Verif.Props.Quantile
import Verif.Props.QuantileRf
import Verif.Props.Range
import Verif.Props.Rebuild
import Verif.Props.Recognise
import Verif.Props.Rects
import Verif.Props.Rounded
import Verif.Props.RoundedExp
import Verif.Props.RoundedSdp
import Verif.Props.RulesV0
import Verif.Props.SameModel
import Verif.Props.Sampling
import Verif.Props.SdpReg
import Verif.Props.Search
import Verif.Props.SearchCoal
import Verif.Props.SearchPad
import Verif.Props.SearchReg
import Verif.Props.Sequential
import Verif.Props.SequentialAcc
import Verif.Props.Settle
import Verif.Props.Shaff
import Verif.Props.ShapExp
import Verif.Props.ShapPy
import Verif.Props.Shapley
import Verif.Props.Sizes
import Verif.Props.Swing
import Verif.Props.SwingDirect
import Verif.Props.SwingPy
import Verif.Props.SwingUnused
import Verif.Props.Synthetic
import Verif.Props.Temperature
import Verif.Props.Tests
import Verif.Props.Tree
import Verif.Props.TreeDepth
import Verif.Props.TreeOrder
import Verif.Props.TreeSdp
import Verif.Props.Units
import Verif.Props.Unused
import Verif.Props.UnusedForest
import Verif.Props.Waterfall
import Verif.Props.Wrapper
