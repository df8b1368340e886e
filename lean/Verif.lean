import Verif.Lemmas.Alias
import Verif.Lemmas.BSeries
import Verif.Lemmas.BSeriesN
import Verif.Lemmas.BSeriesNT
import Verif.Lemmas.BSeriesNVar
import Verif.Lemmas.BSeriesRK
import Verif.Lemmas.BSeriesRes
import Verif.Lemmas.BSeriesVar
import Verif.Lemmas.Cheb
import Verif.Lemmas.ChebPoly
import Verif.Lemmas.ChebStab
import Verif.Lemmas.ChebStages
import Verif.Lemmas.Convergence
import Verif.Lemmas.DecimalCheck
import Verif.Lemmas.Dense
import Verif.Lemmas.Driver
import Verif.Lemmas.Esdirk
import Verif.Lemmas.EsdirkInv
import Verif.Lemmas.Float
import Verif.Lemmas.FloatSum
import Verif.Lemmas.FloatTime
import Verif.Lemmas.FullRun
import Verif.Lemmas.LinearODE
import Verif.Lemmas.LowerOrder
import Verif.Lemmas.NSeries
import Verif.Lemmas.NTreeCheck
import Verif.Lemmas.NearConv
import Verif.Lemmas.NoisyConv
import Verif.Lemmas.NyCert1
import Verif.Lemmas.NyCert2
import Verif.Lemmas.NyCert3
import Verif.Lemmas.NyStabPoly
import Verif.Lemmas.OneStep
import Verif.Lemmas.Param
import Verif.Lemmas.PicardConv
import Verif.Lemmas.PosCheck
import Verif.Lemmas.RK
import Verif.Lemmas.SensSmooth
import Verif.Lemmas.SmoothRun
import Verif.Lemmas.StabCert1
import Verif.Lemmas.StabCert2
import Verif.Lemmas.StabCert3
import Verif.Lemmas.StabPoly
import Verif.Lemmas.Stability
import Verif.Lemmas.SwagCoef
import Verif.Lemmas.SwagConv
import Verif.Lemmas.SwagInv
import Verif.Lemmas.SwagMesh
import Verif.Lemmas.SwagPoly
import Verif.Lemmas.Taylor
import Verif.Lemmas.TreeCheck
import Verif.Lemmas.TreeCheckG
import Verif.Lemmas.TreeCheckZ
import Verif.Lemmas.Trees
import Verif.Lemmas.UniformOrder
import Verif.Model.Alias
import Verif.Model.CKdisc
import Verif.Model.Cheb
import Verif.Model.ChebDense
import Verif.Model.Construct
import Verif.Model.Dense
import Verif.Model.DenseVec
import Verif.Model.Driver
import Verif.Model.Esdirk
import Verif.Model.EsdirkConstruct
import Verif.Model.EsdirkDense
import Verif.Model.EsdirkInit
import Verif.Model.EsdirkTables
import Verif.Model.Example
import Verif.Model.FloatTime
import Verif.Model.FloatTimeOther
import Verif.Model.HStart
import Verif.Model.Methods
import Verif.Model.Num
import Verif.Model.NyStiffConst
import Verif.Model.Nystrom
import Verif.Model.NystromDense
import Verif.Model.NystromTables
import Verif.Model.OtherConstruct
import Verif.Model.RK
import Verif.Model.Sens
import Verif.Model.SensArgs
import Verif.Model.Stiff
import Verif.Model.StiffConst
import Verif.Model.StiffWarn
import Verif.Model.StiffWeights
import Verif.Model.Swag
import Verif.Model.SwagIndex
import Verif.Model.Tables
import Verif.Model.TablesDense
import Verif.Model.Validate
import Verif.Props.Alias
import Verif.Props.BS5Convergence
import Verif.Props.Boundary
import Verif.Props.CKdisc
import Verif.Props.CKdiscOrder
import Verif.Props.Cheb
import Verif.Props.ChebDense
import Verif.Props.ChebRho
import Verif.Props.ChebStages
import Verif.Props.ChebWitness
import Verif.Props.ChebWork
import Verif.Props.Completes
import Verif.Props.CompletesWitness
import Verif.Props.Conservation
import Verif.Props.Construct
import Verif.Props.Controller
import Verif.Props.Convergence
import Verif.Props.Copies
import Verif.Props.DecimalConvergence
import Verif.Props.DecimalOrder
import Verif.Props.DecimalPr9
import Verif.Props.Dense
import Verif.Props.DenseC1
import Verif.Props.DenseMethods
import Verif.Props.DenseVec
import Verif.Props.Domain
import Verif.Props.DomainCheb
import Verif.Props.Driver
import Verif.Props.DriverControl
import Verif.Props.DriverMore
import Verif.Props.DriverWitness
import Verif.Props.Ends
import Verif.Props.EndsWitness
import Verif.Props.Esdirk
import Verif.Props.EsdirkConstruct
import Verif.Props.EsdirkControl
import Verif.Props.EsdirkControlWitness
import Verif.Props.EsdirkConvergence
import Verif.Props.EsdirkDense
import Verif.Props.EsdirkDenseConvergence
import Verif.Props.EsdirkDenseWitness
import Verif.Props.EsdirkEstimate
import Verif.Props.EsdirkInit
import Verif.Props.EsdirkOrder
import Verif.Props.EsdirkOrderHist
import Verif.Props.EsdirkStab
import Verif.Props.EsdirkStabWitness
import Verif.Props.EsdirkStage
import Verif.Props.EsdirkWitness
import Verif.Props.EsdirkWork
import Verif.Props.FloatTime
import Verif.Props.FloatTimeOther
import Verif.Props.FloatTimeOtherWitness
import Verif.Props.FloatTimeWitness
import Verif.Props.HStartEstimate
import Verif.Props.HStartMore
import Verif.Props.KcDense
import Verif.Props.LocalError
import Verif.Props.MethodOptions
import Verif.Props.Mirror
import Verif.Props.NormHStart
import Verif.Props.Nystrom
import Verif.Props.NystromCompletes
import Verif.Props.NystromCompletesWitness
import Verif.Props.NystromConvergence
import Verif.Props.NystromDense
import Verif.Props.NystromInterp
import Verif.Props.NystromOptions
import Verif.Props.NystromOrder
import Verif.Props.NystromRobustness
import Verif.Props.NystromStability
import Verif.Props.Order
import Verif.Props.OtherConstruct
import Verif.Props.RKStep
import Verif.Props.Restart
import Verif.Props.Robustness
import Verif.Props.Sens
import Verif.Props.SensArgs
import Verif.Props.SensCalculus
import Verif.Props.SensConvergence
import Verif.Props.SensConvergenceWitness
import Verif.Props.SensWitness
import Verif.Props.StabilityRegion
import Verif.Props.Stiff
import Verif.Props.StiffWarn
import Verif.Props.StiffWeights
import Verif.Props.Swag
import Verif.Props.SwagControl
import Verif.Props.SwagControlWitness
import Verif.Props.SwagConvergence
import Verif.Props.SwagDense
import Verif.Props.SwagDenseConvergence
import Verif.Props.SwagError
import Verif.Props.SwagMesh
import Verif.Props.SwagMeshWitness
import Verif.Props.SwagStep
import Verif.Props.SwagWitness
import Verif.Props.SwagWork
import Verif.Props.Symmetry
import Verif.Props.ToleranceConvergence
import Verif.Props.ToleranceWitness
import Verif.Props.Units
import Verif.Props.UnitsCheb
import Verif.Props.UnitsEsdirk
import Verif.Props.UnitsSwag
import Verif.Props.UnitsTime
import Verif.Props.UnitsTimeCheb
import Verif.Props.UnitsTimeEsdirk
import Verif.Props.UnitsTimeSwag
import Verif.Props.Validate
import Verif.Props.Work
import Verif.Props.WorkArrays
import Verif.Spec.Float
import Verif.Spec.Loop
import Verif.Spec.NTrees
import Verif.Spec.Trees
