import Verif.Audit
import Verif.Examples.Brc
import Verif.Examples.CondVE
import Verif.Examples.CondVEOK
import Verif.Examples.Cpm
import Verif.Model.Basic
import Verif.Model.Bnb
import Verif.Model.BnbOld
import Verif.Model.BnbOrg
import Verif.Model.Brc
import Verif.Model.BrcObs
import Verif.Model.BrcRound
import Verif.Model.ByOd
import Verif.Model.CondVE
import Verif.Model.CondVERound
import Verif.Model.Config
import Verif.Model.Conn
import Verif.Model.ConnMain
import Verif.Model.Cpm
import Verif.Model.CpmEdit
import Verif.Model.CpmNames
import Verif.Model.CpmRound
import Verif.Model.CreateModel
import Verif.Model.Csys
import Verif.Model.ElimCondRound
import Verif.Model.EmaMain
import Verif.Model.Estimate
import Verif.Model.Files
import Verif.Model.Flow
import Verif.Model.FlowMain
import Verif.Model.GraphDemos
import Verif.Model.LogProd
import Verif.Model.MaxFlowDemo
import Verif.Model.Mcs
import Verif.Model.McsIndep
import Verif.Model.ModelPy
import Verif.Model.MsysSamples
import Verif.Model.Objects
import Verif.Model.Observe
import Verif.Model.Operation
import Verif.Model.Paths
import Verif.Model.PfMain
import Verif.Model.PfMap
import Verif.Model.PfNode
import Verif.Model.PfPost
import Verif.Model.Pipes
import Verif.Model.PowerHouse
import Verif.Model.PowerPlot
import Verif.Model.Rbd
import Verif.Model.Reject
import Verif.Model.Trans
import Verif.Model.Variable
import Verif.Proofs.Bnb
import Verif.Proofs.BnbCmat
import Verif.Proofs.BnbDir
import Verif.Proofs.BnbFiles
import Verif.Proofs.BnbFns
import Verif.Proofs.BnbLoop
import Verif.Proofs.BnbOld
import Verif.Proofs.BnbOrg
import Verif.Proofs.BrcBox
import Verif.Proofs.BrcDecomp
import Verif.Proofs.BrcDominance
import Verif.Proofs.BrcObs
import Verif.Proofs.BrcOrder
import Verif.Proofs.BrcRound
import Verif.Proofs.BrcRoundNum
import Verif.Proofs.BrcRoundRun
import Verif.Proofs.BrcRules
import Verif.Proofs.BrcRun
import Verif.Proofs.BrcRunInv
import Verif.Proofs.BrcSensitivity
import Verif.Proofs.ByOd
import Verif.Proofs.Columns
import Verif.Proofs.CondBndRound
import Verif.Proofs.CondVE
import Verif.Proofs.CondVERound
import Verif.Proofs.CondVETotal
import Verif.Proofs.Config
import Verif.Proofs.Conn
import Verif.Proofs.ConnMain
import Verif.Proofs.CpmBasic
import Verif.Proofs.CpmCond
import Verif.Proofs.CpmEdit
import Verif.Proofs.CpmMarg
import Verif.Proofs.CpmNames
import Verif.Proofs.CpmProb
import Verif.Proofs.CpmProd
import Verif.Proofs.CpmProdList
import Verif.Proofs.CpmRound
import Verif.Proofs.CpmRoundCount
import Verif.Proofs.CpmRoundElim
import Verif.Proofs.CpmRoundUnder
import Verif.Proofs.CpmSort
import Verif.Proofs.CpmSum
import Verif.Proofs.CreateModel
import Verif.Proofs.Csys
import Verif.Proofs.Elim
import Verif.Proofs.ElimCond
import Verif.Proofs.ElimCondRound
import Verif.Proofs.ElimInv
import Verif.Proofs.ElimTotal
import Verif.Proofs.EmaMain
import Verif.Proofs.Estimate
import Verif.Proofs.Files
import Verif.Proofs.Float53
import Verif.Proofs.Float64
import Verif.Proofs.Flow
import Verif.Proofs.FlowDir
import Verif.Proofs.FlowLib
import Verif.Proofs.FlowMain
import Verif.Proofs.FlowParallel
import Verif.Proofs.Gauss
import Verif.Proofs.GraphDemos
import Verif.Proofs.MaxFlowDemo
import Verif.Proofs.Mcs
import Verif.Proofs.McsIndep
import Verif.Proofs.McsProb
import Verif.Proofs.ModelPy
import Verif.Proofs.Monad
import Verif.Proofs.Msys
import Verif.Proofs.MsysGen
import Verif.Proofs.MsysSamples
import Verif.Proofs.Observe
import Verif.Proofs.ObserveRound
import Verif.Proofs.ObserveSys
import Verif.Proofs.ObserveWide
import Verif.Proofs.Order
import Verif.Proofs.PathLib
import Verif.Proofs.Paths
import Verif.Proofs.PfMain
import Verif.Proofs.PfMap
import Verif.Proofs.PfNode
import Verif.Proofs.PfPost
import Verif.Proofs.Pipes
import Verif.Proofs.PowerHouse
import Verif.Proofs.PowerHouseNet
import Verif.Proofs.PowerHouseSum
import Verif.Proofs.PowerPlot
import Verif.Proofs.Ratio
import Verif.Proofs.Rbd
import Verif.Proofs.ReadModel
import Verif.Proofs.RoadModel
import Verif.Proofs.Routes
import Verif.Proofs.SampleOrder
import Verif.Proofs.Samples
import Verif.Proofs.SamplesProd
import Verif.Proofs.Sampling
import Verif.Proofs.SumOver
import Verif.Proofs.SysKeep
import Verif.Proofs.SysNet
import Verif.Proofs.SysNetRound
import Verif.Proofs.SysNetRun
import Verif.Proofs.SysProd
import Verif.Proofs.SysVal
import Verif.Proofs.Trans
import Verif.Proofs.Variable
import Verif.Props.Bnb
import Verif.Props.BnbFiles
import Verif.Props.BnbOld
import Verif.Props.BnbOrg
import Verif.Props.BrcDecomp
import Verif.Props.BrcDominance
import Verif.Props.BrcLocal
import Verif.Props.BrcLocalComplete
import Verif.Props.BrcLocalRound
import Verif.Props.BrcLocalSharp
import Verif.Props.BrcObs
import Verif.Props.BrcOrder
import Verif.Props.BrcResume
import Verif.Props.BrcReuse
import Verif.Props.BrcReuseRound
import Verif.Props.BrcRound
import Verif.Props.BrcRules
import Verif.Props.BrcRun
import Verif.Props.BrcSensitivity
import Verif.Props.BrcStop
import Verif.Props.BrcThreshold
import Verif.Props.BrcThresholdFlow
import Verif.Props.BrcThresholdRound
import Verif.Props.ByOd
import Verif.Props.CondBndRound
import Verif.Props.CondVE
import Verif.Props.CondVERound
import Verif.Props.CondVETotal
import Verif.Props.Config
import Verif.Props.Conn
import Verif.Props.ConnMain
import Verif.Props.CpmEdit
import Verif.Props.CpmMisc
import Verif.Props.CpmNames
import Verif.Props.CpmOps
import Verif.Props.CpmProduct
import Verif.Props.CpmQuery
import Verif.Props.CpmRound
import Verif.Props.CpmRoundUnder
import Verif.Props.CpmSort
import Verif.Props.CreateModel
import Verif.Props.Csys
import Verif.Props.Elim
import Verif.Props.ElimCond
import Verif.Props.ElimCondRound
import Verif.Props.ElimCondUnder
import Verif.Props.ElimTotal
import Verif.Props.EmaMain
import Verif.Props.Estimate
import Verif.Props.Files
import Verif.Props.Flow
import Verif.Props.FlowMain
import Verif.Props.FlowParallel
import Verif.Props.GraphDemos
import Verif.Props.Lookup
import Verif.Props.MaxFlowDemo
import Verif.Props.Mcs
import Verif.Props.McsCpms
import Verif.Props.McsIndep
import Verif.Props.McsProb
import Verif.Props.ModelPy
import Verif.Props.Msys
import Verif.Props.MsysSamples
import Verif.Props.Objects
import Verif.Props.Observe
import Verif.Props.ObserveRound
import Verif.Props.ObserveWide
import Verif.Props.Order
import Verif.Props.Paths
import Verif.Props.PfMain
import Verif.Props.PfMap
import Verif.Props.PfNode
import Verif.Props.PfPost
import Verif.Props.Pipes
import Verif.Props.PowerHouse
import Verif.Props.PowerPlot
import Verif.Props.Rbd
import Verif.Props.Reject
import Verif.Props.Samples
import Verif.Props.Sampling
import Verif.Props.SysKeep
import Verif.Props.SysNet
import Verif.Props.SysNetRound
import Verif.Props.SysNetUnder
import Verif.Props.SysVal
import Verif.Props.Trans
import Verif.Props.Variable
import Verif.Spec.Bnb
import Verif.Spec.BnbOld
import Verif.Spec.Brc
import Verif.Spec.ByOd
import Verif.Spec.CondVE
import Verif.Spec.CondVERound
import Verif.Spec.Conn
import Verif.Spec.ConnFile
import Verif.Spec.Cpm
import Verif.Spec.CpmEdit
import Verif.Spec.CpmNames
import Verif.Spec.CpmRound
import Verif.Spec.CreateModel
import Verif.Spec.Csys
import Verif.Spec.Dist
import Verif.Spec.Elim
import Verif.Spec.Ema
import Verif.Spec.Estimate
import Verif.Spec.Files
import Verif.Spec.Flow
import Verif.Spec.FlowDir
import Verif.Spec.FlowFile
import Verif.Spec.FlowParallel
import Verif.Spec.GraphDemos
import Verif.Spec.Mcs
import Verif.Spec.McsIndep
import Verif.Spec.ModelPy
import Verif.Spec.Msys
import Verif.Spec.Net
import Verif.Spec.Observe
import Verif.Spec.Order
import Verif.Spec.Paths
import Verif.Spec.PfFile
import Verif.Spec.PfNode
import Verif.Spec.PfPost
import Verif.Spec.Pipes
import Verif.Spec.PowerHouse
import Verif.Spec.PowerPlot
import Verif.Spec.RoadDist
import Verif.Spec.RoadModel
import Verif.Spec.Round
import Verif.Spec.Samples
import Verif.Spec.Sensitivity
import Verif.Spec.SysNet
import Verif.Spec.SysNetRound
import Verif.Spec.SysVal
