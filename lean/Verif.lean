import Verif.Props.Current1st
import Verif.Props.Esirkepov
import Verif.Props.Push
import Verif.Props.Deposit
import Verif.Props.Interp
import Verif.Props.Fields
import Verif.Props.Domain
import Verif.Props.Ddc
import Verif.Props.Bndp
import Verif.Props.Sort
import Verif.Props.Collision
import Verif.Props.Balance
import Verif.Props.Checkpoint
import Verif.Props.VecRange
import Verif.Props.SetupParticles
import Verif.Props.Reflecting
import Verif.Props.OutputFields
import Verif.Props.OutputPrts
import Verif.Props.Rng
import Verif.Props.Bintree
import Verif.Props.Bitfield
import Verif.Props.Loop
import Verif.Props.InputParams
import Verif.Props.Heating
import Verif.Props.Energies
import Verif.Props.BoundaryInjector
import Verif.Props.FieldStep
import Verif.Props.BndFields
import Verif.Props.BndWall
import Verif.Lemmas.WallFold
import Verif.Props.TotalCurrent
import Verif.Props.Storage
import Verif.Props.Pic
import Verif.Spec.Serial
import Verif.Lemmas.Translate
import Verif.Lemmas.Serial
import Verif.Props.Decomp
import Verif.Spec.Energy
import Verif.Lemmas.Energy
import Verif.Props.Energy
import Verif.Model.Moments
import Verif.Spec.Moments
import Verif.Lemmas.Moments
import Verif.Props.Moments
import Verif.Props.WallPic
import Verif.Model.BalancedPic
import Verif.Spec.BalancedPic
import Verif.Lemmas.BalancedPic
import Verif.Props.BalancedPic
import Verif.Model.SetupFields
import Verif.Spec.SetupFields
import Verif.Lemmas.SetupFields
import Verif.Props.SetupFields
import Verif.Model.Writer
import Verif.Spec.Writer
import Verif.Lemmas.Writer
import Verif.Props.Writer
import Verif.Model.Adios2Prts
import Verif.Spec.Adios2Prts
import Verif.Lemmas.Adios2Prts
import Verif.Props.Adios2Prts
import Verif.Model.Table
import Verif.Spec.Table
import Verif.Lemmas.Table
import Verif.Props.Table
import Verif.Model.Restart
import Verif.Spec.Restart
import Verif.Lemmas.Restart
import Verif.Props.Restart
import Verif.Model.CudaGrid
import Verif.Model.CudaDeposit
import Verif.Spec.CudaGrid
import Verif.Lemmas.CudaGrid
import Verif.Lemmas.CudaDeposit
import Verif.Props.CudaGrid
import Verif.Props.CudaDeposit
import Verif.Model.CudaSched
import Verif.Spec.CudaSched
import Verif.Lemmas.CudaSched
import Verif.Lemmas.CudaSchedYz
import Verif.Lemmas.CudaSchedRun
import Verif.Props.CudaSched
import Verif.Model.CudaPrts
import Verif.Spec.CudaPrts
import Verif.Lemmas.CudaPrtsList
import Verif.Lemmas.CudaPrtsGeo
import Verif.Lemmas.CudaPrtsSort
import Verif.Lemmas.CudaPrtsOps
import Verif.Lemmas.CudaPrtsRel
import Verif.Lemmas.CudaPrtsPush
import Verif.Lemmas.CudaPrtsExch
import Verif.Props.CudaPrts
import Verif.Model.CudaCollision
import Verif.Spec.CudaCollision
import Verif.Lemmas.CudaCollision
import Verif.Lemmas.CudaCollisionFold
import Verif.Lemmas.CudaCollisionRel
import Verif.Props.CudaCollision
import Verif.Model.CudaFlds
import Verif.Spec.CudaFlds
import Verif.Lemmas.CudaFlds
import Verif.Lemmas.CudaFldsPush
import Verif.Lemmas.CudaFldsYz
import Verif.Lemmas.CudaFldsMarder
import Verif.Props.CudaFlds
import Verif.Model.CudaBnd
import Verif.Spec.CudaBnd
import Verif.Lemmas.CudaBnd
import Verif.Lemmas.CudaBndRun
import Verif.Props.CudaBnd
import Verif.Model.CudaPic
import Verif.Spec.CudaPic
import Verif.Lemmas.CudaPicBase
import Verif.Lemmas.CudaPicPush
import Verif.Lemmas.CudaPicExch
import Verif.Lemmas.CudaPicFlds
import Verif.Lemmas.CudaPicIdle
import Verif.Props.CudaPic
import Verif.Model.CudaMoments
import Verif.Spec.CudaMoments
import Verif.Lemmas.CudaMoments
import Verif.Lemmas.CudaMomentsItem
import Verif.Lemmas.CudaMomentsRun
import Verif.Props.CudaMoments
import Verif.Model.CudaHeating
import Verif.Spec.CudaHeating
import Verif.Lemmas.CudaHeating
import Verif.Lemmas.CudaHeatingRel
import Verif.Props.CudaHeating
import Verif.Spec.SerialWall
import Verif.Lemmas.SerialWallFields
import Verif.Lemmas.SerialWall
import Verif.Lemmas.SerialWallSame
import Verif.Props.SerialWall
import Verif.Model.Xdmf
import Verif.Spec.Xdmf
import Verif.Lemmas.XdmfFld
import Verif.Lemmas.XdmfName
import Verif.Lemmas.XdmfDset
import Verif.Lemmas.XdmfRank
import Verif.Lemmas.XdmfStep
import Verif.Lemmas.XdmfClose
import Verif.Lemmas.XdmfView
import Verif.Props.Xdmf
import Verif.Model.BalancedWall
import Verif.Spec.BalancedWall
import Verif.Lemmas.BalancedWall
import Verif.Props.BalancedWall
import Verif.Model.InjectPic
import Verif.Spec.InjectPic
import Verif.Lemmas.InjectPic
import Verif.Props.InjectPic
import Verif.Model.Advected
import Verif.Spec.Advected
import Verif.Lemmas.Advected
import Verif.Props.Advected
import Verif.Model.Turbulence
import Verif.Spec.Turbulence
import Verif.Lemmas.Turbulence
import Verif.Props.Turbulence
import Verif.Model.Offsets
import Verif.Spec.Offsets
import Verif.Lemmas.Offsets
import Verif.Props.Offsets
import Verif.Model.Verdict
import Verif.Spec.Verdict
import Verif.Lemmas.Verdict
import Verif.Props.Verdict
import Verif.Model.InitDensity
import Verif.Spec.InitDensity
import Verif.Lemmas.InitDensity
import Verif.Props.InitDensity
import Verif.Model.DeckRun
import Verif.Spec.DeckRun
import Verif.Lemmas.DeckRun
import Verif.Props.DeckRun
import Verif.Model.Harris
import Verif.Spec.Harris
import Verif.Lemmas.Harris
import Verif.Props.Harris
import Verif.Model.Bgk
import Verif.Spec.Bgk
import Verif.Lemmas.Bgk
import Verif.Props.Bgk
import Verif.Model.Options
import Verif.Spec.Options
import Verif.Lemmas.Options
import Verif.Props.Options
import Verif.Model.Bubble
import Verif.Spec.Bubble
import Verif.Lemmas.Bubble
import Verif.Props.Bubble
import Verif.Props.BndStorage
import Verif.Model.ExtCurrent
import Verif.Spec.ExtCurrent
import Verif.Lemmas.ExtCurrent
import Verif.Props.ExtCurrent
import Verif.Model.Foil
import Verif.Spec.Foil
import Verif.Lemmas.Foil
import Verif.Props.Foil
import Verif.Model.CellInject
import Verif.Spec.CellInject
import Verif.Lemmas.CellInject
import Verif.Model.Shock2d
import Verif.Spec.Shock2d
import Verif.Lemmas.Shock2d
import Verif.Props.Shock2d
import Verif.Model.Whistler
import Verif.Spec.Whistler
import Verif.Lemmas.Whistler
import Verif.Props.Whistler
import Verif.Lemmas.CellCounts
import Verif.Lemmas.EnergyMode
import Verif.Model.Ndarray
import Verif.Spec.Ndarray
import Verif.Lemmas.Radix
import Verif.Lemmas.Ndarray
import Verif.Props.Ndarray
import Verif.Spec.RunTotals
import Verif.Lemmas.RunTotals
import Verif.Lemmas.WallTotals
import Verif.Props.RunTotals
import Verif.Lemmas.InjectTotals
import Verif.Props.InjectTotals
import Verif.Model.DomainSimple
import Verif.Spec.DomainSimple
import Verif.Lemmas.DomainSimple
import Verif.Props.DomainSimple
import Verif.Model.DeferredIO
import Verif.Spec.DeferredIO
import Verif.Lemmas.DeferredIO
import Verif.Props.DeferredIO
import Verif.Model.Lists
import Verif.Spec.Lists
import Verif.Lemmas.Lists
import Verif.Props.Lists
import Verif.Model.Profile
import Verif.Spec.Profile
import Verif.Lemmas.Profile
import Verif.Props.Profile
import Verif.Model.DdcSimple
import Verif.Spec.DdcSimple
import Verif.Lemmas.DdcSimple
import Verif.Props.DdcSimple
import Verif.Model.Decomposition
import Verif.Spec.Decomposition
import Verif.Lemmas.Decomposition
import Verif.Props.Decomposition
import Verif.Model.CudaChecks
import Verif.Spec.CudaChecks
import Verif.Lemmas.CudaChecks
import Verif.Props.CudaChecks
import Verif.Model.FieldStorage
import Verif.Spec.FieldStorage
import Verif.Lemmas.FieldStorage
import Verif.Props.FieldStorage
import Verif.Model.Lend
import Verif.Spec.Lend
import Verif.Lemmas.Lend
import Verif.Props.Lend
import Verif.Model.LendFields
import Verif.Spec.LendFields
import Verif.Lemmas.LendFields
import Verif.Props.LendFields
