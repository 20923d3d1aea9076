import Verif.Core.Fx
import Verif.Core.Mem
import Verif.Core.Num
import Verif.Core.Runs
import Verif.Lemmas.Amd0
import Verif.Lemmas.Amd1
import Verif.Lemmas.Amd10
import Verif.Lemmas.Amd11
import Verif.Lemmas.Amd12
import Verif.Lemmas.Amd13
import Verif.Lemmas.Amd14
import Verif.Lemmas.Amd15
import Verif.Lemmas.Amd16
import Verif.Lemmas.Amd17
import Verif.Lemmas.Amd18
import Verif.Lemmas.Amd19
import Verif.Lemmas.Amd2
import Verif.Lemmas.Amd20
import Verif.Lemmas.Amd21
import Verif.Lemmas.Amd22
import Verif.Lemmas.Amd23
import Verif.Lemmas.Amd24
import Verif.Lemmas.Amd25
import Verif.Lemmas.Amd26
import Verif.Lemmas.Amd27
import Verif.Lemmas.Amd3
import Verif.Lemmas.Amd4
import Verif.Lemmas.Amd5
import Verif.Lemmas.Amd6
import Verif.Lemmas.Amd7
import Verif.Lemmas.Amd8
import Verif.Lemmas.Amd9
import Verif.Lemmas.Asm1
import Verif.Lemmas.Asm2
import Verif.Lemmas.Asm3
import Verif.Lemmas.Asm4
import Verif.Lemmas.BB1
import Verif.Lemmas.BB2
import Verif.Lemmas.BB3
import Verif.Lemmas.BB4
import Verif.Lemmas.BB5
import Verif.Lemmas.BB6
import Verif.Lemmas.BBAug
import Verif.Lemmas.BBCount
import Verif.Lemmas.BBGen
import Verif.Lemmas.BBReal
import Verif.Lemmas.BBSame
import Verif.Lemmas.BBStart
import Verif.Lemmas.BBX
import Verif.Lemmas.BBTree
import Verif.Lemmas.Cone1
import Verif.Lemmas.Cone2
import Verif.Lemmas.CountSort
import Verif.Lemmas.Den
import Verif.Lemmas.Dir1
import Verif.Lemmas.Dir2
import Verif.Lemmas.Dir3
import Verif.Lemmas.Dir4
import Verif.Lemmas.Dir5
import Verif.Lemmas.Dir6
import Verif.Lemmas.Dir7
import Verif.Lemmas.Dir8
import Verif.Lemmas.Driver1
import Verif.Lemmas.Driver2
import Verif.Lemmas.Driver3
import Verif.Lemmas.Driver4
import Verif.Lemmas.EqSame
import Verif.Lemmas.EqXR
import Verif.Lemmas.Equil1
import Verif.Lemmas.Equil2
import Verif.Lemmas.EquilAlt
import Verif.Lemmas.EquilRuiz
import Verif.Lemmas.Exp1
import Verif.Lemmas.Exp2
import Verif.Lemmas.Exp3
import Verif.Lemmas.Glue
import Verif.Lemmas.Inner
import Verif.Lemmas.Kkt1
import Verif.Lemmas.Kkt2
import Verif.Lemmas.Kkt3
import Verif.Lemmas.Kkt4
import Verif.Lemmas.KktPat
import Verif.Lemmas.Ldl1
import Verif.Lemmas.Ldl2
import Verif.Lemmas.Ldl3
import Verif.Lemmas.Ldl4
import Verif.Lemmas.Ldl5
import Verif.Lemmas.Ledger
import Verif.Lemmas.Line
import Verif.Lemmas.Mono0
import Verif.Lemmas.Mono1
import Verif.Lemmas.Mono2
import Verif.Lemmas.Mono3
import Verif.Lemmas.Mono4
import Verif.Lemmas.Mono5
import Verif.Lemmas.Mono6
import Verif.Lemmas.Mono7
import Verif.Lemmas.MonoAttr
import Verif.Lemmas.Newton
import Verif.Lemmas.Permute
import Verif.Lemmas.Resid
import Verif.Lemmas.Round
import Verif.Lemmas.Scal1
import Verif.Lemmas.Scal2
import Verif.Lemmas.Scal3
import Verif.Lemmas.Setup1
import Verif.Lemmas.Spla
import Verif.Lemmas.Splamm
import Verif.Lemmas.Tri
import Verif.Lemmas.Upd1
import Verif.Lemmas.Upd2
import Verif.Lemmas.Upd3
import Verif.Lemmas.Vec
import Verif.Lemmas.XR
import Verif.Model.Timer
import Verif.Model.Amd
import Verif.Model.BB
import Verif.Model.BBReal
import Verif.Model.BBSetup
import Verif.Model.Base
import Verif.Model.Cone
import Verif.Model.Ecos
import Verif.Model.Equil
import Verif.Model.EquilAlt
import Verif.Model.ExpCone
import Verif.Model.Kkt
import Verif.Model.Ldl
import Verif.Model.Ledger
import Verif.Model.Preproc
import Verif.Model.SetupAmd
import Verif.Model.Spla
import Verif.Model.Splamm
import Verif.Props.Amd
import Verif.Props.AmdSetup
import Verif.Props.Assemble
import Verif.Props.BB
import Verif.Props.BBAnswer
import Verif.Props.BBExample
import Verif.Props.BBRoot
import Verif.Props.BBDecl
import Verif.Props.BBRun
import Verif.Props.BBSignal
import Verif.Props.BBCalls
import Verif.Props.BBTrace
import Verif.Props.BBData
import Verif.Props.Timer
import Verif.Props.Flags
import Verif.Props.BBStats
import Verif.Props.BBSafe
import Verif.Props.BBSetup
import Verif.Props.BBPlain
import Verif.Props.BBProgress
import Verif.Props.BBRepeat
import Verif.Props.Cones
import Verif.Props.Direction
import Verif.Props.Driver
import Verif.Props.DriverExample
import Verif.Props.EndToEnd
import Verif.Props.Equil
import Verif.Props.EquilAlt
import Verif.Props.EquilRuiz
import Verif.Props.Exp
import Verif.Props.ExpDeriv
import Verif.Props.Fact
import Verif.Props.Inner
import Verif.Props.Ledger
import Verif.Props.Line
import Verif.Props.Nan
import Verif.Props.Refine
import Verif.Props.Repeat
import Verif.Props.Safe
import Verif.Props.Scaling
import Verif.Props.Setup
import Verif.Props.Sparse
import Verif.Props.Stats
import Verif.Props.Steps
import Verif.Props.Update
import Verif.Props.Omega
import Verif.Spec.Amd
import Verif.Spec.BB
import Verif.Spec.Cone
import Verif.Spec.Exp
import Verif.Spec.Kkt
import Verif.Spec.MI
import Verif.Spec.Matrix
import Verif.Spec.Newton
import Verif.Spec.Scale
import Verif.Spec.Solve
