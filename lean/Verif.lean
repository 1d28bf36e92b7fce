import Verif.Props.Arith
import Verif.Props.Assignment
import Verif.Props.Circuit
import Verif.Props.GateId
import Verif.Props.Logic
import Verif.Props.Flexible
import Verif.Props.Power
import Verif.Props.RangeCheck
import Verif.Props.BitBuilder
import Verif.Props.Comparison
import Verif.Props.ComparisonChecked
import Verif.Props.ComparisonFlag
import Verif.Props.Exponentiation
import Verif.Props.Sqrt
import Verif.Props.BitShift
import Verif.Props.ZkevmSelector
import Verif.Props.ZkevmWord
import Verif.Props.ZkevmAdd
import Verif.Props.ZkevmMul
import Verif.Props.ZkevmDiv
import Verif.Props.ZkevmState
import Verif.Props.GateMover
import Verif.Props.HuangLu
import Verif.Props.Stretcher
import Verif.Props.Connectedness
import Verif.Props.NonNative
import Verif.Props.Batch
import Verif.Props.UnifiedAddition
import Verif.Props.ConstBatch
import Verif.Props.Manifest
import Verif.Props.Ed25519Free
import Verif.Model.Program
import Verif.Props.Program
import Verif.Model.Poseidon
import Verif.Props.Poseidon
import Verif.Model.PermVerifier
import Verif.Props.PermVerifier
import Verif.Core.Trace
import Verif.Model.F3Loop
import Verif.Props.F3Loop
import Verif.Model.F1Loop
import Verif.Props.F1Loop
import Verif.Model.GateComponent
import Verif.Props.GateComponent
import Verif.Core.Seq
import Verif.Model.GateVerifier
import Verif.Props.Blocks
import Verif.Props.GateVerifier
import Verif.Model.LookupVerifier
import Verif.Props.LookupVerifier
import Verif.Props.LookupComplete
import Verif.Model.ExprEval
import Verif.Props.ExprEval
import Verif.Model.FinalPoly
import Verif.Props.FinalPoly
import Verif.Model.FriCosets
import Verif.Props.FriCosets
import Verif.Props.FriCosetsComplete
import Verif.Core.Paint
import Verif.Model.EndoScalar
import Verif.Props.EndoScalar
import Verif.Model.BoolScalarMul
import Verif.Props.BoolScalarMul
import Verif.Core.Prime25519
import Verif.Core.Edwards
import Verif.Model.EdCurve
import Verif.Props.EdProgram
import Verif.Props.EdCurve
import Verif.Props.EdDouble
import Verif.Model.XIndex
import Verif.Props.XIndex
import Verif.Model.Colinear
import Verif.Props.Colinear
import Verif.Model.Verifier
import Verif.Props.Verifier
import Verif.Props.PastaOrder
import Verif.Model.VarBaseMul
import Verif.Props.VarBaseStep
import Verif.Props.VarBaseFacts
import Verif.Props.VarBaseMul
import Verif.Props.VarBaseSound
import Verif.Props.VarBaseBuild
import Verif.Props.VarBaseComplete
import Verif.Props.VarBaseThms
import Verif.Props.VarBaseForge
import Verif.Props.VarBaseNeutral
import Verif.Model.Decomposition
import Verif.Props.Decomposition
import Verif.Core.Digits
import Verif.Core.Sha256Spec
import Verif.Model.Sha256
import Verif.Props.Sha256Calc
import Verif.Props.Sha256Gates
import Verif.Props.Sha256Complete
import Verif.Props.Sha256Sound
import Verif.Model.Reduction
import Verif.Props.Reduction
import Verif.Model.ScalarRange
import Verif.Props.ScalarRange
import Verif.Core.R1cs
import Verif.Model.R1csBasic
import Verif.Props.R1csBasic
import Verif.Props.R1csMux
import Verif.Model.R1csPack
import Verif.Props.R1csPack
import Verif.Core.Sha256Hash
import Verif.Core.BlsScalar
import Verif.Model.R1csSha256
import Verif.Props.R1csRun
import Verif.Props.R1csSha256
import Verif.Props.R1csSha256Hash
import Verif.Core.Hmac
import Verif.Model.R1csHmac
import Verif.Props.R1csHmac
import Verif.Model.R1csMerkle
import Verif.Props.R1csMerkle
import Verif.Core.Montgomery
import Verif.Core.Jubjub
import Verif.Model.R1csCurve
import Verif.Props.R1csCurve
import Verif.Core.Pedersen
import Verif.Model.R1csPedersen
import Verif.Props.R1csPedersen
import Verif.Props.R1csPedersenBits
import Verif.Model.R1csVoting
import Verif.Props.R1csVoting
import Verif.Model.ZkevmBytecode
import Verif.Props.ZkevmBytecode
import Verif.Props.ZkevmBytecodeRun
import Verif.Props.LookupLogic
import Verif.Model.Proxy
import Verif.Props.Proxy
import Verif.Model.Sha256Full
import Verif.Props.Sha256Full
import Verif.Core.EdGroup
import Verif.Model.EdMul
import Verif.Props.EdMul
import Verif.Model.Mocked
import Verif.Props.Mocked
import Verif.Model.R1csExt
import Verif.Props.R1csExt
import Verif.Model.R1csExp
import Verif.Props.R1csExp
import Verif.Core.Sha512Spec
import Verif.Model.Sha512
import Verif.Props.Sha512Calc
import Verif.Props.Sha512Gates
import Verif.Props.Sha512Forge
import Verif.Props.Sha512Complete
import Verif.Core.Sha512Hash
import Verif.Model.Sha512Full
import Verif.Props.Sha512Pack
import Verif.Props.Sha512Full
import Verif.Model.CombinedInnerProduct
import Verif.Props.CombinedInnerProduct
import Verif.Model.R1csKnapsack
import Verif.Props.R1csKnapsack
import Verif.Model.R1csUpdate
import Verif.Props.R1csUpdate
import Verif.Model.KimchiProg
import Verif.Model.Kimchi
import Verif.Props.KimchiProg
import Verif.Props.Kimchi
import Verif.Props.KimchiMain
import Verif.Props.KimchiRows
import Verif.Model.KimchiFt
import Verif.Props.KimchiFt
import Verif.Props.KimchiFtMain
import Verif.Model.OraclesCip
import Verif.Props.OraclesCip
import Verif.Model.Limbs
import Verif.Props.Limbs
import Verif.Model.KimchiCompare
import Verif.Props.KimchiCompare
import Verif.Model.KimchiSponge
import Verif.Props.KimchiSponge
import Verif.Model.KimchiGroup
import Verif.Props.KimchiGroup
import Verif.Model.KimchiPrep
import Verif.Props.KimchiPrep
import Verif.Model.R1csRouting
import Verif.Props.R1csRouting
import Verif.Props.R1csRoutingComplete
import Verif.Core.Weierstrass
import Verif.Model.R1csWeier
import Verif.Props.R1csWeier
import Verif.Model.R1csFinalExp
import Verif.Props.R1csFinalExp
import Verif.Model.R1csMiller
import Verif.Props.R1csMiller
import Verif.Model.R1csPairing
import Verif.Props.R1csPairing
import Verif.Model.SetCommitment
import Verif.Props.SetCommitment
import Verif.Model.EdFixed
import Verif.Props.EdFixed
import Verif.Model.EndoMul
import Verif.Props.EndoMul
import Verif.Model.EdPoint
import Verif.Props.EdPoint
import Verif.Model.ShaTables
import Verif.Props.ShaTables
import Verif.Model.ZkevmOpcodes
import Verif.Props.ZkevmOpcodes
import Verif.Model.ZkevmStack
import Verif.Props.ZkevmStack
