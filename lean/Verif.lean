import Verif.Model.AcnAccept
import Verif.Model.AcnDigits
import Verif.Model.AcnExpr
import Verif.Model.AcnGen
import Verif.Model.AcnInt
import Verif.Model.AcnPatch
import Verif.Model.AcnScope
import Verif.Model.AcnSizes
import Verif.Model.AcnStrings
import Verif.Model.Ber
import Verif.Model.BerReal
import Verif.Model.BitStream
import Verif.Model.CVal
import Verif.Model.CheckType
import Verif.Model.ChoiceAll
import Verif.Model.ChoiceNames
import Verif.Model.Compile
import Verif.Model.Const
import Verif.Model.Constraint
import Verif.Model.Core
import Verif.Model.Equal
import Verif.Model.FieldNames
import Verif.Model.Flatten
import Verif.Model.Float
import Verif.Model.Float32
import Verif.Model.Gen
import Verif.Model.Imports
import Verif.Model.Init
import Verif.Model.Integer
import Verif.Model.Literal
import Verif.Model.Names
import Verif.Model.Notation
import Verif.Model.Object
import Verif.Model.ObjectId
import Verif.Model.Oid
import Verif.Model.Param
import Verif.Model.Pattern
import Verif.Model.RangeEnds
import Verif.Model.Real
import Verif.Model.RealFp4
import Verif.Model.Search
import Verif.Model.Sizes
import Verif.Model.StreamRead
import Verif.Model.Streaming
import Verif.Model.Strings
import Verif.Model.TestCases
import Verif.Model.Topo
import Verif.Model.Types
import Verif.Model.Valid
import Verif.Model.Written
import Verif.Model.Xer
import Verif.Model.XerFile
import Verif.Model.XerGen
import Verif.Proof.AcnAccept
import Verif.Proof.AcnAcceptEnum
import Verif.Proof.AcnAscii
import Verif.Proof.AcnDigits
import Verif.Proof.AcnExprEval
import Verif.Proof.AcnExprParse
import Verif.Proof.AcnGenDec
import Verif.Proof.AcnGenEnc
import Verif.Proof.AcnGenLeaf
import Verif.Proof.AcnGenRelay
import Verif.Proof.AcnGenRelay2
import Verif.Proof.AcnGenSafe
import Verif.Proof.AcnGenSafe2
import Verif.Proof.AcnGenStr
import Verif.Proof.AcnGenTop
import Verif.Proof.AcnGenTy
import Verif.Proof.AcnGenUpd
import Verif.Proof.AcnGenValid
import Verif.Proof.AcnInt
import Verif.Proof.AcnInt2
import Verif.Proof.AcnInt3
import Verif.Proof.AcnPatch
import Verif.Proof.AcnPatch2
import Verif.Proof.AcnPatch3
import Verif.Proof.AcnScope
import Verif.Proof.AcnScopeMore
import Verif.Proof.AcnScopeRun
import Verif.Proof.AcnSizes
import Verif.Proof.AcnStrings
import Verif.Proof.Append
import Verif.Proof.Append2
import Verif.Proof.AppendArr
import Verif.Proof.Ber
import Verif.Proof.Ber2
import Verif.Proof.Ber3
import Verif.Proof.Ber4
import Verif.Proof.BerReal
import Verif.Proof.BitStrings
import Verif.Proof.Bits
import Verif.Proof.Calls
import Verif.Proof.CheckType
import Verif.Proof.CheckTypeProper
import Verif.Proof.CheckTypeTy
import Verif.Proof.ChoiceNames
import Verif.Proof.Compile
import Verif.Proof.CompileNums
import Verif.Proof.CompileObject
import Verif.Proof.Const
import Verif.Proof.Constraint
import Verif.Proof.DecRules
import Verif.Proof.Equal
import Verif.Proof.EqualSame
import Verif.Proof.FieldNames
import Verif.Proof.Flatten
import Verif.Proof.Flatten2
import Verif.Proof.Flatten3
import Verif.Proof.Float
import Verif.Proof.Float32
import Verif.Proof.Float32Nearest
import Verif.Proof.FloatNearest
import Verif.Proof.GenCode
import Verif.Proof.GenDec
import Verif.Proof.GenFrag
import Verif.Proof.GenInt
import Verif.Proof.GenReal
import Verif.Proof.GenSafe
import Verif.Proof.GenStr
import Verif.Proof.GenTy
import Verif.Proof.GenValid
import Verif.Proof.Imports
import Verif.Proof.ImportsAccept
import Verif.Proof.ImportsFacts
import Verif.Proof.ImportsLegal
import Verif.Proof.ImportsMeaning
import Verif.Proof.ImportsUnfold
import Verif.Proof.Init
import Verif.Proof.InitLeaf
import Verif.Proof.Int1
import Verif.Proof.Int2
import Verif.Proof.Int3
import Verif.Proof.Int4
import Verif.Proof.Literal
import Verif.Proof.Names
import Verif.Proof.Names2
import Verif.Proof.Names3
import Verif.Proof.Names4
import Verif.Proof.Notation
import Verif.Proof.NotationCheck
import Verif.Proof.NotationCon
import Verif.Proof.Object
import Verif.Proof.ObjectDec
import Verif.Proof.ObjectEnc
import Verif.Proof.ObjectId
import Verif.Proof.ObjectValid
import Verif.Proof.Oid
import Verif.Proof.Outcome
import Verif.Proof.Param
import Verif.Proof.ParamCode
import Verif.Proof.ParamProg
import Verif.Proof.ParamSub
import Verif.Proof.Pattern
import Verif.Proof.Read
import Verif.Proof.Real
import Verif.Proof.Real2
import Verif.Proof.Real3
import Verif.Proof.Real4
import Verif.Proof.RealFp4
import Verif.Proof.RealFp4Nearest
import Verif.Proof.RealFp4Read
import Verif.Proof.RoundTrip
import Verif.Proof.Run
import Verif.Proof.Search
import Verif.Proof.Sizes
import Verif.Proof.StreamRead
import Verif.Proof.StreamRead2
import Verif.Proof.Streaming
import Verif.Proof.Streaming2
import Verif.Proof.Streaming3
import Verif.Proof.Strings
import Verif.Proof.TestCases
import Verif.Proof.TestCasesAll
import Verif.Proof.TestCasesCover
import Verif.Proof.Topo
import Verif.Proof.TopoFile
import Verif.Proof.Valid
import Verif.Proof.ValidAny
import Verif.Proof.ValidDen
import Verif.Proof.ValidType
import Verif.Proof.ValidVC
import Verif.Proof.WShort
import Verif.Proof.Written
import Verif.Proof.Xer
import Verif.Proof.XerAccept
import Verif.Proof.XerFile
import Verif.Proof.XerFile2
import Verif.Proof.XerGen
import Verif.Proof.XerGenRead
import Verif.Proof.XerGenRead2
import Verif.Proof.XerGenSafe
import Verif.Proof.XerLayout
import Verif.Proof.XerRead
import Verif.Proof.XerRead2
import Verif.Proof.XerSafe
import Verif.Proof.XerVal
import Verif.Props.AcnAccept
import Verif.Props.AcnDigits
import Verif.Props.AcnExpr
import Verif.Props.AcnGen
import Verif.Props.AcnGenRelay
import Verif.Props.AcnGenSafe
import Verif.Props.AcnInt
import Verif.Props.AcnPatch
import Verif.Props.AcnScope
import Verif.Props.AcnSizes
import Verif.Props.AcnStrings
import Verif.Props.Ber
import Verif.Props.BerLook
import Verif.Props.BerReal
import Verif.Props.CheckType
import Verif.Props.ChoiceAll
import Verif.Props.ChoiceNames
import Verif.Props.Compile
import Verif.Props.Const
import Verif.Props.Constraint
import Verif.Props.Equal
import Verif.Props.FieldNames
import Verif.Props.Flatten
import Verif.Props.Float32
import Verif.Props.Gen
import Verif.Props.Imports
import Verif.Props.Init
import Verif.Props.Integers
import Verif.Props.Literal
import Verif.Props.Names
import Verif.Props.Notation
import Verif.Props.Object
import Verif.Props.ObjectId
import Verif.Props.Oid
import Verif.Props.Param
import Verif.Props.Pattern
import Verif.Props.Range
import Verif.Props.RangeEnds
import Verif.Props.Real
import Verif.Props.RealFp4
import Verif.Props.Search
import Verif.Props.Sizes
import Verif.Props.Stream
import Verif.Props.StreamRead
import Verif.Props.Streaming
import Verif.Props.Strings
import Verif.Props.TestCases
import Verif.Props.Topo
import Verif.Props.Valid
import Verif.Props.Written
import Verif.Props.Xer
import Verif.Props.XerFile
import Verif.Props.XerGen
import Verif.Spec.Acn
import Verif.Spec.AcnAccept
import Verif.Spec.AcnExpr
import Verif.Spec.AcnGen
import Verif.Spec.AcnGenRelay
import Verif.Spec.AcnGenSafe
import Verif.Spec.AcnPatch
import Verif.Spec.AcnScope
import Verif.Spec.AcnSizes
import Verif.Spec.Ber
import Verif.Spec.BerReal
import Verif.Spec.Bits
import Verif.Spec.CStrings
import Verif.Spec.CVal
import Verif.Spec.Calls
import Verif.Spec.CheckType
import Verif.Spec.Compile
import Verif.Spec.Const
import Verif.Spec.Constraint
import Verif.Spec.Digits
import Verif.Spec.FieldNames
import Verif.Spec.Flatten
import Verif.Spec.Float32
import Verif.Spec.Imports
import Verif.Spec.Init
import Verif.Spec.Ints
import Verif.Spec.Literal
import Verif.Spec.Messages
import Verif.Spec.Names
import Verif.Spec.Notation
import Verif.Spec.Object
import Verif.Spec.ObjectId
import Verif.Spec.Oid
import Verif.Spec.Param
import Verif.Spec.RangeEnds
import Verif.Spec.Real
import Verif.Spec.RoundTrip
import Verif.Spec.Sizes
import Verif.Spec.Stream
import Verif.Spec.StreamRead
import Verif.Spec.Streaming
import Verif.Spec.Strings
import Verif.Spec.TestCases
import Verif.Spec.Topo
import Verif.Spec.Uper
import Verif.Spec.UperSafe
import Verif.Spec.Valid
import Verif.Spec.Written
import Verif.Spec.Xer
import Verif.Spec.XerFile
import Verif.Spec.XerGen
