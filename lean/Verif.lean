import Verif.Props.Policy
import Verif.Props.Platform
import Verif.Props.ForEach
import Verif.Props.Transform
import Verif.Props.TransformReduce
import Verif.Props.Reduce
import Verif.Props.BitUtils
import Verif.Props.Mask
import Verif.Props.Split
import Verif.Props.HReduce
import Verif.Props.Where
import Verif.Props.CountIf
import Verif.Props.Permute
import Verif.Props.Resize
import Verif.Props.Bitset
import Verif.Props.Version
import Verif.Props.BitCast
import Verif.Props.Iota
import Verif.Props.SimdOps
import Verif.Props.SimdOpsUndefined
import Verif.Props.Literal
import Verif.Props.StructSize
import Verif.Props.ValuePreserving
import Verif.Props.FlatGet
import Verif.Props.Simdize
import Verif.Props.ForEachStruct
import Verif.Props.Throwing
import Verif.Props.StrictPtr
import Verif.Props.Overloads
import Verif.Props.SimdizeType
import Verif.Props.SimdMath
import Verif.Props.ReduceEffects
import Verif.Props.StructReflect
import Verif.Props.SimdTuple
import Verif.Props.ConstexprWrapper
import Verif.Props.CountIfEffects
import Verif.Props.ReduceRanges
import Verif.Props.IntReduce
import Verif.Props.ArrayAlgorithms
import Verif.Props.ReduceArrays
import Verif.Props.SimdExpr
import Verif.Props.PartialOps
import Verif.Props.Traits
import Verif.Props.Casts
import Verif.Model.AlgoTypes
import Verif.Props.AlgoTypes
import Verif.Props.Precondition
import Verif.Props.ReduceCalls
import Verif.Props.CallCount
import Verif.Props.Relations
import Verif.Props.StructMembers
import Verif.Props.SimdizeSize
import Verif.Props.WhereRhs
import Verif.Props.SimdizeTemplate
import Verif.Props.Concurrent
import Verif.Props.ShortRanges
import Verif.Props.Resolve
import Verif.Props.SimdizeWrap
import Verif.Props.Language
import Verif.Props.Generator
import Verif.Props.ConcurrentCount
import Verif.Props.ConcurrentReduce
import Verif.Props.FloatSum
import Verif.Props.Benchmarking
import Verif.Props.PermuteAlgebra
import Verif.Props.StructTypes
import Verif.Props.AssumeMatching
import Verif.Props.AlignmentModifiers
import Verif.Props.Overlap
import Verif.Props.SimdProg
import Verif.Props.ProgOps
import Verif.Props.CountIfPartial
import Verif.Props.ProgReduce
import Verif.Props.ResolveUnique
import Verif.Props.LaneProg
import Verif.Props.MaskedOps
import Verif.Props.MaskedReduce
import Verif.Props.CountIfConst
import Verif.Props.IntHReduce
import Verif.Props.IntReduceOps
import Verif.Props.CountIfStruct
import Verif.Props.ForEachStructConst
import Verif.Props.ThrowingStruct
import Verif.Props.ThrowingArrays
import Verif.Props.CountIfStructEffects
import Verif.Props.CallCountStruct
import Verif.Props.ConcurrentStruct
import Verif.Props.ConcurrentStructCount
import Verif.Props.StructPieces
import Verif.Props.ArrayPlaces
import Verif.Props.ReducePlaces
import Verif.Props.PlacesDiffer
import Verif.Props.PlacesShort
import Verif.Props.PlacesPerm
import Verif.Audit
