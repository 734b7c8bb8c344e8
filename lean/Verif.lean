import Verif.Spec
import Verif.Model.Fp
import Verif.Model.Prog
import Verif.Model.Dtype
import Verif.Model.Scalar
import Verif.Model.Simd
import Verif.Model.KernelsQ
import Verif.Model.KernelsDq
import Verif.Model.MinMax
import Verif.Model.Context
import Verif.Proofs.Fp
import Verif.Proofs.Prog
import Verif.Proofs.Sched
import Verif.Proofs.Lanes
import Verif.Proofs.KernelsQ
import Verif.Proofs.QuantAll
import Verif.Proofs.Partition
import Verif.Proofs.Dispatch
import Verif.Proofs.QuantCall
import Verif.Proofs.Flt
import Verif.Proofs.Nearest
import Verif.Proofs.Codes
import Verif.Proofs.DqBase
import Verif.Proofs.DqLanes
import Verif.Proofs.KernelsDq
import Verif.Proofs.DequantAll
import Verif.Proofs.DequantCall
import Verif.Proofs.Sched2
import Verif.Proofs.Fresh
import Verif.Proofs.Calls
import Verif.Proofs.Stoch
import Verif.Proofs.QuantMain
import Verif.Proofs.Bf16
import Verif.Proofs.DequantMain
import Verif.Proofs.Arith
import Verif.Props.Examples
import Verif.Props.Sched
import Verif.Props.Quant
import Verif.Props.QuantNeg
import Verif.Proofs.Leaves
import Verif.Proofs.DqVal
import Verif.Proofs.Order
import Verif.Props.Safety
import Verif.Props.Dequant
import Verif.Props.Dequant2
import Verif.Proofs.MinMax
import Verif.Proofs.MinMaxSse
import Verif.SpecParams
import Verif.Proofs.Params
import Verif.Proofs.ParamsData
import Verif.Proofs.ParamsNan
import Verif.Props.Params
import Verif.Proofs.RoundTrip
import Verif.Props.RoundTrip
import Verif.Props.Api
import Verif.Props.Bf16
import Verif.Props.Cpu
import Verif.Props.Py
import Verif.Proofs.Concurrent
import Verif.Props.Concurrent
import Verif.Model.Typed
import Verif.Props.Typed
import Verif.Proofs.Workflow
import Verif.Props.Workflow
import Verif.Proofs.RoundTrip2
import Verif.Props.Fused
import Verif.Proofs.Bf16Trip
import Verif.Props.Bf16Trip
import Verif.Props.Isolate
import Verif.Props.Optimal
import Verif.Props.Tiles
import Verif.Proofs.Offset
import Verif.Props.ParamsSet
import Verif.Props.Offset
import Verif.Proofs.Readme
import Verif.Props.Readme
import Verif.Proofs.DoubleRound
import Verif.Props.Bf16Arith
import Verif.Props.Elementwise
import Verif.Model.Rng
import Verif.Model.Session
import Verif.SpecSession
import Verif.Proofs.Rng
import Verif.Proofs.Session
import Verif.Props.Rng
import Verif.Props.Session
import Verif.Props.DequantSame
import Verif.Model.Life
import Verif.Proofs.Scale
import Verif.Props.Symmetry
import Verif.Props.Constant
import Verif.Props.Life
import Verif.Proofs.Accum
import Verif.Props.Reduce
import Verif.Props.FullRange
import Verif.Props.Compare
import Verif.Model.Naive
import Verif.Proofs.Naive
import Verif.Proofs.NaiveBf16
import Verif.Props.Naive
import Verif.Props.Pipeline
import Verif.Proofs.PipeBf16
import Verif.Props.PipelineBf16
import Verif.Model.Suite
import Verif.Props.Suite
import Verif.Model.RawApi
import Verif.Props.RawApi
import Verif.Model.Weak
import Verif.Proofs.Weak
import Verif.Props.Weak
import Verif.Props.PyTest
import Verif.Props.Ieee
import Verif.Props.Alias
import Verif.Props.Shared
import Verif.Props.Moments
import Verif.Model.Bench
import Verif.Props.Bench
import Verif.Props.Regen
import Verif.Props.Crash
import Verif.Props.IeeeFused
import Verif.Proofs.LargeZp
import Verif.Props.LargeZp
import Verif.Props.FarZp
import Verif.Props.Ring
import Verif.Props.ReduceBf16
import Verif.Props.RingAuto
import Verif.Props.Traffic
import Verif.Props.ParamsSym
import Verif.Props.OrderKept
import Verif.Props.Clip
import Verif.Props.Linear
import Verif.Props.OddScale
import Verif.Props.Transcode
import Verif.Props.Feedback
import Verif.Props.Replicas
import Verif.Props.Recode
import Verif.Props.ExactSum
import Verif.Props.Store
import Verif.Props.Vectored
import Verif.Props.DqVectored
import Verif.SpecExact
import Verif.Proofs.Exact
import Verif.Props.Exact
import Verif.Proofs.ParamsSeen
import Verif.Props.ParamsSeen
import Verif.Props.SeenTrip
import Verif.SpecNan
import Verif.Proofs.ParamsMixed
import Verif.Props.NanParams
import Verif.Proofs.ParamsInf
import Verif.Props.InfParams
import Verif.Props.Witness
