import Verif.Model.Basic
import Verif.Model.Common
import Verif.Model.Fftw
import Verif.Model.Ecdf2
import Verif.Model.Ecdf1New
import Verif.Model.Mns2016
import Verif.Model.XR
import Verif.Model.Strings
import Verif.Model.ReadFile
import Verif.Model.Cli
import Verif.Spec
import Verif.FftSpec
import Verif.SortSpec
import Verif.Proofs.Hoare
import Verif.Proofs.Convolve
import Verif.Proofs.CountLaw
import Verif.Proofs.FftExact
import Verif.Proofs.Pmf
import Verif.Proofs.PmfExact
import Verif.Proofs.Events
import Verif.Proofs.Ecdf2Step
import Verif.Proofs.Ecdf2Exact
import Verif.Proofs.Ecdf2Final
import Verif.Proofs.NewStep
import Verif.Proofs.NewExact
import Verif.Proofs.NewSafe
import Verif.Proofs.Reflect
import Verif.Proofs.MnsStep
import Verif.Proofs.MnsExact
import Verif.Proofs.Erase
import Verif.Props.Exact
import Verif.Props.Validate
import Verif.Proofs.Ties
import Verif.LibcSpec
import Verif.Proofs.LibcWitness
import Verif.Props.Safety
import Verif.Props.Tables
import Verif.Props.Ties
import Verif.Props.Strings
import Verif.Props.Cli
import Verif.Model.TinyMT
import Verif.Model.While
import Verif.Model.MonteCarlo
import Verif.Model.XRBits
import Verif.McSpec
import Verif.Proofs.While
import Verif.Proofs.TinyMT
import Verif.Proofs.TinyMTSeed
import Verif.Proofs.MonteCarlo
import Verif.Proofs.MonteCarloPoisson
import Verif.Props.Rng
import Verif.Props.MonteCarlo
import Verif.Props.McMain
import Verif.Props.Crlf
import Verif.Model.Int32
import Verif.Props.Int32
import Verif.Props.NanMns
import Verif.Model.Python
import Verif.Props.Python
import Verif.Props.Rounding
import Verif.McLawSpec
import Verif.Proofs.Renyi
import Verif.Proofs.Renyi2
import Verif.Proofs.Renewal
import Verif.Proofs.McLaw
import Verif.Props.McLaw
import Verif.Model.Counted
import Verif.Proofs.Counted
import Verif.Proofs.Counted2
import Verif.Proofs.Counted3
import Verif.Props.Cost
import Verif.Model.Heap
import Verif.Proofs.Heap
import Verif.Props.Ownership
import Verif.FftAccSpec
import Verif.Proofs.Norms
import Verif.Proofs.FftRound
import Verif.Proofs.ConvAcc
import Verif.Proofs.RoundingAbs
import Verif.Proofs.FpFft
import Verif.Props.RoundingFft
import Verif.Proofs.NewAbs
import Verif.Proofs.FpMono
import Verif.Proofs.Stability
import Verif.Props.RoundingNew
import Verif.Props.Stability
import Verif.Props.NonMonotone
import Verif.BjSpec
import Verif.Model.ExactBj
import Verif.Proofs.ExactBj
import Verif.Proofs.BetaLaw
import Verif.Props.ExactBj
import Verif.Proofs.Bisect
import Verif.Props.Bisect
import Verif.MnsAccSpec
import Verif.Proofs.MnsRound
import Verif.Proofs.MnsFinal
import Verif.Props.RoundingMns
import Verif.Proofs.MnsNan
import Verif.Props.RoundingMnsNan
import Verif.Model.Output
import Verif.OutputSpec
import Verif.Proofs.Output
import Verif.Props.Output
import Verif.Props.OutputText
import Verif.Props.OutputMc
import Verif.Props.OutputUse
import Verif.Props.OutputFp
import Verif.Props.VecString
import Verif.Ieee
import Verif.Proofs.Ieee
import Verif.Proofs.IeeeAcc
import Verif.Proofs.IeeeWit
import Verif.Props.Ieee
import Verif.Props.IeeeProgram
import Verif.Props.IeeeFft
import Verif.Props.IeeeFftProgram
import Verif.Proofs.SmallFft
import Verif.Props.SmallFft
import Verif.DigitSpec
import Verif.Proofs.Digits
import Verif.Proofs.EvalProb
import Verif.Props.Digits
import Verif.Props.Suite
import Verif.IeeePow
import Verif.LongDoubleSpec
import Verif.Model.LongDouble
import Verif.Proofs.MnsIeee
import Verif.Proofs.MnsIeeeStep
import Verif.Proofs.MnsIeeeFinal
import Verif.Proofs.MnsIeeeBnd
import Verif.Proofs.LongDouble
import Verif.Proofs.LibmWit
import Verif.Props.IeeeMns
import Verif.Props.LongDouble
import Verif.Props.LongDoubleProgram
import Verif.FastMathSpec
import Verif.Model.FastMath
import Verif.Proofs.FastSum
import Verif.Proofs.FastStep
import Verif.Proofs.FastRound
import Verif.Proofs.FastLibm
import Verif.Proofs.FastIeee
import Verif.Proofs.FastStrict
import Verif.Proofs.FastWit
import Verif.Props.FastMath
import Verif.FastNewSpec
import Verif.Model.FastNew
import Verif.Model.FastProgram
import Verif.Proofs.FastNewStep
import Verif.Proofs.FastNewSum
import Verif.Proofs.FastNewAbs
import Verif.Proofs.FastNewErr
import Verif.Proofs.FastNewStrict
import Verif.Props.FastNew
import Verif.Props.FastProgram
import Verif.FastMnsSpec
import Verif.Model.FastMns
import Verif.Proofs.FastMnsStep
import Verif.Proofs.FastMnsSum
import Verif.Proofs.FastMnsLoop
import Verif.Proofs.FastMnsFinal
import Verif.Proofs.FastMnsIeee
import Verif.Proofs.FastMnsStrict
import Verif.Props.FastMns
import Verif.Props.FastMnsProgram
import Verif.Proofs.Hoeffding
import Verif.Props.Hoeffding
import Verif.Model.IeeeBits
import Verif.Proofs.IeeeMc
import Verif.Proofs.IeeeMcErr
import Verif.Props.IeeeMc
import Verif.McGridSpec
import Verif.Model.McGenerator
import Verif.Proofs.AntiConc
import Verif.Proofs.GridMc
import Verif.Proofs.GridMcLaw
import Verif.Proofs.GridTransfer
import Verif.Props.GridMc
import Verif.Props.GridMcProgram
import Verif.Model.Pickler
import Verif.PickleSpec
import Verif.Proofs.Pickler
import Verif.Props.Pickle
import Verif.Props.IeeeZero
import Verif.Proofs.GridPoisson
import Verif.Props.GridPoisson
import Verif.Proofs.TinyMTPeriod
import Verif.Props.Period
import Verif.Proofs.FastFftStep
import Verif.Proofs.FastFftAbs
import Verif.Proofs.FastFftErr
import Verif.Props.FastFft
import Verif.Proofs.SharpSum
import Verif.Proofs.SharpRound
import Verif.Proofs.SharpLibm
import Verif.Proofs.SharpIeee
import Verif.Proofs.FastStrictConv
import Verif.Props.Sharp
import Verif.Proofs.SharpAbs
import Verif.Proofs.SharpFftErr
import Verif.Props.SharpFft
import Verif.Props.Diagnosis
import Verif.Model.Oom
import Verif.Proofs.Oom
import Verif.Props.Oom
import Verif.Proofs.SharpNewAbs
import Verif.Proofs.SharpNewErr
import Verif.Proofs.FastNewStrictConv
import Verif.Props.SharpNew
import Verif.Model.Threads
import Verif.ThreadsSpec
import Verif.Proofs.Threads
import Verif.Proofs.ThreadsRun
import Verif.Proofs.ThreadsFloat
import Verif.Proofs.ThreadsIeee
import Verif.Proofs.ThreadsPlan
import Verif.Props.Threads
import Verif.Proofs.ThreadsAlone
import Verif.EcdfSpec
import Verif.Proofs.Quantile
import Verif.Proofs.KsEvent
import Verif.Proofs.KsLaw
import Verif.Proofs.KsSize
import Verif.Props.Gof
import Verif.Props.GofDouble
import Verif.Proofs.BjSize
import Verif.Props.BjSize
import Verif.PoissonSpec
import Verif.Proofs.PoissonBand
import Verif.Props.PoissonBand
import Verif.Model.VectorDouble
import Verif.VectorSpec
import Verif.Proofs.VectorDouble
import Verif.Props.VectorDouble
import Verif.Model.StdSort
import Verif.Proofs.StdSort
import Verif.Props.StdSort
import Verif.Model.Build
import Verif.BuildSpec
import Verif.Proofs.Build
import Verif.Props.Build
import Verif.Model.PyObject
import Verif.Proofs.PyObject
import Verif.Props.PyObject
import Verif.Model.Stdout
import Verif.Props.Stdout
import Verif.Model.LongLines
import Verif.Props.LongLines
import Verif.Model.MnsInt32
import Verif.Props.MnsInt32
import Verif.Model.VectorIter
import Verif.Props.VectorIter
