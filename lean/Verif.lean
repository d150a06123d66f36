import Verif.Model.Go
import Verif.Model.BigFloat
import Verif.Model.Math
import Verif.Model.Text
import Verif.Model.Binary16
import Verif.Model.Binary128
import Verif.Model.Float80x86
import Verif.Model.Bfloat
import Verif.Model.Float128ppc
import Verif.Model.Itoa
import Verif.Model.Decimal
import Verif.Model.ExtFloat
import Verif.Model.Ftoa
import Verif.Model.Float
import Verif.Spec.Format
import Verif.Proofs.Bits
import Verif.Proofs.Big
import Verif.Proofs.IEEE
import Verif.Proofs.ToIEEE
import Verif.Proofs.Nearest
import Verif.Proofs.Text
import Verif.Proofs.Conv
import Verif.Proofs.Fields
import Verif.Proofs.Widen
import Verif.Proofs.Binary16
import Verif.Proofs.Trunc
import Verif.Proofs.ToFloat
import Verif.Props.Binary16
import Verif.Spec.Convert
import Verif.Proofs.TruncGen
import Verif.Proofs.Binary128
import Verif.Props.Binary128
import Verif.Spec.Extended
import Verif.Proofs.Float80x86
import Verif.Props.Float80x86
import Verif.Proofs.Bfloat
import Verif.Props.Bfloat
import Verif.Spec.Bits
import Verif.Proofs.BigAdd
import Verif.Proofs.RoundAny
import Verif.Proofs.Float128ppc
import Verif.Props.Float128ppc
import Verif.Spec.Numeral
import Verif.Spec.Decimal
import Verif.Proofs.Itoa
import Verif.Proofs.DecimalText
import Verif.Proofs.TrimZeros
import Verif.Props.Itoa
import Verif.Props.TrimZeros
import Verif.Spec.DecimalValue
import Verif.Proofs.Decimal
import Verif.Proofs.DecimalShift
import Verif.Proofs.DecimalExact
import Verif.Proofs.DecimalRound
import Verif.Props.Decimal
import Verif.Proofs.Interval
import Verif.Proofs.Shortest
import Verif.Proofs.Ftoa
import Verif.Proofs.FtoaBits
import Verif.Proofs.Layout
import Verif.Proofs.FtoaText
import Verif.Proofs.ExtFloat
import Verif.Proofs.PowersOfTen
import Verif.Proofs.Grisu
import Verif.Proofs.GrisuFloat
import Verif.Proofs.Bounds
import Verif.Proofs.Fixed
import Verif.Proofs.Format
import Verif.Spec.Shortest
import Verif.Proofs.ShortestDigits
import Verif.Props.ExtFloat
import Verif.Proofs.FormatFloat
import Verif.Props.Ftoa
import Verif.Proofs.BigShortest
import Verif.Proofs.FixedText
import Verif.Props.FtoaFixed
import Verif.Spec.Layout
import Verif.Proofs.LayoutShape
import Verif.Props.FtoaLayout
import Verif.Spec.Exact
import Verif.Proofs.IsExact
import Verif.Props.Float
import Verif.Props.FtoaDigits
import Verif.Proofs.FloatBits
import Verif.Proofs.AssignDecimal
import Verif.Props.AssignDecimal
import Verif.Props.Complete
import Verif.Props.Cross
import Verif.Spec.Order
import Verif.Proofs.Monotone
import Verif.Props.Monotone
import Verif.Spec.Negate
import Verif.Proofs.Negate
import Verif.Props.Negate
import Verif.Proofs.FtoaOrder
import Verif.Props.FtoaOrder
import Verif.Proofs.RoundMode
import Verif.Proofs.SplitMode
import Verif.Props.Float128ppcModes
import Verif.Props.Float128ppcRoundTrip
import Verif.Checks.RepoTests
import Verif.Props.FtoaExact
import Verif.Props.FtoaLetters
import Verif.Props.ExactChain
import Verif.Props.Value
import Verif.Props.Accuracy
import Verif.Model.Gen
import Verif.Proofs.Gen
import Verif.Props.Gen
import Verif.Proofs.DoubleRound
import Verif.Props.Float128ppcHigh
import Verif.Props.DecimalString
import Verif.Spec.Sum
import Verif.Props.Float128ppcOrder
import Verif.Props.Nearest
import Verif.Proofs.Gap
import Verif.Props.ExactSelf
import Verif.Props.TextLength
import Verif.Props.Agree
import Verif.Props.TwiceRounded
import Verif.Props.Optimise
import Verif.Props.ShortestExact
import Verif.Model.IntSize
import Verif.Proofs.IntSize
import Verif.Proofs.IntSizeNew
import Verif.Proofs.SameText
import Verif.Proofs.MaxPrec
import Verif.Props.IntSize
import Verif.Model.Heap
import Verif.Proofs.Heap
import Verif.Props.Heap
import Verif.Model.Slices
import Verif.Proofs.Slices
import Verif.Props.Slices
import Verif.Props.Int32
import Verif.Props.Closest
import Verif.Model.Goroutines
import Verif.Proofs.Goroutines
import Verif.Proofs.Races
import Verif.Props.Goroutines
import Verif.Proofs.DecimalTrunc
import Verif.Model.BigText
import Verif.Model.GenSort
import Verif.Proofs.BigText
import Verif.Proofs.BigString
import Verif.Props.GenText
import Verif.Props.GenSort
import Verif.Model.GenRow
import Verif.Spec.GoSource
import Verif.Props.GenRow
import Verif.Spec.Away
import Verif.Props.FloatBits
import Verif.Props.Exact16
import Verif.Props.FixedDecimal
import Verif.Spec.Shown
import Verif.Proofs.TextUnique
import Verif.Props.ShownText
import Verif.Spec.Code128
import Verif.Spec.Code80
import Verif.Spec.Sizes
import Verif.Spec.ExtValue
import Verif.Spec.PrintsAs
import Verif.Spec.Window
import Verif.Props.ReadBack
import Verif.Props.Library
import Verif.Proofs.Library
import Verif.Spec.BigResult
import Verif.Spec.Place
import Verif.Proofs.Place
import Verif.Props.CodeOrder
import Verif.Props.ExactConvert
import Verif.Props.MonotoneEdge
import Verif.Props.Settle
import Verif.Props.Detour
import Verif.Props.Narrow
import Verif.Props.RelError
import Verif.Props.LibraryText
import Verif.Props.NextNumber
import Verif.Proofs.TextSurvives
import Verif.Props.DecimalText
import Verif.Props.PairRange
import Verif.Proofs.Sample
import Verif.Props.Equal
import Verif.Props.Step
import Verif.Props.Best
import Verif.Props.Again
import Verif.Proofs.Sum
import Verif.Props.Sum
import Verif.Props.SumPair
import Verif.Props.Wider
import Verif.Props.Difference
import Verif.Props.ErrorOfSum
import Verif.Props.Product
import Verif.Props.ProductPair
import Verif.Props.QuotientPair
import Verif.Props.Special
import Verif.Model.BigMul
import Verif.Spec.Special
import Verif.Props.ViaDouble
import Verif.Props.ViaSingle
import Verif.Props.Fused
import Verif.Props.Root
import Verif.Props.Via128
import Verif.Props.ViaExtended
import Verif.Props.RootSingle
import Verif.Props.Via128Single
import Verif.Props.ManySum
import Verif.Props.Integers
import Verif.Props.Scale
import Verif.Props.IntegerText
import Verif.Props.NumeralOrder
import Verif.Props.ExactProduct
import Verif.Props.TwoProducts
