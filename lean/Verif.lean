import Verif.Spec.Inflate
import Verif.Spec.Container
import Verif.Spec.Shape
import Verif.Model.Compress
import Verif.Proofs.BlockSize
import Verif.Proofs.Split
import Verif.Proofs.Stream
import Verif.Proofs.Ieee
import Verif.Proofs.CompressMain
import Verif.Proofs.Total
import Verif.Proofs.Hom
import Verif.Proofs.Faults
import Verif.Props.RoundTrip
import Verif.Props.Faults
import Verif.Props.StreamShape
import Verif.Props.Stored
import Verif.Props.BitPacking
import Verif.Props.Codes
import Verif.Props.PrefixCodes
import Verif.Spec.Items
import Verif.Props.Trees
import Verif.Spec.Layout
import Verif.Proofs.Sizes
import Verif.Proofs.Pieces
import Verif.Props.Division
import Verif.Spec.Search
import Verif.Proofs.Passes
import Verif.Props.Parsing
import Verif.Proofs.Chains
import Verif.Props.Matching
import Verif.Spec.Shortest
import Verif.Proofs.OptFixed
import Verif.Proofs.FixedCost
import Verif.Proofs.LongRuns
import Verif.Proofs.FixedOpt
import Verif.Props.FixedOptimal
import Verif.Spec.BlockCodes
import Verif.Proofs.BlockCodes
import Verif.Props.BlockCodes
import Verif.Props.Debug
import Verif.Spec.Cuts
import Verif.Proofs.Cuts
import Verif.Proofs.Estimate
import Verif.Proofs.Choice
import Verif.Props.Choice
import Verif.Model.Buffered
import Verif.Spec.Buffered
import Verif.Proofs.Buffered
import Verif.Props.Buffered
import Verif.Props.Lending
import Verif.Proofs.Overflow
import Verif.Proofs.OverflowPart
import Verif.Proofs.Checked
import Verif.Proofs.CheckedPanic
import Verif.Proofs.CheckedOk
import Verif.Props.Checked
import Verif.Model.Math
import Verif.Proofs.MathBits
import Verif.Proofs.MathSplit
import Verif.Proofs.MathPoly
import Verif.Proofs.MathLog
import Verif.Proofs.MathFacts
import Verif.Props.Math
import Verif.Model.Main
import Verif.Spec.Main
import Verif.Proofs.Main
import Verif.Props.Main
import Verif.Spec.Members
import Verif.Proofs.Extend
import Verif.Props.Truncation
import Verif.Props.Reproducible
import Verif.Props.Progress
import Verif.Props.Local
import Verif.Props.Cheapest
import Verif.Props.Integrity
import Verif.Props.Bound
import Verif.Props.ShortWrites
import Verif.Props.Formats
import Verif.Props.MoreIterations
import Verif.Props.FixedStream
import Verif.Props.Persist
import Verif.Props.Periodic
import Verif.Props.Pays
import Verif.Props.Memory
import Verif.Props.Work
import Verif.Props.Logging
import Verif.Props.Unwind
import Verif.Props.UnwindCompress
import Verif.Props.Words
import Verif.Props.Handing
import Verif.Props.WordsEncoder
import Verif.Props.ShortRepeats
import Verif.Props.UnwindBuffered
import Verif.Props.HandingBuffered
import Verif.Props.WorkCompress
import Verif.Props.LogOnly
import Verif.Props.OwnSink
import Verif.Props.UnwindLending
import Verif.Props.Direct
import Verif.Props.SliceMemory
