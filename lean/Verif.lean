import Verif.Basic
import Verif.Errors
import Verif.Parser
import Verif.ByteParser
import Verif.SliceParser
import Verif.Spec.Cursor
import Verif.Spec.CursorExact
import Verif.Refine.Offset
import Verif.Refine.Byte
import Verif.Refine.Memo
import Verif.Refine.Slice
import Verif.Refine.Lawful
import Verif.Refine.Trace
import Verif.Refine.Exact
import Verif.Refine.Reading
import Verif.Props.Parsers
import Verif.Props.Reading
import Verif.SplitVec
import Verif.Spec.Segments
import Verif.Refine.SplitVec
import Verif.Props.SplitVec
import Verif.Target
import Verif.Refine.Target
import Verif.Std
import Verif.Codec.Basic
import Verif.Codec.Prim
import Verif.Codec.Comb
import Verif.Spec.Decode
import Verif.Spec.Format
import Verif.Spec.Laws
import Verif.Lemmas.Num
import Verif.Lemmas.Decode
import Verif.Refine.Decode
import Verif.Refine.Codec
import Verif.Lemmas.Utf8
import Verif.Lemmas.Lossy
import Verif.Lemmas.RoundTrip
import Verif.Lemmas.Structure
import Verif.Lemmas.Reencode
import Verif.Lemmas.Estimate
import Verif.Schema
import Verif.Spec.Schema
import Verif.Lemmas.Schema
import Verif.Backend
import Verif.Refine.Backend
import Verif.Props.Prims
import Verif.Fixed
import Verif.Props.Text
import Verif.Props.Option
import Verif.Props.Dynamic
import Verif.BoundedSeq
import Verif.Lemmas.Chunks
import Verif.Props.Sequences
import Verif.Enums
import Verif.Props.Enums
import Verif.Props.Records
import Verif.RangedNum
import Verif.Props.Ranged
import Verif.Hex
import Verif.Lemmas.Hex
import Verif.Props.Hex
import Verif.Props.Iterate
import Verif.Props.Segments
import Verif.Cleanup
import Verif.Refine.Cleanup
import Verif.Props.Cleanup
import Verif.Refine.Reached
import Verif.Props.Reached
import Verif.Props.ReachedMemo
import Verif.Props.StateText
import Verif.Props.Effort
import Verif.Props.Fall
import Verif.Props.Surplus
import Verif.Props.SkipAny
import Verif.Props.Override
import Verif.ErrorDebug
import Verif.Props.ErrorDebug
import Verif.HashState
import Verif.Props.HashState
import Verif.Decode
import Verif.Spec.Tame
import Verif.Lemmas.Tame
import Verif.Refine.Program
import Verif.Spec.Sized
import Verif.Refine.Sound
import Verif.Lemmas.Sound
import Verif.Props.Decode
import Verif.Builder
import Verif.Spec.Building
import Verif.Props.Builder
import Verif.Lemmas.Retext
import Verif.Props.Schema
import Verif.Recursive
import Verif.RecCodec
import Verif.Spec.Recursive
import Verif.Lemmas.Recursive
import Verif.Props.Recursive
import Verif.Props.Skip
import Verif.Convert
import Verif.Props.Convert
import Verif.Munch
import Verif.Props.Munch
import Verif.Spec.Unfold
import Verif.Lemmas.Unfold
import Verif.Props.Unfold
import Verif.Lemmas.Safe
import Verif.Props.Memory
import Verif.Check
import Verif.Props.Transport
import Verif.Props.Depth
import Verif.Spec.Meter
import Verif.Refine.Meter
import Verif.Refine.Cost
import Verif.Lemmas.Cost
import Verif.Props.Work
import Verif.RangeCheck
import Verif.Props.RangeCheck
import Verif.Compare
import Verif.Spec.Compare
import Verif.Lemmas.Compare
import Verif.Lemmas.Zeros
import Verif.Props.Compare
import Verif.Props.CompareBuilders
import Verif.Buffer
import Verif.Props.Buffer
import Verif.Spec.Size
import Verif.Lemmas.Size
import Verif.Props.Size
import Verif.Props.Short
import Verif.Props.RangeErrors
import Verif.Props.Saturation
import Verif.Storage
import Verif.Props.Storage
import Verif.Props.Hash
import Verif.Refine.Idle
import Verif.ErrorText
import Verif.Lemmas.ErrorText
import Verif.Props.ErrorText
import Verif.Props.Targets
import Verif.Props.UserParsers
import Verif.Debug
import Verif.Spec.Debug
import Verif.Spec.Printing
import Verif.Lemmas.Debug
import Verif.Lemmas.Printing
import Verif.Props.Debug
import Verif.Spec.Cut
import Verif.Lemmas.Cut
import Verif.Props.Cut
import Verif.Refine.Related
import Verif.Props.Builds
import Verif.Spec.Wider
import Verif.Lemmas.Wider
import Verif.Props.Wider
import Verif.Spec.Refactor
import Verif.Lemmas.Refactor
import Verif.Props.Refactor
import Verif.RecCompare
import Verif.Lemmas.RecCompare
import Verif.Props.RecCompare
import Verif.Spec.Patch
import Verif.Lemmas.Patch
import Verif.Props.Patch
import Verif.Lemmas.Fault
import Verif.Props.Fault
import Verif.Validator
import Verif.Props.Validator
import Verif.ErrorSource
import Verif.Props.ErrorSource
import Verif.Lemmas.Leaves
import Verif.Props.Leaves
import Verif.Default
import Verif.Props.Default
import Verif.Unchecked
import Verif.Spec.Parts
import Verif.Props.Proper
import Verif.CheckedCodec
import Verif.Lemmas.Guards
import Verif.Lemmas.CheckedSim
import Verif.Lemmas.PartsFill
import Verif.RecChecked
import Verif.Props.CheckedCodec
import Verif.Derive
import Verif.Lemmas.Derive
import Verif.Props.Derive
import Verif.Usize
import Verif.Lemmas.Usize
import Verif.Lemmas.UsizeSim
import Verif.RecUsize
import Verif.Props.Usize
import Verif.Props.Shortfall
import Verif.Props.Display
import Verif.Props.TransportRec
import Verif.Props.RecDebug
import Verif.Props.RecDefault
import Verif.Props.RecPatch
import Verif.Props.ReadsAny
import Verif.Spec.Ends
import Verif.Lemmas.Ends
import Verif.Props.Checked
import Verif.Props.UserTypes
import Verif.Props.Located
import Verif.Props.Sealed
import Verif.StoredCodec
import Verif.RecStored
import Verif.Spec.Room
import Verif.Lemmas.Stored
import Verif.Lemmas.StoredSim
import Verif.Lemmas.Reserved
import Verif.Props.Stored
import Verif.Spec.Sorts
import Verif.Lemmas.Sorts
import Verif.Props.Sorts
import Verif.Spec.Sizes
import Verif.Lemmas.Sizes
import Verif.Props.Sizes
import Verif.Protocol
import Verif.Spec.Protocol
import Verif.Lemmas.Protocol
import Verif.Props.Protocol
import Verif.Exchange
import Verif.Spec.Exchange
import Verif.Lemmas.Exchange
import Verif.Props.Exchange
import Verif.Spec.Windowless
import Verif.Lemmas.Caught
import Verif.Props.Caught
import Verif.Conversions
import Verif.Spec.Conversions
import Verif.Props.Conversions
import Verif.Props.ProtocolFall
import Verif.Props.ShortAny
import Verif.Props.LocatedAny
import Verif.Wrappers
import Verif.Props.Wrappers
import Verif.Pretty
import Verif.Lemmas.Pretty
import Verif.Lemmas.Lays
import Verif.Props.Pretty
import Verif.RecPretty
import Verif.Lemmas.RecLays
import Verif.Props.RecPretty
import Verif.ErrorPretty
import Verif.Lemmas.ErrorPretty
import Verif.Props.ErrorPretty
import Verif.StatePretty
import Verif.Lemmas.StatePretty
import Verif.Props.StatePretty
import Verif.Conformance
