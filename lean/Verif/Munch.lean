import Verif.ByteParser
import Verif.SplitVec
import Verif.Hex
/-
What `MemoParser::dump_state` prints.
-/
namespace Verif

/-- src/parse/mod.rs:865-882 `eprint_munches!`, `dump_state`: the segments are put into a `SplitVec<u8>` (its
`Display`, src/internal/splitvec.rs:778-792, prints two hexadecimal digits per byte).  The outcome is the line
printed to stderr; an out-of-range slice in `Display` is a panic. -/
def MemoParser.dumpText (p : Profile) (s : MemoParser) : ReadRes String :=
  match s.dump p with
  | .val segs =>
    match (segs.foldl (fun r seg => (r.extendCurrent seg).split) SplitVec.new).render
        (fun l => String.ofList (l.flatMap fmt02x)) with
    | some t => .val t
    | none => .panic
  | .panic => .panic
  | .ub => .ub

end Verif
