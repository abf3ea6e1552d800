import Verif.Model.Json.Float
/-!
# JSON: floats with a correction

This is not the code: it is `Model/Json/Float.lean` with a correction, to tell that nothing else is wrong with it. Whitespace is skipped
before a float is read, as the parsers do before integers.
-/
namespace Musli.Json
open Musli Musli.Dec2Flt

/-- `Parser::parse_f32` and `Parser::parse_f64`, `slice_parser.rs:127-151`, `mut_slice_parser.rs:135-159`, with the correction. -/
def parseFloatC (R : RawFloat) : P Nat := do
  skipWs
  parseFloat R

end Musli.Json
