import Verif.Model.Trace
import Verif.Model.Json.Number
/-!
# The texts of errors, `crates/musli/src/context/trace.rs:576-860`

`decimal` is what `Display` of an unsigned integer writes. Formatting into the `fmt::Formatter` does not fail.
-/
namespace Musli.Trace
open Musli
open Musli.Json (decimal)

/-- The state of the loop, `trace.rs:741-743`, and what was written. -/
structure Fmt where
  hasType : Bool
  hasField : Bool
  level : Nat
  out : Bytes

/-- `if take(&mut has_field) { write!(f, " = ") }`, then what is written; `trace.rs:748-750, 756-758, 763-765`. -/
def Fmt.sort (s : Fmt) (text : Bytes) : Fmt :=
  { s with hasField := false, out := (if s.hasField then s.out ++ [0x20, 0x3D, 0x20] else s.out) ++ text }

/-- `if take(&mut has_type) { write!(f, " {{ "); level += 1 }`, what is written, `has_field = true`,
`trace.rs:771-777, 780-786, 789-795, 798-804`. -/
def Fmt.member (s : Fmt) (text : Bytes) : Fmt where
  hasType := false
  hasField := true
  level := if s.hasType then s.level + 1 else s.level
  out := (if s.hasType then s.out ++ [0x20, 0x7B, 0x20] else s.out) ++ text

/-- One step, `trace.rs:746-806`. -/
def Fmt.step (s : Fmt) : Step → Fmt
  | .struct name => { s.sort name with hasType := true }
  | .enum name => s.sort (name ++ [0x3A, 0x3A])
  | .variant name => { s.sort name with hasType := true }
  | .named name => s.member (0x2E#8 :: name)
  | .unnamed i => s.member (0x2E#8 :: decimal i)
  | .index i => s.member (0x5B#8 :: (decimal i ++ [0x5D]))
  | .key k => s.member (0x5B#8 :: (k ++ [0x5D]))

/-- `for _ in 0..level { write!(f, " }}") }`, `trace.rs:809-811`. -/
def closing : Nat → Bytes
  | 0 => []
  | n + 1 => [0x20, 0x7D] ++ closing n

/-- The steps which are missing, `trace.rs:813-817`: ` .. *one capped step*`, ` .. *{n} capped steps*`. -/
def cappedText : Nat → Bytes
  | 0 => []
  | 1 => [0x20, 0x2E, 0x2E, 0x20, 0x2A, 0x6F, 0x6E, 0x65, 0x20, 0x63, 0x61, 0x70, 0x70, 0x65, 0x64, 0x20, 0x73,
    0x74, 0x65, 0x70, 0x2A]
  | n => [0x20, 0x2E, 0x2E, 0x20, 0x2A] ++ decimal n ++ [0x20, 0x63, 0x61, 0x70, 0x70, 0x65, 0x64, 0x20, 0x73,
    0x74, 0x65, 0x70, 0x73, 0x2A]

/-- `Display for FormatPath`, `trace.rs:735-821`. -/
def formatPath (path : List Step) (cap : Nat) : Bytes :=
  let s := path.foldl Fmt.step ⟨false, false, 0, []⟩
  s.out ++ closing s.level ++ cappedText cap

/-- ` (at byte {})` and ` (at bytes {}-{})`, `trace.rs:679-690`. -/
def rangeText (start stop : Nat) : Bytes :=
  if start ≠ 0 ∨ stop ≠ 0 then
    if start = stop then
      [0x20, 0x28, 0x61, 0x74, 0x20, 0x62, 0x79, 0x74, 0x65, 0x20] ++ decimal start ++ [0x29]
    else
      [0x20, 0x28, 0x61, 0x74, 0x20, 0x62, 0x79, 0x74, 0x65, 0x73, 0x20] ++ decimal start ++ [0x2D] ++
        decimal stop ++ [0x29]
  else []

/-- `Display for Error`, `trace.rs:671-696`. -/
def Reported.text (r : Reported) : Bytes :=
  formatPath r.path r.cap ++ [0x3A, 0x20] ++ r.message ++ rangeText r.start.toNat r.stop.toNat

/-- `Display for Report`, `trace.rs:588-602`: `writeln!(f, "{error}")` for each of them. -/
def report (rs : List Reported) : Bytes := (rs.map fun r => r.text ++ [0x0A]).flatten

end Musli.Trace
