import Verif.Model.Json.Parser
/-!
# JSON: strings with a scratch buffer which may run out of memory

`crates/musli/src/json/parser/string.rs`. The allocator is what it grants: `grant` is given all calls of
`RawVec::resize(len, additional)` of the scratch buffer, the last one first, and says whether the last one succeeds. The scratch
buffer is new (`Vec::new_in`, `json/de/mod.rs:188, 329`, `json/de/key_decoder.rs:39`), so `len` starts from 0.
-/
namespace Musli.Json
open Musli

/-- The calls of `resize` which were made, the last one first. -/
abbrev Requests := List (Nat × Nat)

/-- An allocator which never has memory: `musli::alloc::Disabled`, `alloc/disabled.rs:9-46`, or one which is full. -/
def noMemory : Requests → Bool := fun _ => false

/-- The loop of `parse_string` with `validate = true`, `parser/string.rs:293-374`, with `Vec::extend_from_slice` and `Vec::push`,
`alloc/vec.rs:250-262, 478-493`, which ask for room for as many bytes as are added, also if these are none. An escape is added by
the last thing that `parse_escape` does, `parser/string.rs:110-214`. `scratch` holds what was parsed before, and `hist` are the
requests which were made before, which succeeded. -/
def strLoopM (grant : Requests → Bool) : (fuel : Nat) → (hist : Requests) → (scratch : Bytes) → P Bytes
  | 0, _, _ => P.fail .fuel
  | fuel + 1, hist, scratch => fun s =>
    let seg := (spanPlain s).1
    match (spanPlain s).2 with
    | [] => .error (.eof, [])
    | b :: s' =>
      if b == 0x22#8 then
        if scratch.isEmpty then
          match checkUtf8 seg with
          | .error e => .error (e, s')
          | .ok () => .ok (seg, s')
        else
          match checkUtf8 seg with
          | .error e => .error (e, b :: s')
          | .ok () =>
            if grant ((scratch.length, seg.length) :: hist) then .ok (scratch ++ seg, s') else .error (.full, b :: s')
      else if b == 0x5C#8 then
        match checkUtf8 seg with
        | .error e => .error (e, b :: s')
        | .ok () =>
          let hist := (scratch.length, seg.length) :: hist
          if grant hist then (do
            let x ← parseEscape
            let hist := (scratch.length + seg.length, x.length) :: hist
            if grant hist then strLoopM grant fuel hist (scratch ++ seg ++ x) else P.fail .full) s'
          else .error (.full, b :: s')
      else .error (.invalid, b :: s')

/-- `parse_string_inner` with a new scratch buffer: a string after its opening quote. -/
def parseStringInnerM (grant : Requests → Bool) : P Bytes := fun s => strLoopM grant (s.length + 1) [] [] s

/-- `Parser::parse_string`, `parser.rs:41-60`, with a new scratch buffer. -/
def parseStringM (grant : Requests → Bool) : P Bytes := do
  expect .string
  parseStringInnerM grant

end Musli.Json
