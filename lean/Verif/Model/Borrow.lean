import Verif.Model.Codec
import Verif.Model.Json.Codec
/-!
# Strings and bytes borrowed from the input

`decode_string` and `decode_bytes` hand what they find to a visitor, through one of three
methods that say where the data lives; `&'de str`, `String`, `Cow<'de, str>` and their
counterparts for bytes are visitors.
-/
namespace Musli

/-- `UnsizedVisitor`, `musli-core/src/de/unsized_visitor.rs:31-75`. -/
structure Vis (α β : Type) where
  /-- `visit_ref`: the data lives for as long as the call -/
  ref : α → Except Err β := fun _ => .error .invalid
  /-- `visit_owned`: the visitor is given the data -/
  owned : α → Except Err β := ref
  /-- `visit_borrowed`: the data is part of the input -/
  borrowed : α → Except Err β := ref

/-- `Decode for &'de str` and `&'de [u8]`, `impls/mod.rs:464-497, 585-618`. -/
def Vis.borrow (α : Type) : Vis α α where
  borrowed := .ok

/-- `Decode for String`, `impls/alloc.rs:56-90`; `Box<str>`, `90-102`; and `decode_unsized` with a
closure, `impls/mod.rs:501-528, 533-560`. For bytes, the visitor of a vector. -/
def Vis.copy (α : Type) : Vis α α where
  ref := .ok

/-- A `Cow`. -/
inductive Cow (α : Type) where
  | borrowed (a : α)
  | owned (a : α)
deriving Repr, DecidableEq

/-- What is in a `Cow`. -/
def Cow.get {α : Type} : Cow α → α
  | .borrowed a => a
  | .owned a => a

/-- `Decode for Cow<'de, str>` and `DecodeBytes for Cow<'de, [u8]>`, `impls/alloc.rs:122-271`. -/
def Vis.cow (α : Type) : Vis α (Cow α) where
  owned a := .ok (.owned a)
  borrowed a := .ok (.borrowed a)
  ref a := .ok (.owned a)

/-- The visitor of bytes which checks them to be UTF-8 and passes them on,
`storage/de.rs:149-185`, `wire/de.rs:310-346`, `descriptive/de.rs:326-362`. -/
def Vis.utf8 {β : Type} (v : Vis Str β) : Vis Bytes β where
  owned b := toStr b >>= v.owned
  borrowed b := toStr b >>= v.borrowed
  ref b := toStr b >>= v.ref

/-- `Reader::read_bytes` of a slice, `reader.rs:243-257`. -/
def readVisit {β : Type} (n : Nat) (v : Vis Bytes β) : Dec β := do
  let head ← Dec.readBytes n
  Dec.ofExcept (v.borrowed head)

section
variable [Host] (o : Options)

/-- `decode_bytes`, `storage/de.rs:136-142`, `wire/de.rs:296-303`, `descriptive/de.rs:312-319`. -/
def visitBytes {β : Type} : Mode → Vis Bytes β → Dec β
  | .storage, v => do
    let n ← decLen o
    readVisit n v
  | .packed, v => do
    let n ← decLen o
    readVisit n v
  | .wire, v => do
    let n ← Wire.decTagLen o Wire.PREFIX
    readVisit n v
  | .descriptive, v => do
    let n ← Desc.decTagLen o Desc.BYTES
    readVisit n v

/-- `decode_string`, `storage/de.rs:145-188`, `wire/de.rs:306-349`, `descriptive/de.rs:322-367`. -/
def visitStr {β : Type} : Mode → Vis Str β → Dec β
  | .descriptive, v => do
    let n ← Desc.decTagLen o Desc.STRING
    readVisit n v.utf8
  | m, v => visitBytes o m v.utf8

end

namespace Json

/-- The loop of `parse_string`, `parser/string.rs:293-374`, as in `strLoop`, with whether it
returns `StringReference::Borrowed`: nothing was copied to the scratch buffer. -/
def strLoopB : (fuel : Nat) → (scratch : Bytes) → P (Bool × Bytes)
  | 0, _ => P.fail .fuel
  | fuel + 1, scratch => fun s =>
    let seg := (spanPlain s).1
    match (spanPlain s).2 with
    | [] => .error (.eof, [])
    | b :: s' =>
      if b == 0x22#8 then
        match checkUtf8 seg with
        | .error e => .error (e, if scratch.isEmpty then s' else b :: s')
        | .ok () =>
          if scratch.isEmpty then .ok ((true, seg), s') else .ok ((false, scratch ++ seg), s')
      else if b == 0x5C#8 then
        match checkUtf8 seg with
        | .error e => .error (e, b :: s')
        | .ok () => (do
          let x ← parseEscape
          strLoopB fuel (scratch ++ seg ++ x)) s'
      else .error (.invalid, b :: s')

/-- `parse_string_inner`: a string after its opening quote. -/
def parseStringInnerB : P (Bool × Bytes) := fun s => strLoopB (s.length + 1) [] s

/-- `Parser::parse_string`, `parser.rs:41-60`. -/
def parseStringB : P (Bool × Bytes) := do
  expect .string
  parseStringInnerB

/-- `decode_string`, `json/de/mod.rs:324-335`; of keys `key_decoder.rs:148-153`. -/
def visitStr {β : Type} (v : Vis Str β) : P β := do
  let p ← parseStringB
  let x ← P.ofExcept (toStr p.2)
  if p.1 then P.ofExcept (v.borrowed x) else P.ofExcept (v.ref x)

/-- `decode_bytes`, `json/de/mod.rs:305-322`. The visitor is called before the sequence is
left. -/
def visitBytes {β : Type} (full : Bool) (v : Vis Bytes β) : P β := do
  expect .openBracket
  let l ← allElems (parseUnsigned full 8)
  let x ← P.ofExcept (v.owned l)
  endSeq false
  pure x

end Json
end Musli
