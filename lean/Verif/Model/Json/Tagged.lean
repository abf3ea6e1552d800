import Verif.Model.Tagged
import Verif.Model.Value.Json
/-!
# Enums that are not tagged by a variant, in JSON

The same generated code as in `Model/Tagged.lean`, `crates/musli-macros/src/en.rs:437-760` and
`crates/musli-macros/src/de.rs:210-362, 461-1008`, with the encoder and decoder of JSON.
-/
namespace Musli.Json
open Musli

section
variable (env : Env)

/-- The body of a variant, `musli-macros/src/en.rs:188-242`. -/
def encBodyJ : (vs : Variants) → vs.Val → Enc
  | .nil, v => nomatch v
  | .cons _ t vs, v =>
    match v with
    | .inl x => encJ env t x
    | .inr x => encBodyJ vs x

/-- `encode_adjacent_variant`, `musli-macros/src/en.rs:699-764`. -/
def encAdjacentJ (tag content : Name) (vs : Variants) (v : vs.Val) : Enc :=
  braces (encNameK tag +> .ok [0x3A#8] +> encNameV (vs.nameOf v) +> .ok [0x2C#8] +>
    encNameK content +> .ok [0x3A#8] +> encBodyJ env vs v)

/-- The entries of the body of a variant, after the tag: every one is preceded by a comma,
`musli-macros/src/en.rs:616-673`, `musli-core/src/en/map_encoder.rs:65-133`. -/
def encEntriesJ : (t : Ty) → t.Val → Enc
  | .strct _ fs, v => encFieldsJ env fs false v
  | .unitStruct, _ => .ok []
  | .transparent t, v => encEntriesJ t v
  | .boxed t, v => encEntriesJ t v
  | .wrapping t, v => encEntriesJ t v
  | .map k t, v => sepAll (fun x => encKey k x.1 +> .ok [0x3A#8] +> encJ env t x.2) false v
  | _, _ => .error .unsupported

/-- The entries of the body of the variant. -/
def bodyEntriesJ : (vs : Variants) → vs.Val → Enc
  | .nil, v => nomatch v
  | .cons _ t vs, v =>
    match v with
    | .inl x => encEntriesJ env t x
    | .inr x => bodyEntriesJ vs x

/-- `encode_internal_variant`, `musli-macros/src/en.rs:584-697`. JSON does not use the size hint,
`json/en/mod.rs:267-274`. -/
def encInternalJ (tag : Name) (vs : Variants) (v : vs.Val) : Enc :=
  braces (encNameK tag +> .ok [0x3A#8] +> encNameV (vs.nameOf v) +> bodyEntriesJ env vs v)

variable (full : Bool)

/-- The loop over the entries of an adjacently tagged enum, `musli-macros/src/de.rs:742-831, 859-874`.
`fuel` bounds the number of rounds; every round consumes input. An unknown variant fails before
the colon instead of after it. -/
def adjLoopJ (tag content : Name) (nt : NameTy) (vs : Variants) :
    (fuel : Nat) → (first : Bool) → (name : Option Name) → P vs.Val
  | 0, _, _ => P.fail .fuel
  | fuel + 1, first, name => do
    let more ← nextKey first
    if more then do
      let k ← decNameK full tag.ty
      if k = tag then do
        expect .colon
        let n ← decNameV full nt
        adjLoopJ tag content nt vs fuel false (some n)
      else if k = content then
        match name with
        | none => P.fail .missing
        | some n => decVariantsJ full env vs n
      else do
        expect .colon
        skip
        adjLoopJ tag content nt vs fuel false name
    else P.fail .missing

/-- `adjLoopJ` with enough fuel. -/
def adjEntriesJ (tag content : Name) (nt : NameTy) (vs : Variants) : P vs.Val := fun s =>
  adjLoopJ env full tag content nt vs (s.length + 1) true none s

/-- `decode_adjacent`, `musli-macros/src/de.rs:659-878`: what follows the content is skipped,
`json/de/mod.rs:382-401`, `object_decoder.rs:88-110`. -/
def decAdjacentJ (tag content : Name) (nt : NameTy) (vs : Variants) : P vs.Val := do
  expect .openBrace
  let v ← adjEntriesJ env full tag content nt vs
  endMap false
  pure v

/-- `decode_untagged_enum`, `musli-macros/src/de.rs:273-362`. `clone` says whether the parser can be
cloned: a `SliceParser` can (`json/parser/slice_parser.rs`), a `MutSliceParser` cannot
(`json/parser/mut_slice_parser.rs`), and then all but the last variant are passed over. -/
def decUntaggedJ (clone : Bool) : (vs : Variants) → P vs.Val
  | .nil => P.fail .unknown
  | .cons _ t vs => fun s =>
    if vs.isNil then
      match decJ full env t s with
      | .ok (x, s') => .ok (.inl x, s')
      | .error (_, s') => .error (.unknown, s')
    else if clone then
      match decJ full env t s with
      | .ok (x, _) => .ok (.inl x, s)
      | .error _ =>
        match decUntaggedJ clone vs s with
        | .ok (x, s') => .ok (.inr x, s')
        | .error e => .error e
    else
      match decUntaggedJ clone vs s with
      | .ok (x, s') => .ok (.inr x, s')
      | .error e => .error e

/-- `decode_default_enum` with a fallback, `musli-macros/src/de.rs:364-459, 915-928`. -/
def decFallbackJ (nt : NameTy) (vs : Variants) (fallback : vs.Val) : P vs.Val := do
  expect .openBrace
  let n ← decNameK full nt
  let v ← if n ∈ vs.names then decVariantsJ full env vs n
    else (do
      expect .colon
      skip
      pure fallback)
  expect .closeBrace
  pure v

/-- `decode_empty_enum` with a fallback, `musli-macros/src/de.rs:210-271`. -/
def decUnitFallbackJ (nt : NameTy) (names : List Name) (fallback : Fin names.length) :
    P (Fin names.length) := do
  let n ← decNameV full nt
  match findName n names with
  | some i => pure i
  | none => pure fallback

/-- Decoding of an internally tagged enum: `decode_buffer` first,
`musli-macros/src/de.rs:462-664`, `json/de/mod.rs:154-161`. -/
def decInternalJ [Host] (flt : Bool → Parts 128 → BitVec 64) (tag : Name) (nt : NameTy)
    (vs : Variants) : P vs.Val := do
  let x ← readValue flt
  P.ofExcept (internalV env bufferOptions tag nt vs x)

end
end Musli.Json
