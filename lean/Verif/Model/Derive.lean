/-!
# What the derives make of a type

`crates/musli-macros/src/internals/build.rs` (`setup`, `validate`), and which code
`crates/musli-macros/src/{en,de}.rs` emit for a type. Paths are relative to
`crates/musli-macros/src`.

Simplified: one mode and one direction, so the attributes are those which are left after `by_mode`
(`Model/Attr.lean`); names, types, bounds and patterns are opaque, only their presence matters; the
tokens emitted are summarised by which methods of the encoder or the decoder are called for which
fields, by which members the literal of the struct lists, and by whether a variable is used where it
is not in scope. Errors are listed by their kind, in any order.
-/
namespace Musli.Derive

/-- `Packing`, `internals/attr.rs:66-74`. -/
inductive Packing where
  | tagged | packed | transparent | untagged
deriving DecidableEq, Repr

/-- `StructKind`, `expander.rs:174-178, 191-195`. -/
inductive Kind where
  | indexed (n : Nat) | named | empty
deriving DecidableEq, Repr

/-- `Field`, `internals/build.rs:318-337`; whether attributes are present. -/
structure Field where
  skip : Bool := false
  dflt : Bool := false
  name : Bool := false
  pattern : Bool := false
  skipIf : Bool := false
  /-- `#[musli(with = ..)]`: there is no `size_hint_path`, `internals/attr.rs:795-807`. -/
  custom : Bool := false
deriving DecidableEq, Repr

/-- `Body`, `internals/build.rs:145-151`; `names` if `name_all` or `name(..)` is given, `713-716`. -/
structure Body where
  kind : Kind
  packing : Packing := .tagged
  fields : List Field := []
  names : Bool := false
deriving DecidableEq, Repr

/-- `Variant`, `internals/build.rs:309-316`, and whether it has `#[musli(default)]`, `548`. -/
structure Variant where
  body : Body
  fallback : Bool := false
deriving DecidableEq, Repr

/-- `Data`, and whether `tag` and `content` are given, `internals/build.rs:374-393`. -/
inductive Decl where
  | strct (tag content : Bool) (b : Body)
  | enm (tag content : Bool) (packing : Packing) (vs : List Variant)
  | union
deriving DecidableEq, Repr

/-- The errors which are reported. -/
inductive Problem where
  /-- `378`: unions -/
  | union
  /-- `549-553`: the default variant has fields -/
  | fallbackFields
  /-- `554-558`: a second default variant -/
  | fallbackTwice
  /-- `76-94`: `tag` or `content` of a struct -/
  | tagOnStruct
  /-- `97-108`: an enum which is `transparent` or `packed` -/
  | enumPacking
  /-- `109-122`: `untagged` with `tag` or `content` -/
  | untaggedTag
  /-- `128-135`: a packed variant of an enum with `tag` -/
  | packedVariant
  /-- `199-213`: a field without a default after one with a default, in a pack -/
  | packedDefault
  /-- `215-222`: names of fields of a pack -/
  | packedNames
  /-- `224-256`: not exactly one field -/
  | transparentFields
  /-- `257-262`: an `untagged` struct or variant -/
  | untagged
  /-- `266-282`: `name` or `pattern` of a field in a pack, or of a transparent field -/
  | fieldName
  /-- `284-295`: `skip_encoding_if` of a transparent field -/
  | transparentSkip
deriving DecidableEq, Repr

/-- The positions of fields which are not skipped, from `i`. -/
def unskippedFrom : Nat → List Field → List Nat
  | _, [] => []
  | i, f :: fs => if f.skip then unskippedFrom (i + 1) fs else i :: unskippedFrom (i + 1) fs

/-- `unskipped_fields`, `internals/build.rs:154-158`: the positions of the fields. -/
def Body.unskipped (b : Body) : List Nat := unskippedFrom 0 b.fields

/-- `transparent_field`, `internals/build.rs:180-190`. -/
def Body.transparentField (b : Body) : Option Nat :=
  match b.unskipped with
  | [i] => some i
  | _ => none

/-- The loop in `Body::validate`, `internals/build.rs:199-213`: an error for each field without a default behind
one with a default. -/
def packedDefaults : (last : Bool) → List Field → List Problem
  | _, [] => []
  | last, f :: fs =>
    if f.dflt then packedDefaults true fs
    else if last then .packedDefault :: packedDefaults last fs
    else packedDefaults last fs

/-- The first `match` in `Body::validate`, `internals/build.rs:199-264`. -/
def Body.validatePacking (b : Body) : List Problem :=
  match b.packing with
  | .packed => packedDefaults false (b.fields.filter fun f => !f.skip) ++ (if b.names then [.packedNames] else [])
  | .transparent => if b.transparentField.isNone then [.transparentFields] else []
  | .untagged => [.untagged]
  | .tagged => []

/-- `Body::validate`, `internals/build.rs:192-296`. -/
def Body.validate (b : Body) : List Problem :=
  b.validatePacking ++
  (if b.packing = .transparent ∨ b.packing = .packed then
    b.fields.flatMap fun f => (if f.name then [.fieldName] else []) ++ (if f.pattern then [.fieldName] else [])
  else []) ++
  (if b.packing = .transparent then b.fields.flatMap fun f => if f.skipIf then [.transparentSkip] else [] else [])

/-- The `match` on the packing of an enum, `internals/build.rs:96-124`. -/
def packingProblems (tag content : Bool) : Packing → List Problem
  | .transparent => [.enumPacking]
  | .packed => [.enumPacking]
  | .untagged => (if tag then [.untaggedTag] else []) ++ (if content then [.untaggedTag] else [])
  | .tagged => []

/-- `BuildData::validate`, `internals/build.rs:66-140`. -/
def Decl.validate : Decl → List Problem
  | .strct tag content b =>
    (if tag then [.tagOnStruct] else []) ++ (if content then [.tagOnStruct] else []) ++ b.validate
  | .enm tag content packing vs =>
    packingProblems tag content packing ++
    vs.flatMap fun v => v.body.validate ++ (if v.body.packing = .packed ∧ tag = true then [.packedVariant] else [])
  | .union => []

/-- The default variants in `setup_variant`, `internals/build.rs:548-563`. -/
def setupFallback : (seen : Bool) → List Variant → List Problem
  | _, [] => []
  | seen, v :: vs =>
    if v.fallback then
      if !v.body.fields.isEmpty then .fallbackFields :: setupFallback seen vs
      else if seen then .fallbackTwice :: setupFallback seen vs
      else setupFallback true vs
    else setupFallback seen vs

/-- The errors of `setup`, `internals/build.rs:358-386`, with which nothing more is done. -/
def Decl.setup : Decl → List Problem
  | .strct _ _ _ => []
  | .enm _ _ _ vs => setupFallback false vs
  | .union => [.union]

/-- `EnumTagging`, `internals/attr.rs:53-65`. -/
inductive Tagging where
  | default | empty | internal | adjacent
deriving DecidableEq, Repr

/-- `StructKind::Indexed(0) | StructKind::Empty`, `internals/build.rs:465`. -/
def Kind.fieldless : Kind → Bool
  | .indexed n => n == 0
  | .named => false
  | .empty => true

/-- `enum_tagging`, `internals/attr.rs:298-344`, and `internals/build.rs:458-472`. -/
def tagging (tag content : Bool) (vs : List Variant) : Tagging :=
  if tag then (if content then .adjacent else .internal)
  else if vs.all fun v => v.body.kind.fieldless then .empty
  else .default

/-- How the fields of a body are written or read: one for all, in a pack, or as entries of a map. -/
inductive Shape where
  | transparent | pack | map
deriving DecidableEq, Repr

/-- The fields which are written or read, by their position, and how. -/
structure BodyCode where
  shape : Shape
  fields : List Nat
deriving DecidableEq, Repr

/-- What is written or read for a variant. -/
inductive VariantCode where
  /-- its name -/
  | name
  /-- `encode_variant` -/
  | external (b : BodyCode)
  /-- the body -/
  | bare (b : BodyCode)
  /-- the body, with the tag as one more entry -/
  | internal (b : BodyCode)
  /-- a map with the tag and the body -/
  | adjacent (b : BodyCode)
  /-- always an error when it is used -/
  | fails
deriving DecidableEq, Repr

/-- The code for a type: one body, or one arm for variants, by their position. -/
inductive Code where
  | body (b : BodyCode)
  | arms (l : List (Nat × VariantCode))
deriving DecidableEq, Repr

/-- `encode_default`, `en.rs:178-231`. -/
def encodeDefault (b : Body) : Option BodyCode :=
  match b.packing with
  | .transparent => b.transparentField.map fun i => ⟨.transparent, [i]⟩
  | .packed => some ⟨.pack, b.unskipped⟩
  | .tagged => some ⟨.map, b.unskipped⟩
  | .untagged => none

/-- `encode_internal_variant`, `en.rs:555-658`. -/
def encodeInternal (b : Body) : Option VariantCode :=
  match b.packing with
  | .transparent =>
    match b.transparentField with
    | none => none
    | some i =>
      if (b.fields[i]?.map (·.custom)) = some true then some .fails else some (.internal ⟨.transparent, [i]⟩)
  | .packed => none
  | .tagged => some (.internal ⟨.map, b.unskipped⟩)
  | .untagged => none

/-- `encode_variant`, `en.rs:423-460`. -/
def encodeVariant (t : Tagging) (packing : Packing) (v : Variant) : Option VariantCode :=
  match t with
  | .empty => some .name
  | .default =>
    match packing with
    | .tagged => (encodeDefault v.body).map .external
    | .untagged => (encodeDefault v.body).map .bare
    | _ => none
  | .internal => encodeInternal v.body
  | .adjacent => (encodeDefault v.body).map .adjacent

/-- Positions, from `i`. -/
def number {α : Type} : Nat → List α → List (Nat × α)
  | _, [] => []
  | i, x :: l => (i, x) :: number (i + 1) l

/-- The arms, without the variants for which there is no code: `en.rs:391-403`. -/
def armsOf (f : Variant → Option VariantCode) (vs : List Variant) : List (Nat × VariantCode) :=
  (number 0 vs).filterMap fun p => (f p.2).map fun c => (p.1, c)

/-- `expand_encode_entry`, `en.rs:53-66`: the body, before errors are looked at. -/
def encodeCode : Decl → Option Code
  | .strct _ _ b => (encodeDefault b).map .body
  | .enm tag content packing vs => some (.arms (armsOf (encodeVariant (tagging tag content vs) packing) vs))
  | .union => none

/-- The derive of `Encode`, `expander.rs:358-371`, `en.rs:27-66`, `lib.rs:44-52`. -/
def deriveEncode (d : Decl) : Except (List Problem) Code :=
  if d.setup.isEmpty then
    match encodeCode d with
    | none => .error d.validate
    | some c => if d.validate.isEmpty then .ok c else .error d.validate
  else .error d.setup

/-- Code which decodes a body, and the members in the literal. -/
structure BodyDec where
  code : BodyCode
  members : List Nat
deriving DecidableEq, Repr

/-- All positions. -/
def Body.all (b : Body) : List Nat := List.range b.fields.length

/-- `decode_struct` and `decode_variant`, `de.rs:171-183, 1010-1030`: `decode_transparent` `1371-1423`, `decode_packed`
`1426-1537`, `decode_empty` `1033-1077`, `decode_tagged` `1083-1368`. -/
def decodeBody (b : Body) : Option BodyDec :=
  match b.packing, b.kind with
  | .transparent, _ => some ⟨⟨.transparent, b.unskipped⟩, b.all⟩
  | .packed, _ => some ⟨⟨.pack, b.unskipped⟩, b.unskipped⟩
  | _, .empty => some ⟨⟨.map, []⟩, []⟩
  | .tagged, _ => some ⟨⟨.map, b.unskipped⟩, b.all⟩
  | .untagged, _ => none

/-- Code which decodes a type: what it reads, the members of the literals (of a struct, or of each arm), and whether it
uses a variable which is not in scope. -/
structure Decoding where
  code : Code
  members : List (Nat × List Nat)
  unbound : Bool := false
deriving DecidableEq, Repr

/-- Whether there is a default variant, `internals/build.rs:560-562`. -/
def hasFallback (vs : List Variant) : Bool := vs.any fun v => v.fallback

/-- The arms of `decode_default_enum`, `decode_internal` and `decode_adjacent`, `de.rs:387-391, 510-514, 711-715`. -/
def decodeArms (w : BodyCode → VariantCode) (vs : List Variant) (unbound : Bool) : Decoding :=
  { code := .arms (armsOf (fun v => (decodeBody v.body).map fun d => w d.code) vs)
    members := (number 0 vs).filterMap fun p => (decodeBody p.2.body).map fun d => (p.1, d.members)
    unbound := unbound }

/-- All elements, or none. -/
def allSome {α β : Type} (f : α → Option β) : List α → Option (List β)
  | [] => some []
  | x :: l =>
    match f x with
    | none => none
    | some y => (allSome f l).map (y :: ·)

/-- `decode_enum`, `de.rs:185-208`; `decode_empty_enum` `210-271`, `decode_untagged_enum` `273-362`. The code for the default
variant, `de.rs:908-917`, skips the body with the decoder of the variant, which is a variable of the
closures in `de.rs:432-446`. In `decode_internal` the variable belongs to another closure (`630-642`, the
code is at `644-647`), and in `decode_adjacent` to another arm (`751, 763-766` and `801, 811-814`). -/
def decodeEnum (t : Tagging) (packing : Packing) (vs : List Variant) : Option Decoding :=
  if vs.isEmpty then some ⟨.arms [], [], false⟩
  else
    match t with
    | .empty => some ⟨.arms ((number 0 vs).map fun p => (p.1, .name)), (number 0 vs).map fun p => (p.1, []), false⟩
    | .default =>
      match packing with
      | .untagged =>
        (allSome (fun v => decodeBody v.body) vs).map fun l =>
          ⟨.arms ((number 0 l).map fun p => (p.1, .bare p.2.code)), (number 0 l).map fun p => (p.1, p.2.members), false⟩
      | _ => some (decodeArms .external vs false)
    | .internal => some (decodeArms .internal vs (hasFallback vs))
    | .adjacent => some (decodeArms .adjacent vs (hasFallback vs))

/-- `expand_decode_entry`, `de.rs:51-60`. -/
def decodeCode : Decl → Option Decoding
  | .strct _ _ b => (decodeBody b).map fun d => ⟨.body d.code, [(0, d.members)], false⟩
  | .enm tag content packing vs => decodeEnum (tagging tag content vs) packing vs
  | .union => none

/-- The derive of `Decode`, `expander.rs:373-386`, `de.rs:24-64`, `lib.rs:54-60`. -/
def deriveDecode (d : Decl) : Except (List Problem) Decoding :=
  if d.setup.isEmpty then
    match decodeCode d with
    | none => .error d.validate
    | some c => if d.validate.isEmpty then .ok c else .error d.validate
  else .error d.setup

end Musli.Derive
