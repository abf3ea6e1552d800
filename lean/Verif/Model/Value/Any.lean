import Verif.Model.Value.Value
/-!
# `Encode` and `Decode` of `Value` itself

`value/value.rs:222-565`: encoding a `Value` in a format, and `decode_any` with the
`AnyVisitor`, for the decoders of `Value` and of the descriptive format.
-/
namespace Musli

/-! ## Encoding a `Value` -/

section
variable [Host] (o : Options)

/-- `Encode for Number`, `value/value.rs:222-253`. -/
def encNumber (F : Fmt) : Number → Enc
  | .uint w v => F.encPrim (.uint w) v
  | .sint w v => F.encPrim (.sint w) v
  | .usize v => F.encPrim .usize v
  | .isize v => F.encPrim .isize v
  | .f32 v => F.encPrim .f32 v
  | .f64 v => F.encPrim .f64 v

mutual

/-- `Encode for Value`, `value/value.rs:512-565`, in a binary format. -/
def encValue (F : Fmt) : Value → Enc
  | .unit => F.encUnit
  | .bool b => F.encPrim .bool b
  | .char c => F.encPrim .char c
  | .number n => encNumber F n
  | .bytes b => F.encBytes b
  | .string s => F.encStr s.bytes
  | .seq l => F.encSeq l.length +> encValues F l
  | .map l => F.encMap l.length +> encPairs F l
  | .variant t d => F.encVariant +> encValue F t +> encValue F d
  | .none => F.encNone
  | .some v => F.encSome +> encValue F v

/-- The elements of a sequence, `value/value.rs:531-537`. -/
def encValues (F : Fmt) : List Value → Enc
  | [] => .ok []
  | v :: l => encValue F v +> encValues F l

/-- The entries of a map, `value/value.rs:538-548`. -/
def encPairs (F : Fmt) : List (Value × Value) → Enc
  | [] => .ok []
  | p :: l => encPair F p +> encPairs F l

/-- `insert_entry`. -/
def encPair (F : Fmt) : Value × Value → Enc
  | (k, v) => encValue F k +> encValue F v

end
end

mutual

/-- `Encode for Value` with a `ValueEncoder`: a `Value` as a `Value`. -/
def copyOut : Value → Option Value
  | .unit => Option.none
  | .bool b => some (.bool b)
  | .char c => some (.char c)
  | .number n => some (.number n)
  | .bytes b => some (.bytes b)
  | .string s => some (.string s)
  | .seq l => some (.seq (copyOuts l))
  | .map l => some (.map (copyPairs l))
  | .variant t d => some (.variant ((copyOut t).getD .unit) ((copyOut d).getD .unit))
  | .none => some .none
  | .some v =>
    match copyOut v with
    | Option.none => Option.none
    | some w => some (.some w)

/-- Elements are pushed when they are written. -/
def copyOuts : List Value → List Value
  | [] => []
  | v :: l => (copyOut v).toList ++ copyOuts l

/-- Keys and values are slots. -/
def copyPairs : List (Value × Value) → List (Value × Value)
  | [] => []
  | p :: l => copyPair p :: copyPairs l

/-- One entry. -/
def copyPair : Value × Value → Value × Value
  | (k, v) => ((copyOut k).getD .unit, (copyOut v).getD .unit)

end

/-- `musli::value::encode` of a `Value`, `value/mod.rs:44-54`. -/
def valueToValue (v : Value) : Value := (copyOut v).getD .unit

/-! ## `decode_any` of a `Value` -/

mutual

/-- `Decode for Value` with a `ValueDecoder`: `decode_any` (`value/de.rs:325-373`) with the
`AnyVisitor` (`value/value.rs:277-455`). -/
def copyIn : Value → Value
  | .unit => .unit
  | .bool b => .bool b
  | .char c => .char c
  | .number n => .number n
  | .bytes b => .bytes b
  | .string s => .string s
  | .seq l => .seq (copyIns l)
  | .map l => .map (copyInPairs l)
  | .variant t d => .variant (copyIn t) (copyIn d)
  | .none => .none
  | .some v => .some (copyIn v)

/-- `visit_sequence`, `value/value.rs:395-409`. -/
def copyIns : List Value → List Value
  | [] => []
  | v :: l => copyIn v :: copyIns l

/-- `visit_map`, `value/value.rs:412-428`. -/
def copyInPairs : List (Value × Value) → List (Value × Value)
  | [] => []
  | p :: l => copyInPair p :: copyInPairs l

/-- One entry. -/
def copyInPair : Value × Value → Value × Value
  | (k, v) => (copyIn k, copyIn v)

end

/-- `musli::value::decode` as a `Value`, `value/mod.rs:60-67`. -/
def valueFromValue (v : Value) : Value := copyIn v

/-! ## `decode_any` of the descriptive format -/

namespace Desc

/-- The `match data` of `decode_any`, `descriptive/de.rs:640-690`, with the visitor. -/
def anyNumber (d : Byte) : Dec Value :=
  if d = number .w8 .unsigned then do
    let v ← decTypedUnsigned 8
    pure (.number (.uint .w8 v))
  else if d = number .w16 .unsigned then do
    let v ← decTypedUnsigned 16
    pure (.number (.uint .w16 v))
  else if d = number .w32 .unsigned then do
    let v ← decTypedUnsigned 32
    pure (.number (.uint .w32 v))
  else if d = number .w64 .unsigned then do
    let v ← decTypedUnsigned 64
    pure (.number (.uint .w64 v))
  else if d = number .w128 .unsigned then do
    let v ← decTypedUnsigned 128
    pure (.number (.uint .w128 v))
  else if d = number .w8 .signed then do
    let v ← decTypedSigned 8
    pure (.number (.sint .w8 v))
  else if d = number .w16 .signed then do
    let v ← decTypedSigned 16
    pure (.number (.sint .w16 v))
  else if d = number .w32 .signed then do
    let v ← decTypedSigned 32
    pure (.number (.sint .w32 v))
  else if d = number .w64 .signed then do
    let v ← decTypedSigned 64
    pure (.number (.sint .w64 v))
  else if d = number .w128 .signed then do
    let v ← decTypedSigned 128
    pure (.number (.sint .w128 v))
  else if d = number .w32 .float then do
    let v ← decTypedUnsigned 32
    pure (.number (.f32 v))
  else if d = number .w64 .float then do
    let v ← decTypedUnsigned 64
    pure (.number (.f64 v))
  else Dec.fail .invalid

variable [Host] (o : Options)

/-- `decode_any` of a `SelfDecoder` with the `AnyVisitor`, `descriptive/de.rs:624-742`,
`value/value.rs:277-455`. `fuel` bounds the nesting; every level reads a tag. -/
def anyV : (fuel : Nat) → Dec Value
  | 0 => Dec.fail .fuel
  | fuel + 1 => do
    let p ← Dec.peek
    match p with
    | Option.none => Dec.fail .eof
    | some t =>
      if kind t = NUMBER then
        match data t with
        | Option.none => Dec.fail .invalid
        | some d => anyNumber d
      else if kind t = SEQUENCE then do
        let n ← decTagLen o SEQUENCE
        let l ← decN (anyV fuel) n
        let _ ← endSeq o 0
        pure (.seq l)
      else if kind t = MAP then do
        let n ← decTagLen o MAP
        let l ← decN (do
          let k ← anyV fuel
          let v ← anyV fuel
          pure (k, v)) n
        let _ ← endMap o 0
        pure (.map l)
      else if kind t = BYTES then do
        let b ← decBytes o BYTES
        pure (.bytes b)
      else if kind t = STRING then do
        let b ← decBytes o STRING
        let s ← Dec.ofExcept (toStr b)
        pure (.string s)
      else if kind t = MARK then
        if mark t = mTrue ∨ mark t = mFalse then do
          let b ← decBool
          pure (.bool b)
        else if mark t = mVariant then do
          let _ ← decVariant
          let k ← anyV fuel
          let v ← anyV fuel
          pure (.variant k v)
        else if mark t = mSome ∨ mark t = mNone then do
          let b ← decOption
          if b then do
            let v ← anyV fuel
            pure (.some v)
          else pure .none
        else if mark t = mChar then do
          let c ← decChar
          pure (.char c)
        else if mark t = mUnit then do
          let _ ← skip o
          pure .unit
        else Dec.fail .invalid
      else Dec.fail .invalid

/-- `Decode for Value` with enough fuel: `descriptive::from_slice::<Value<_>>` and
`decode_buffer`, `descriptive/de.rs:268-274`. -/
def readValue : Dec Value := fun s => anyV o (s.length + 1) s

end Desc

/-- `BUFFER_OPTIONS` of the descriptive format, `descriptive/de.rs:21, 235`: the buffer is
read with these and not with the options of the encoding. -/
def Desc.bufferOptions : Options := Opt.new

/-- Decoding through a buffer: `decoder.decode_buffer()?` followed by
`buffer.as_decoder()?.decode()`, `descriptive/de.rs:270-274`, `value/value.rs:597-615`. -/
def decBuffered [Host] (o : Options) (env : Env) (t : Ty) : Dec t.Val := do
  let x ← Desc.readValue o
  Dec.ofExcept (fromValue Desc.bufferOptions env t x)

end Musli
