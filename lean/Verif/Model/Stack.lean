import Verif.Model.Codec
import Verif.Model.Json.Codec
/-!
# How deep calls nest while decoding

The decoders of `Model/Codec.lean` and `Json.skip` once more, with a stack on which only a
given number of nested calls fit. A call that does not fit aborts the process, which is
`Err.panic` here: a stack overflow is not an error one can catch.

Counted are the calls through which decoding is recursive: `Decode::decode`
(`impls/*.rs`, `musli-macros/src/de.rs`) and `skip_any` of JSON (`json/de/mod.rs:70-90`).
Every other function calls a fixed number of functions below it, and loops
(`decN`, `loopN`, the rounds of `skip_sequence_remaining`) return to the depth they
started from.
-/
namespace Musli

section
variable [Host] (o : Options) (env : Env)

mutual

/-- `decD` with room for `k` nested calls of `Decode::decode`; the lines are those of
`decD` in `Model/Codec.lean`. A bitwise copy calls nothing. -/
def decS : (k : Nat) → (t : Ty) → Mode → Dec t.Val
  | 0, _, _ => Dec.fail .panic
  | _ + 1, .prim p, m => (m.fmt o).decPrim p
  | _ + 1, .nonZero s w, m => do
    let v ← fastD ((m.fmt o).native && (nonZeroPrim s w).bwD) (unrawPrim (nonZeroPrim s w))
      ((m.fmt o).decPrim (nonZeroPrim s w))
    Dec.ofExcept (toNonZero w (nonZeroUnraw s w v))
  | _ + 1, .unit, m => (m.fmt o).decUnit
  | _ + 1, .bytes, m => (m.fmt o).decBytes
  | _ + 1, .string, m => do
    let b ← (m.fmt o).decStr
    Dec.ofExcept (toStr b)
  | _ + 1, .byteArray n, m => do
    let b ← (m.fmt o).decArr n
    Dec.ofExcept (toArray n b)
  | k + 1, .option t, m => do
    let some? ← (m.fmt o).decOption
    if some? then do
      let x ← fastD ((m.fmt o).native && t.bwD) t.rawD (decS k t m)
      pure (some x)
    else pure none
  | k + 1, .array n t, m => do
    let c ← (m.fmt o).decSeq
    if c = n then do
      let l ← decN (fastD ((m.fmt o).native && t.bwD) t.rawD (decS k t m)) n
      let _ ← (m.fmt o).endSeq 0
      Dec.ofExcept (toArray n l)
    else Dec.fail .length
  | k + 1, .vec t, m =>
    if (m.fmt o).native && t.bwD then do
      let c ← unNeLen
      decN t.rawD c
    else do
      let c ← (m.fmt o).decSeq
      let l ← decN (decS k t m) c
      let _ ← (m.fmt o).endSeq 0
      pure l
  | k + 1, .set t, m => do
    let c ← (m.fmt o).decSeq
    let l ← decN (fastD ((m.fmt o).native && t.bwD) t.rawD (decS k t m)) c
    let _ ← (m.fmt o).endSeq 0
    pure l
  | k + 1, .map t' t, m => do
    let c ← (m.fmt o).decMap
    let l ← decN (do
      let a ← fastD ((m.fmt o).native && t'.bwD) t'.rawD (decS k t' m)
      let b ← fastD ((m.fmt o).native && t.bwD) t.rawD (decS k t m)
      pure (a, b)) c
    let _ ← (m.fmt o).endMap 0
    pure l
  | k + 1, .tuple ts, m => do
    let c ← (m.fmt o).decSeq
    let (v, left) ← decTysS k ts m c
    let _ ← (m.fmt o).endSeq left
    pure v
  | k + 1, .result nt t u, m => do
    let _ ← (m.fmt o).decVariant
    let n ← decName (m.fmt o) nt
    if n = resultName nt true then do
      let x ← fastD ((m.fmt o).native && t.bwD) t.rawD (decS k t m)
      pure (Sum.inl x)
    else if n = resultName nt false then do
      let x ← fastD ((m.fmt o).native && u.bwD) u.rawD (decS k u m)
      pure (Sum.inr x)
    else Dec.fail .unknown
  | k + 1, .boxed t, m => fastD ((m.fmt o).native && t.bwD) t.rawD (decS k t m)
  | k + 1, .wrapping t, m => fastD ((m.fmt o).native && t.bwD) t.rawD (decS k t m)
  | k + 1, .transparent t, m => decS k t m
  | _ + 1, .unitStruct, m => do
    let c ← (m.fmt o).decMap
    (m.fmt o).endMap c
  | k + 1, .strct nt fs, m => do
    let c ← (m.fmt o).decMap
    let p ← loopN (fun p => do
      let n ← decName (m.fmt o) nt
      decEntryS k fs m n p) c fs.none
    let v ← Dec.ofExcept (fs.finish env p)
    let _ ← (m.fmt o).endMap 0
    pure v
  | k + 1, .packed lay fs, m =>
    if (m.fmt o).native && (lay && fs.bwD) then fs.rawD
    else (m.fmt o).decPack (decPackFieldsS k fs .packed)
  | _ + 1, .unitEnum nt names, m => do
    let n ← decName (m.fmt o) nt
    match findName n names with
    | some i => pure i
    | none => Dec.fail .unknown
  | k + 1, .enm nt vs, m => do
    let _ ← (m.fmt o).decVariant
    let n ← decName (m.fmt o) nt
    decVariantsS k vs m n

/-- The elements of a tuple, `impls/tuples.rs:84-93`: the macro writes them one after the
other, so that they all start from the same depth. -/
def decTysS : (k : Nat) → (ts : Tys) → Mode → Nat → Dec (ts.Val × Nat)
  | _, .nil, _, c => pure ((), c)
  | k, .cons t ts, m, c =>
    match c with
    | 0 => Dec.fail .length
    | c + 1 => do
      let a ← fastD ((m.fmt o).native && t.bwD) t.rawD (decS k t m)
      let (b, left) ← decTysS k ts m c
      pure ((a, b), left)

/-- One entry of a struct, `musli-macros/src/de.rs:1208-1286`. What is unknown is skipped by
a loop that counts what remains, `wire/de.rs:65-106`, `descriptive/de.rs:65-115`. -/
def decEntryS : (k : Nat) → (fs : Fields) → Mode → Name → fs.Partial → Dec fs.Partial
  | _, .nil, m, _, _ => (m.fmt o).skip
  | k, .cons n _ _ t fs, m, name, p =>
    if n = name then do
      let v ← decS k t m
      pure (some v, p.2)
    else do
      let q ← decEntryS k fs m name p.2
      pure (p.1, q)

/-- The fields of a packed struct, `musli-macros/src/de.rs:1445-1485`. -/
def decPackFieldsS : (k : Nat) → (fs : Fields) → Mode → Dec fs.Val
  | _, .nil, _ => pure ()
  | k, .cons _ _ _ t fs, m => do
    let a ← decS k t m
    let b ← decPackFieldsS k fs m
    pure (a, b)

/-- The `match` on the tag of a variant, `musli-macros/src/de.rs:364-459`. -/
def decVariantsS : (k : Nat) → (vs : Variants) → Mode → Name → Dec vs.Val
  | _, .nil, _, _ => Dec.fail .unknown
  | k, .cons n t vs, m, name =>
    if n = name then do
      let x ← decS k t m
      pure (Sum.inl x)
    else do
      let x ← decVariantsS k vs m name
      pure (Sum.inr x)

end

end

namespace Json

mutual

/-- `skip_any`, `json/de/mod.rs:70-90`, with room for `k` nested calls. It is recursive: the
brackets call `decode_map` and `decode_sequence` with a closure that does nothing, and
those skip what is left of them. As for `skipVal`, `fuel` only bounds the loops. -/
def skipValS : (fuel k : Nat) → P Unit
  | _, 0 => P.fail .panic
  | 0, _ + 1 => P.fail .fuel
  | fuel + 1, k + 1 => do
    let t ← lex
    match t with
    | .openBrace => do
      P.skip 1
      skipEntriesS fuel k true
    | .openBracket => do
      P.skip 1
      skipElemsS fuel k true
    | .null => parseExact strNull
    | .tru => parseExact strTrue
    | .fals => parseExact strFalse
    | .number => skipNumber
    | .string => do
      P.skip 1
      skipString
    | _ => P.fail .invalid

/-- `skip_sequence_remaining`, `sequence_decoder.rs:73-93`: a loop that calls
`decoder.skip()` for every element. -/
def skipElemsS : (fuel k : Nat) → (first : Bool) → P Unit
  | 0, _, _ => P.fail .fuel
  | fuel + 1, k, first => do
    let more ← nextValue first
    if more then do
      skipValS fuel k
      skipElemsS fuel k false
    else expect .closeBracket

/-- `skip_object_remaining`, `object_decoder.rs:88-110`. -/
def skipEntriesS : (fuel k : Nat) → (first : Bool) → P Unit
  | 0, _, _ => P.fail .fuel
  | fuel + 1, k, first => do
    let more ← nextKey first
    if more then do
      skipValS fuel k
      expect .colon
      skipValS fuel k
      skipEntriesS fuel k false
    else expect .closeBrace

end

/-- `Decoder::skip` with room for `k` nested calls. -/
def skipS (k : Nat) : P Unit := fun s => skipValS (skipFuel s) k s

end Json
end Musli
