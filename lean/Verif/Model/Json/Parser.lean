import Verif.Model.Codec
/-!
# JSON: parser primitives and tokens

`crates/musli/src/json/parser/{parser,slice_parser,mut_slice_parser,token}.rs`. A
parser is the list of bytes which have not been consumed yet: for
`MutSliceParser` this is the slice itself, for `SliceParser` it is
`slice[index..]`. Unlike readers of the binary formats, the parser keeps its
position when an operation fails, which is visible to users who decode from a
`&mut &str`; so failures carry what is left of the input.
-/
namespace Musli.Json
open Musli

/-- A parser: consumes a prefix of the input, and may fail at some position. -/
def P (α : Type) := Bytes → Except (Err × Bytes) (α × Bytes)

namespace P

/-- Succeed without consuming input. -/
protected def pure {α} (a : α) : P α := fun s => .ok (a, s)

/-- Run two parsers in sequence (`?` in the code). -/
protected def bind {α β} (x : P α) (f : α → P β) : P β := fun s =>
  match x s with
  | .ok (a, s') => f a s'
  | .error e => .error e

instance : Monad P where
  pure := P.pure
  bind := P.bind

/-- Fail here (`return Err(cx.message(..))`). -/
def fail {α} (e : Err) : P α := fun s => .error (e, s)

/-- Turn a check that needs no input into a parser. -/
def ofExcept {α} (x : Except Err α) : P α := fun s =>
  match x with
  | .ok a => .ok (a, s)
  | .error e => .error (e, s)

/-- `Parser::peek`, `mut_slice_parser.rs:131-133`, `slice_parser.rs:120-123`. -/
def peek : P (Option Byte) := fun s => .ok (s.head?, s)

/-- `Parser::skip`, `mut_slice_parser.rs:77-89`, `slice_parser.rs:70-84`. -/
def skip (n : Nat) : P Unit := fun s =>
  if s.length < n then .error (.eof, s) else .ok ((), s.drop n)

/-- `Parser::read`, `mut_slice_parser.rs:92-105`, `slice_parser.rs:86-103`. -/
def read (n : Nat) : P Bytes := fun s =>
  if s.length < n then .error (.eof, s) else .ok (s.take n, s.drop n)

/-- `Parser::read_byte`, `parser.rs:77-85`. -/
def readByte : P Byte
  | [] => .error (.eof, [])
  | b :: s => .ok (b, s)

theorem pure_apply {α} (a : α) (s : Bytes) : (pure a : P α) s = .ok (a, s) := rfl

theorem bind_apply {α β} (x : P α) (f : α → P β) (s : Bytes) :
    (x >>= f) s = match x s with
      | .ok (a, s') => f a s'
      | .error e => .error e := rfl

theorem bind_ok {α β} {x : P α} {f : α → P β} {s s' : Bytes} {a : α}
    (h : x s = .ok (a, s')) : (x >>= f) s = f a s' := by
  rw [bind_apply, h]

theorem bind_eq_ok {α β} {x : P α} {f : α → P β} {s : Bytes} {r : β × Bytes} :
    (x >>= f) s = .ok r ↔ ∃ a s', x s = .ok (a, s') ∧ f a s' = .ok r := by
  rw [bind_apply]
  cases h : x s with
  | error e => simp
  | ok p =>
    obtain ⟨a, s'⟩ := p
    constructor
    · intro h; exact ⟨a, s', rfl, h⟩
    · rintro ⟨a', s'', h, h'⟩; cases h; exact h'

theorem bind_eq_error {α β} {x : P α} {f : α → P β} {s : Bytes} {r : Err × Bytes} :
    (x >>= f) s = .error r ↔
      x s = .error r ∨ ∃ a s', x s = .ok (a, s') ∧ f a s' = .error r := by
  rw [bind_apply]
  cases h : x s with
  | error e => simp
  | ok p =>
    obtain ⟨a, s'⟩ := p
    constructor
    · intro h; exact .inr ⟨a, s', rfl, h⟩
    · rintro (h | ⟨a', s'', h, h'⟩)
      · cases h
      · cases h; exact h'

end P

/-- JSON whitespace, `slice_parser.rs:113-116`, `mut_slice_parser.rs:116`. -/
def isWs (b : Byte) : Bool := b == 0x20#8 || b == 0x0A#8 || b == 0x09#8 || b == 0x0D#8

/-- What `skip_whitespace` leaves, `mut_slice_parser.rs:108-128`,
`slice_parser.rs:109-120`. -/
def dropWs : Bytes → Bytes
  | [] => []
  | b :: s => if isWs b then dropWs s else b :: s

/-- `Parser::skip_whitespace`. -/
def skipWs : P Unit := fun s => .ok ((), dropWs s)

/-- Tokens, `token.rs:8-37`. -/
inductive Token where
  | comma | colon | whitespace | openBrace | closeBrace | openBracket | closeBracket
  | string | number | null | tru | fals | error | eof
deriving Repr, DecidableEq

/-- `Token::from_byte` with its table, `token.rs:45-62, 112-132`. -/
def Token.ofByte (b : Byte) : Token :=
  if isWs b || b == 0x0C#8 then .whitespace
  else if b == 0x7B#8 then .openBrace
  else if b == 0x7D#8 then .closeBrace
  else if b == 0x5B#8 then .openBracket
  else if b == 0x5D#8 then .closeBracket
  else if b == 0x2C#8 then .comma
  else if b == 0x3A#8 then .colon
  else if b == 0x22#8 then .string
  else if b == 0x2D#8 || (0x30#8 ≤ b && b ≤ 0x39#8) then .number
  else if b == 0x6E#8 then .null
  else if b == 0x74#8 then .tru
  else if b == 0x66#8 then .fals
  else .error

/-- `Token::is_value`: the `VAL_BIT`, `token.rs:65-67, 96-112`. -/
def Token.isValue : Token → Bool
  | .openBrace => true
  | .openBracket => true
  | .number => true
  | .string => true
  | .null => true
  | .tru => true
  | .fals => true
  | _ => false

/-- The token at the start of the input. -/
def tokenAt : Bytes → Token
  | [] => .eof
  | b :: _ => Token.ofByte b

/-- `Parser::lex`: skip whitespace and look at the next byte, `parser.rs:127-138`. -/
def lex : P Token := fun s => .ok (tokenAt (dropWs s), dropWs s)

/-- `Parser::parse_exact`, `parser.rs:151-171`. -/
def parseExact (exact : Bytes) : P Unit := do
  let b ← P.read exact.length
  if b = exact then pure () else P.fail .invalid

/-- `null` -/
def strNull : Bytes := [0x6E#8, 0x75#8, 0x6C#8, 0x6C#8]
/-- `true` -/
def strTrue : Bytes := [0x74#8, 0x72#8, 0x75#8, 0x65#8]
/-- `false` -/
def strFalse : Bytes := [0x66#8, 0x61#8, 0x6C#8, 0x73#8, 0x65#8]

/-- `lex`, fail unless it is the given token, then skip it: the preambles of
`sequence_decoder.rs:27-44`, `object_decoder.rs:38-55, 95-104`,
`object_pair_decoder.rs:53-64`, `variant_decoder.rs:22-49`. -/
def expect (t : Token) : P Unit := do
  let actual ← lex
  if actual = t then P.skip 1 else P.fail .invalid

/-! ## Strings -/

/-- Bytes which need attention inside of a string: `ESCAPE`,
`parser/string.rs:13-38`. -/
def needsEscape (b : Byte) : Bool := b ≤ 0x1F#8 || b == 0x22#8 || b == 0x5C#8

/-- `decode_hex_val` with its table, `parser/string.rs:415-447`. -/
def hexVal (b : Byte) : Option Nat :=
  if 0x30#8 ≤ b && b ≤ 0x39#8 then some (b.toNat - 0x30)
  else if 0x41#8 ≤ b && b ≤ 0x46#8 then some (b.toNat - 0x41 + 10)
  else if 0x61#8 ≤ b && b ≤ 0x66#8 then some (b.toNat - 0x61 + 10)
  else none

/-- `parse_hex_escape`, `parser/string.rs:85-106`. The `u16` arithmetic `(n << 4) +
val` cannot overflow in four rounds. -/
def hexEscape : P Nat := fun s =>
  match s with
  | a :: b :: c :: d :: s' =>
    match hexVal a, hexVal b, hexVal c, hexVal d with
    | some a, some b, some c, some d => .ok (((a * 16 + b) * 16 + c) * 16 + d, s')
    | _, _, _, _ => .error (.invalid, s)
  | _ => .error (.eof, s)

/-- `char::from_u32` followed by `encode_utf8`. -/
def utf8Of (n : Nat) : Except Err Bytes :=
  if h : n.isValidChar then .ok (Utf8.encodeChar (Char.ofNatAux n h)) else .error .invalid

/-- The scalar value of a surrogate pair, `parser/string.rs:189`. -/
def surrogatePair (n1 n2 : Nat) : Nat := ((n1 - 0xD800) <<< 10 ||| (n2 - 0xDC00)) + 0x10000

/-- `parse_escape` with `validate = true` (its only use, `de/mod.rs:190, 331`,
`key_decoder.rs:41`): the bytes of one escape, after the backslash,
`parser/string.rs:110-214`. The scratch buffer is assumed not to run out of
memory. -/
def parseEscape : P Bytes := do
  let b ← P.readByte
  if b == 0x22#8 then pure [0x22#8]
  else if b == 0x5C#8 then pure [0x5C#8]
  else if b == 0x2F#8 then pure [0x2F#8]
  else if b == 0x62#8 then pure [0x08#8]
  else if b == 0x66#8 then pure [0x0C#8]
  else if b == 0x6E#8 then pure [0x0A#8]
  else if b == 0x72#8 then pure [0x0D#8]
  else if b == 0x74#8 then pure [0x09#8]
  else if b == 0x75#8 then do
    let n ← hexEscape
    if 0xDC00 ≤ n ∧ n ≤ 0xDFFF then P.fail .invalid
    else if 0xD800 ≤ n ∧ n ≤ 0xDBFF then do
      let x ← P.readByte
      if x != 0x5C#8 then P.fail .invalid
      else do
        let y ← P.readByte
        if y != 0x75#8 then P.fail .invalid
        else do
          let n2 ← hexEscape
          if 0xDC00 ≤ n2 ∧ n2 ≤ 0xDFFF then P.ofExcept (utf8Of (surrogatePair n n2))
          else P.fail .invalid
    else P.ofExcept (utf8Of n)
  else P.fail .invalid

/-- `skip_escape` with `validate = true` (its only use, `parser/string.rs:395`),
`parser/string.rs:218-290`. -/
def skipEscape : P Unit := do
  let b ← P.readByte
  if b == 0x22#8 || b == 0x5C#8 || b == 0x2F#8 || b == 0x62#8 || b == 0x66#8 || b == 0x6E#8
    || b == 0x72#8 || b == 0x74#8 then pure ()
  else if b == 0x75#8 then do
    let n ← hexEscape
    if 0xDC00 ≤ n ∧ n ≤ 0xDFFF then P.fail .invalid
    else if 0xD800 ≤ n ∧ n ≤ 0xDBFF then do
      let x ← P.readByte
      if x != 0x5C#8 then P.fail .invalid
      else do
        let y ← P.readByte
        if y != 0x75#8 then P.fail .invalid
        else do
          let n2 ← hexEscape
          if 0xDC00 ≤ n2 ∧ n2 ≤ 0xDFFF then do
            let _ ← P.ofExcept (utf8Of (surrogatePair n n2))
            pure ()
          else P.fail .invalid
    else pure ()
  else P.fail .invalid

/-- The longest prefix of bytes that need no attention, and the rest:
`parser/string.rs:307-310, 379-386`. -/
def spanPlain : Bytes → Bytes × Bytes
  | [] => ([], [])
  | b :: s => if needsEscape b then ([], b :: s) else
    let (x, y) := spanPlain s
    (b :: x, y)

/-- `check_utf8`, `parser/string.rs:406-412`. -/
def checkUtf8 (b : Bytes) : Except Err Unit := if Utf8.valid b then .ok () else .error .utf8

/-- The loop of `parse_string` with `validate = true`, `parser/string.rs:303-373`. `scratch`
holds what was parsed before. `fuel` bounds the number of rounds; every round
consumes input. -/
def strLoop : (fuel : Nat) → (scratch : Bytes) → P Bytes
  | 0, _ => P.fail .fuel
  | fuel + 1, scratch => fun s =>
    let seg := (spanPlain s).1
    match (spanPlain s).2 with
    | [] => .error (.eof, [])
    | b :: s' =>
      if b == 0x22#8 then
        match checkUtf8 seg with
        | .error e => .error (e, if scratch.isEmpty then s' else b :: s')
        | .ok () => .ok (scratch ++ seg, s')
      else if b == 0x5C#8 then
        match checkUtf8 seg with
        | .error e => .error (e, b :: s')
        | .ok () => (do
          let x ← parseEscape
          strLoop fuel (scratch ++ seg ++ x)) s'
      else .error (.invalid, b :: s')

/-- `parse_string_inner`: a string after its opening quote. -/
def parseStringInner : P Bytes := fun s => strLoop (s.length + 1) [] s

/-- `Parser::parse_string`, `parser.rs:41-60`. -/
def parseString : P Bytes := do
  expect .string
  parseStringInner

/-- The loop of `skip_string`, `parser/string.rs:377-402`. -/
def skipStrLoop : (fuel : Nat) → P Unit
  | 0 => P.fail .fuel
  | fuel + 1 => fun s =>
    match (spanPlain s).2 with
    | [] => .error (.eof, [])
    | b :: s' =>
      if b == 0x22#8 then .ok ((), s')
      else if b == 0x5C#8 then (do
        skipEscape
        skipStrLoop fuel) s'
      else .error (.invalid, s')

/-- `skip_string_inner`: skip a string after its opening quote. -/
def skipString : P Unit := fun s => skipStrLoop (s.length + 1) s

/-! ## Encoding strings -/

/-- `HEX_DIGITS`, `en/mod.rs:383`. -/
def hexDigit (n : Nat) : Byte :=
  if n < 10 then BitVec.ofNat 8 (0x30 + n) else BitVec.ofNat 8 (0x61 + n - 10)

/-- `write_escape` with the table `ESCAPE`, `en/mod.rs:362-413`. -/
def writeEscape (b : Byte) : Bytes :=
  if b == 0x08#8 then [0x5C#8, 0x62#8]
  else if b == 0x09#8 then [0x5C#8, 0x74#8]
  else if b == 0x0A#8 then [0x5C#8, 0x6E#8]
  else if b == 0x0C#8 then [0x5C#8, 0x66#8]
  else if b == 0x0D#8 then [0x5C#8, 0x72#8]
  else if b == 0x22#8 then [0x5C#8, 0x22#8]
  else if b == 0x5C#8 then [0x5C#8, 0x5C#8]
  else [0x5C#8, 0x75#8, 0x30#8, 0x30#8, hexDigit (b.toNat / 16), hexDigit (b.toNat % 16)]

/-- The loop of `encode_string`, `en/mod.rs:314-344`: `pending` is
`bytes[start..i]`. -/
def encStrLoop (pending : Bytes) : Bytes → Bytes
  | [] => pending
  | b :: s =>
    if needsEscape b then pending ++ writeEscape b ++ encStrLoop [] s
    else encStrLoop (pending ++ [b]) s

/-- `encode_string`, `en/mod.rs:314-344`. -/
def encodeString (b : Bytes) : Bytes := 0x22#8 :: encStrLoop [] b ++ [0x22#8]

end Musli.Json
