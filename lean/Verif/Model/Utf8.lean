import Verif.Basic
/-!
# UTF-8

`core::str::from_utf8` (called through `crates/musli/src/str.rs`) is part of Rust's
standard library; `valid` is its documented acceptance condition: the
well-formed byte sequences of table 3-7 of the Unicode standard.
-/
namespace Musli.Utf8

/-- A continuation byte `10xxxxxx`. -/
def isCont (b : Byte) : Bool := b &&& 0xC0#8 == 0x80#8

/-- Is `b` between `lo` and `hi`? -/
def inRange (b lo hi : Byte) : Bool := lo ≤ b && b ≤ hi

/-- Well-formed two byte prefix. -/
def ok2 (a b : Byte) : Bool := inRange a 0xC2#8 0xDF#8 && isCont b

/-- Well-formed three byte sequence. -/
def ok3 (a b c : Byte) : Bool :=
  ((a == 0xE0#8 && inRange b 0xA0#8 0xBF#8)
    || (inRange a 0xE1#8 0xEC#8 && isCont b)
    || (a == 0xED#8 && inRange b 0x80#8 0x9F#8)
    || (inRange a 0xEE#8 0xEF#8 && isCont b)) && isCont c

/-- Well-formed four byte sequence. -/
def ok4 (a b c d : Byte) : Bool :=
  ((a == 0xF0#8 && inRange b 0x90#8 0xBF#8)
    || (inRange a 0xF1#8 0xF3#8 && isCont b)
    || (a == 0xF4#8 && inRange b 0x80#8 0x8F#8)) && isCont c && isCont d

/-- `str::from_utf8(..).is_ok()`. -/
def valid : Bytes → Bool
  | [] => true
  | a :: s =>
    if a < 0x80#8 then valid s
    else match s with
      | [] => false
      | b :: s =>
        if ok2 a b then valid s
        else match s with
          | [] => false
          | c :: s =>
            if ok3 a b c then valid s
            else match s with
              | [] => false
              | d :: s => if ok4 a b c d then valid s else false

/-- The UTF-8 encoding of a scalar value (`char::encode_utf8`). -/
def encodeChar (c : Char) : Bytes :=
  let n := c.toNat
  if n < 0x80 then [BitVec.ofNat 8 n]
  else if n < 0x800 then
    [BitVec.ofNat 8 (0xC0 + n / 64), BitVec.ofNat 8 (0x80 + n % 64)]
  else if n < 0x10000 then
    [BitVec.ofNat 8 (0xE0 + n / 4096), BitVec.ofNat 8 (0x80 + n / 64 % 64),
     BitVec.ofNat 8 (0x80 + n % 64)]
  else
    [BitVec.ofNat 8 (0xF0 + n / 262144), BitVec.ofNat 8 (0x80 + n / 4096 % 64),
     BitVec.ofNat 8 (0x80 + n / 64 % 64), BitVec.ofNat 8 (0x80 + n % 64)]

/-- The UTF-8 encoding of a list of scalar values. -/
def encode (cs : List Char) : Bytes := cs.flatMap encodeChar

end Musli.Utf8

namespace Musli

/-- A `str`: bytes known to be UTF-8. -/
structure Str where
  bytes : Bytes
  valid : Utf8.valid bytes = true
deriving DecidableEq

end Musli
