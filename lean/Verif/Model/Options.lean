import Verif.Basic
/-!
# Model of `crates/musli/src/options.rs`
-/
namespace Musli

/-- `pub type Options = u32`, `options.rs:36`. -/
abbrev Options := BitVec 32

/-- `enum Integer`, `options.rs:340-345`. -/
inductive Integer where | variable | fixed
deriving Repr, DecidableEq

/-- `enum Float`, `options.rs:355-366`. -/
inductive Float' where | integer | variable | fixed | pad0
deriving Repr, DecidableEq

/-- `enum ByteOrder`, `options.rs:379-384`. -/
inductive ByteOrder where | little | big
deriving Repr, DecidableEq

/-- The byte order of the machine the code runs on: `ByteOrder::NATIVE`,
`options.rs:395-399`. Every theorem quantifies over it. -/
class Host where
  order : ByteOrder

/-- `enum Width`, `options.rs:447-467`. -/
inductive Width where | variable | u8 | u16 | u32 | u64 | pad0 | pad1 | pad2
deriving Repr, DecidableEq

/-- Discriminants, `options.rs:342,344`. -/
def Integer.code : Integer → Options
  | .variable => 0b0 | .fixed => 0b1
/-- Discriminants, `options.rs:358-365`. -/
def Float'.code : Float' → Options
  | .integer => 0b00 | .variable => 0b01 | .fixed => 0b10 | .pad0 => 0b11
/-- Discriminants, `options.rs:381,383`. -/
def ByteOrder.code : ByteOrder → Options
  | .little => 0 | .big => 1
/-- Discriminants, `options.rs:449-466`. -/
def Width.code : Width → Options
  | .variable => 0b000 | .u8 => 0b001 | .u16 => 0b010 | .u32 => 0b011 | .u64 => 0b100
  | .pad0 => 0b101 | .pad1 => 0b110 | .pad2 => 0b111

/-- The `match` of `integer_value`, `options.rs:239-242`. -/
def Integer.ofCode (x : Options) : Integer := if x = 0 then .variable else .fixed

/-- The `match` of `float_value`, `options.rs:259-264`. -/
def Float'.ofCode (x : Options) : Float' :=
  if x = 0b00 then .integer else if x = 0b01 then .variable
  else if x = 0b10 then .fixed else .pad0

/-- The `match` of `length_value`, `options.rs:281-290`. -/
def Width.ofCode (x : Options) : Width :=
  if x = 0b000 then .variable else if x = 0b001 then .u8 else if x = 0b010 then .u16
  else if x = 0b011 then .u32 else if x = 0b100 then .u64 else if x = 0b101 then .pad0
  else if x = 0b110 then .pad1 else .pad2

/-- The `match` of `byteorder_value`, `options.rs:307-310`. -/
def ByteOrder.ofCode (x : Options) : ByteOrder := if x = 0 then .little else .big

/-- `Width::NATIVE`, `options.rs:475-485`, for a 64-bit target. -/
def Width.native : Width := .u64

namespace Opt

/-- `BYTEORDER_BIT`, `options.rs:38`. -/
def BYTEORDER_BIT : Nat := 0
/-- `INTEGER_BIT`, `options.rs:39`. -/
def INTEGER_BIT : Nat := 4
/-- `FLOAT_BIT`, `options.rs:40`. -/
def FLOAT_BIT : Nat := 8
/-- `LENGTH_BIT`, `options.rs:41`. -/
def LENGTH_BIT : Nat := 12
/-- `MAP_KEYS_AS_NUMBERS_BIT`, `options.rs:42`. -/
def MAP_KEYS_AS_NUMBERS_BIT : Nat := 16

/-- `new().build()`, `options.rs:8-16`. -/
def new : Options := ByteOrder.little.code <<< BYTEORDER_BIT

/-- The body shared by all setters: `(self.0 & !MASK) | (v << BIT)` where
`MASK = mask << BIT`, `options.rs:55-58, 70-73, 85-88, 115-118, 134-137`. -/
def set (o mask v : Options) (bit : Nat) : Options :=
  (o &&& ~~~(mask <<< bit)) ||| (v <<< bit)

/-- `Builder::integer`, `options.rs:55-58`. -/
def setInteger (o : Options) (i : Integer) : Options := set o 0b1 i.code INTEGER_BIT
/-- `Builder::float`, `options.rs:70-73`. -/
def setFloat (o : Options) (f : Float') : Options := set o 0b11 f.code FLOAT_BIT
/-- `Builder::byte_order`, `options.rs:85-88`. -/
def setByteOrder (o : Options) (b : ByteOrder) : Options := set o 0b1 b.code BYTEORDER_BIT
/-- `Builder::pointer`, `options.rs:115-118`. -/
def setPointer (o : Options) (w : Width) : Options := set o 0b111 w.code LENGTH_BIT
/-- `Builder::map_keys_as_numbers`, `options.rs:134-137`. -/
def setMapKeysAsNumbers (o : Options) : Options := set o 0b1 1 MAP_KEYS_AS_NUMBERS_BIT
/-- `Builder::fixed`, `options.rs:161-165`. -/
def setFixed (o : Options) : Options :=
  setPointer (setFloat (setInteger o .fixed) .fixed) Width.native
/-- `Builder::variable`, `options.rs:189-193`. -/
def setVariable (o : Options) : Options :=
  setPointer (setFloat (setInteger o .variable) .variable) .variable

/-- The field of `mask` bits at `bit`: `(opt >> BIT) & MASK`. -/
def field (o mask : Options) (bit : Nat) : Options := (o >>> bit) &&& mask

/-- `integer_value`, `options.rs:238-243`. -/
def integer (o : Options) : Integer :=
  Integer.ofCode (field o 0b1 INTEGER_BIT)

/-- `float_value`, `options.rs:258-265`. -/
def float (o : Options) : Float' :=
  Float'.ofCode (field o 0b11 FLOAT_BIT)

/-- `length_value`, `options.rs:280-291`. -/
def length (o : Options) : Width :=
  Width.ofCode (field o 0b111 LENGTH_BIT)

/-- `byteorder_value`, `options.rs:306-311`. -/
def byteorder (o : Options) : ByteOrder :=
  ByteOrder.ofCode (field o 0b1 BYTEORDER_BIT)

/-- `is_map_keys_as_numbers_value`, `options.rs:319-321`. -/
def isMapKeysAsNumbers (o : Options) : Bool :=
  field o 0b1 MAP_KEYS_AS_NUMBERS_BIT == 1

/-- `is_native_fixed`, `options.rs:329-334`. -/
def isNativeFixed (o : Options) : Bool :=
  integer o = .fixed && float o = .fixed && length o = Width.native

end Opt
end Musli
