import Verif.Spec.Base128
import Verif.Spec.Evolution
/-!
# The documents of the binary formats

What the documents of the storage, packed, wire and descriptive formats look like and
which values they stand for, written as a grammar and without reference to the
encoders and decoders. Tags are numbers here, not bit patterns.

A `Gram` is a set of texts; whether a text belongs to it may depend on what follows
the text, which only options in packs make use of.
-/
namespace Musli.Grammar
open Musli Musli.Spec

/-- A set of texts (first argument), depending on what follows (second argument). -/
abbrev Gram := Bytes → Bytes → Prop

/-- Exactly this text. -/
def lit (x : Bytes) : Gram := fun s _ => s = x

/-- One after the other. -/
def cat (p q : Gram) : Gram := fun s r => ∃ a b, s = a ++ b ∧ p a (b ++ r) ∧ q b r

@[inherit_doc] infixr:67 " ⬝ " => cat

/-- Several, one after the other. -/
def each : List Gram → Gram
  | [] => lit []
  | p :: ps => p ⬝ each ps

/-- A text that belongs to one of several. -/
def some' {α : Type} (g : α → Gram) : Gram := fun s r => ∃ a, g a s r

/-! ## Numbers -/

/-- Bytes as a number, least significant first. -/
def little : Bytes → Nat
  | [] => 0
  | b :: s => b.toNat + 256 * little s

/-- Bytes as a number in the given byte order. -/
def fixed : ByteOrder → Bytes → Nat
  | .little, s => little s
  | .big, s => little s.reverse

/-- `n` as a fixed number of bytes, for `w` bits. -/
def FixNum (bo : ByteOrder) (w n : Nat) (s : Bytes) : Prop := s.length = w / 8 ∧ fixed bo s = n

/-- `n` in groups of seven bits, for a type of `w` bits. There may be leading zeros, up
to the number of groups for `w` bits; bits beyond `w` are dropped, see C05. -/
def VarNum (w n : Nat) (s : Bytes) : Prop :=
  WellFormed s ∧ s.length ≤ (w + 6) / 7 ∧ denote s % 2 ^ w = n

/-- 0, -1, 1, -2, 2, ... in this order. -/
def zig (n : Int) : Nat := if 0 ≤ n then (2 * n).toNat else (-2 * n - 1).toNat

/-- The bits of a length. -/
def lenBits : Width → Nat
  | .u8 => 8
  | .u16 => 16
  | .u32 => 32
  | _ => 64

/-- A length. -/
def Len (o : Options) (n : Nat) (s : Bytes) : Prop :=
  match Opt.length o with
  | .variable => VarNum 64 n s
  | width => FixNum (Opt.byteorder o) (lenBits width) n s

/-- An unsigned number. -/
def Num (o : Options) (w n : Nat) (s : Bytes) : Prop :=
  match Opt.integer o with
  | .variable => VarNum w n s
  | .fixed => FixNum (Opt.byteorder o) w n s

/-- A byte that is `n`. -/
def byte (n : Nat) : Byte := BitVec.ofNat 8 n

/-- What the formats differ in. -/
structure Lex where
  /-- primitive values -/
  prim : (p : Prim) → p.Val → Bytes → Prop
  /-- `()` -/
  unit : Bytes → Prop
  /-- bytes -/
  bytes : Bytes → Bytes → Prop
  /-- byte arrays -/
  arr : Bytes → Bytes → Prop
  /-- strings -/
  str : Bytes → Bytes → Prop
  /-- `None` -/
  none : Gram
  /-- what precedes the value in `Some` -/
  some : Gram
  /-- what precedes the elements of a sequence -/
  seq : Nat → Bytes → Prop
  /-- elements of a tuple which are too many -/
  seqRest : Nat → Bytes → Prop
  /-- what precedes the entries of a map -/
  map : Nat → Bytes → Prop
  /-- entries of a map where none are expected -/
  mapRest : Nat → Bytes → Prop
  /-- what precedes the tag of a variant -/
  variant : Bytes → Prop
  /-- a pack with the given contents -/
  pack : Gram → Gram
  /-- the value of an unknown field -/
  unknown : Bytes → Prop

/-- A text that does not depend on what follows. -/
def plain (p : Bytes → Prop) : Gram := fun s _ => p s

/-! ## Storage and packed -/

namespace Storage

/-- Primitive values. -/
def PrimDoc (o : Options) : (p : Prim) → p.Val → Bytes → Prop
  | .bool, v, s => s = [if v then 1#8 else 0#8]
  | .char, v, s => Num o 32 v.toNat s
  | .uint .w8, v, s => s = [v]
  | .uint .w16, v, s => Num o 16 (BitVec.toNat (w := 16) v) s
  | .uint .w32, v, s => Num o 32 (BitVec.toNat (w := 32) v) s
  | .uint .w64, v, s => Num o 64 (BitVec.toNat (w := 64) v) s
  | .uint .w128, v, s => Num o 128 (BitVec.toNat (w := 128) v) s
  | .sint .w8, v, s => s = [v]
  | .sint .w16, v, s => signed 16 v s
  | .sint .w32, v, s => signed 32 v s
  | .sint .w64, v, s => signed 64 v s
  | .sint .w128, v, s => signed 128 v s
  | .usize, v, s => Len o (BitVec.toNat (w := 64) v) s
  | .isize, v, s => Len o (BitVec.toNat (w := 64) v) s
  | .f32, v, s => Num o 32 (BitVec.toNat (w := 32) v) s
  | .f64, v, s => Num o 64 (BitVec.toNat (w := 64) v) s
where
  /-- Signed numbers: two's complement or zig-zag. -/
  signed (w : Nat) (v : BitVec w) (s : Bytes) : Prop :=
    match Opt.integer o with
    | .variable => VarNum w (zig v.toInt) s
    | .fixed => FixNum (Opt.byteorder o) w v.toNat s

/-- Bytes after their number. -/
def Counted (o : Options) (b s : Bytes) : Prop := ∃ h, Len o b.length h ∧ s = h ++ b

/-- The storage format; with `pack` the packed format and the inside of packs. An
option in a pack is present iff the pack has not ended. Any first byte but 1 is
`None`. -/
def lex (pack : Bool) (o : Options) : Lex where
  prim := PrimDoc o
  unit := Len o 0
  bytes := Counted o
  arr b s := s = b
  str := Counted o
  none := if pack then fun s r => s = [] ∧ r = [] else plain fun s => ∃ x, x ≠ 1#8 ∧ s = [x]
  some := if pack then fun s r => s = [] ∧ r ≠ [] else lit [1#8]
  seq := Len o
  seqRest n s := n = 0 ∧ s = []
  map := Len o
  mapRest n s := n = 0 ∧ s = []
  variant s := s = []
  pack g := g
  unknown _ := False

end Storage

/-! ## Wire -/

namespace Wire

/-- A tag of kind `k` with the number `n`, which follows the tag from 63 on. -/
def Tag (o : Options) (k n : Nat) (s : Bytes) : Prop :=
  (n < 63 ∧ s = [byte (k + n)]) ∨ (∃ l, Len o n l ∧ s = byte (k + 63) :: l)

/-- A number of up to `w` bits in variable length. -/
def SmallNum (w n : Nat) (s : Bytes) : Prop :=
  (n < 63 ∧ s = [byte (0xC0 + n)]) ∨ (∃ l, VarNum w n l ∧ s = 0xFF#8 :: l)

/-- A number. -/
def Unsigned (o : Options) (w n : Nat) (s : Bytes) : Prop :=
  match Opt.integer o with
  | .variable => SmallNum w n s
  | .fixed => ∃ l, FixNum (Opt.byteorder o) w n l ∧ s = byte (0x40 + w / 8) :: l

/-- The tag of a `usize` of fixed width. It should be 0x40 plus the number of bytes, but
is twice that, see C13. -/
def lenTag : Width → Byte
  | .u8 => 0x42#8
  | .u16 => 0x44#8
  | .u32 => 0x48#8
  | .u64 => 0x50#8
  | .pad0 => 0x60#8
  | .pad1 => 0x40#8
  | .pad2 => 0xC0#8
  | .variable => 0x41#8

/-- A `usize`. -/
def Usize (o : Options) (n : Nat) (s : Bytes) : Prop :=
  match Opt.length o with
  | .variable => SmallNum 64 n s
  | width => ∃ l, FixNum (Opt.byteorder o) (lenBits width) n l ∧ s = lenTag width :: l

/-- Primitive values. -/
def PrimDoc (o : Options) : (p : Prim) → p.Val → Bytes → Prop
  | .bool, v, s => s = [if v then 0xC1#8 else 0xC0#8]
  | .char, v, s => Unsigned o 32 v.toNat s
  | .uint w, v, s => Unsigned o w.bits (BitVec.toNat (w := w.bits) v) s
  | .sint .w8, v, s => Unsigned o 8 (BitVec.toNat (w := 8) v) s
  | .sint .w16, v, s => Unsigned o 16 (zig (BitVec.toInt (n := 16) v)) s
  | .sint .w32, v, s => Unsigned o 32 (zig (BitVec.toInt (n := 32) v)) s
  | .sint .w64, v, s => Unsigned o 64 (zig (BitVec.toInt (n := 64) v)) s
  | .sint .w128, v, s => Unsigned o 128 (zig (BitVec.toInt (n := 128) v)) s
  | .usize, v, s => Usize o (BitVec.toNat (w := 64) v) s
  | .isize, v, s => Usize o (BitVec.toNat (w := 64) v) s
  | .f32, v, s => Unsigned o 32 (BitVec.toNat (w := 32) v) s
  | .f64, v, s => Unsigned o 64 (BitVec.toNat (w := 64) v) s

/-- Any value at all. -/
inductive Item (o : Options) : Bytes → Prop
  | bytes {n h b} : Tag o 0x40 n h → b.length = n → Item o (h ++ b)
  | seq {n h} {items : List Bytes} : Tag o 0x80 n h → items.length = n →
      (∀ x ∈ items, Item o x) → Item o (h ++ items.flatten)
  | small {n} : n < 63 → Item o [byte (0xC0 + n)]
  | large {n l} : VarNum 128 n l → Item o (0xFF#8 :: l)

/-- `n` values of any kind. -/
def Items (o : Options) (n : Nat) (s : Bytes) : Prop :=
  ∃ items : List Bytes, items.length = n ∧ (∀ x ∈ items, Item o x) ∧ s = items.flatten

/-- Bytes after their number. -/
def Counted (o : Options) (b s : Bytes) : Prop := ∃ h, Tag o 0x40 b.length h ∧ s = h ++ b

/-- The wire format. The entries of a map are a sequence of twice as many values; the
number may be odd, and the decoder then rounds down. -/
def lex (o : Options) : Lex where
  prim := PrimDoc o
  unit := Item o
  bytes := Counted o
  arr := Counted o
  str := Counted o
  none := lit [0x80#8]
  some := lit [0x81#8]
  seq := Tag o 0x80
  seqRest := Items o
  map n s := Tag o 0x80 (2 * n) s ∨ Tag o 0x80 (2 * n + 1) s
  mapRest n := Items o (2 * n)
  variant s := s = [0x82#8]
  pack g s _ := ∃ h a b, Tag o 0x40 (a ++ b).length h ∧ g a b ∧ s = h ++ (a ++ b)
  unknown := Item o

end Wire

/-! ## Descriptive -/

namespace Desc

/-- A tag of kind `k` with the number `n`, which follows the tag from 31 on. -/
def Tag (o : Options) (k n : Nat) (s : Bytes) : Prop :=
  (n < 31 ∧ s = [byte (k + n)]) ∨ (∃ l, Len o n l ∧ s = byte (k + 31) :: l)

/-- A number: the lowest two bits of the tag say whether it is signed (0), unsigned (1) or
a float (2). -/
def Number (kind w n : Nat) (s : Bytes) : Prop :=
  ∃ t l, VarNum w n l ∧ 0x40 ≤ t ∧ t < 0x60 ∧ t % 4 = kind ∧ s = byte t :: l

/-- A number that is read as unsigned. -/
def Unsigned (w n : Nat) (s : Bytes) : Prop :=
  Number 1 w n s ∨ Number 2 w n s ∨ Number 0 w (2 * n) s

/-- A number that is read as signed. -/
def Signed (w : Nat) (n : Int) (s : Bytes) : Prop :=
  Number 0 w (zig n) s ∨ (0 ≤ n ∧ Number 1 w n.toNat s)

/-- Primitive values. -/
def PrimDoc : (p : Prim) → p.Val → Bytes → Prop
  | .bool, v, s => s = [if v then 0xE2#8 else 0xE3#8]
  | .char, v, s => ∃ l, VarNum 32 v.toNat l ∧ s = 0xE5#8 :: l
  | .uint w, v, s => Unsigned w.bits (BitVec.toNat (w := w.bits) v) s
  | .sint w, v, s => Signed w.bits (BitVec.toInt (n := w.bits) v) s
  | .usize, v, s => Unsigned 64 (BitVec.toNat (w := 64) v) s
  | .isize, v, s => Signed 64 (BitVec.toInt (n := 64) v) s
  | .f32, v, s => Unsigned 32 (BitVec.toNat (w := 32) v) s
  | .f64, v, s => Unsigned 64 (BitVec.toNat (w := 64) v) s

/-- Any value at all. Marks are told apart by their lowest three bits. -/
inductive Item (o : Options) : Bytes → Prop
  | number {t n l} : VarNum 128 n l → 0x40 ≤ t → t < 0x60 → Item o (byte t :: l)
  | bytes {k n h b} : k = 0xA0 ∨ k = 0xC0 → Tag o k n h → b.length = n → Item o (h ++ b)
  | seq {n h} {items : List Bytes} : Tag o 0x60 n h → items.length = n →
      (∀ x ∈ items, Item o x) → Item o (h ++ items.flatten)
  | map {n h} {items : List Bytes} : Tag o 0x80 n h → items.length = 2 * n →
      (∀ x ∈ items, Item o x) → Item o (h ++ items.flatten)
  | variant {t a b} : 0xE0 ≤ t → t < 0x100 → t % 8 = 4 → Item o a → Item o b →
      Item o (byte t :: (a ++ b))
  | some {t a} : 0xE0 ≤ t → t < 0x100 → t % 8 = 1 → Item o a → Item o (byte t :: a)
  | char {t n l} : 0xE0 ≤ t → t < 0x100 → t % 8 = 5 → VarNum 32 n l → Item o (byte t :: l)
  | mark {t} : 0xE0 ≤ t → t < 0x100 → t % 8 ∉ [1, 4, 5] → Item o [byte t]

/-- `n` values of any kind. -/
def Items (o : Options) (n : Nat) (s : Bytes) : Prop :=
  ∃ items : List Bytes, items.length = n ∧ (∀ x ∈ items, Item o x) ∧ s = items.flatten

/-- Bytes after their number. -/
def Counted (o : Options) (k : Nat) (b s : Bytes) : Prop :=
  ∃ h, Tag o k b.length h ∧ s = h ++ b

/-- The descriptive format. Only one of the elements of a tuple which are too many is
skipped, see C18. -/
def lex (o : Options) : Lex where
  prim := PrimDoc
  unit := Item o
  bytes := Counted o 0xA0
  arr := Counted o 0xA0
  str := Counted o 0xC0
  none := lit [0xE0#8]
  some := lit [0xE1#8]
  seq := Tag o 0x60
  seqRest n s := (n = 0 ∧ s = []) ∨ (n ≠ 0 ∧ Item o s)
  map := Tag o 0x80
  mapRest n := Items o (2 * n)
  variant s := s = [0xE4#8]
  pack g s _ := ∃ h a b, Tag o 0xA0 (a ++ b).length h ∧ g a b ∧ s = h ++ (a ++ b)
  unknown := Item o

end Desc

/-- The lexical part of a format. -/
def lexOf (o : Options) : Mode → Lex
  | .storage => Storage.lex false o
  | .packed => Storage.lex true o
  | .wire => Wire.lex o
  | .descriptive => Desc.lex o

/-! ## Values -/

/-- A field name or variant tag. -/
def NameDoc (L : Lex) : Name → Gram
  | .idx n => plain (L.prim .usize n)
  | .str n => plain (L.str n.bytes)

/-- An entry of a struct: a field, whose value is as in `known`, or something else. -/
def entryDoc (L : Lex) (fs : Fields) (known : fs.Known → Gram) : fs.Known ⊕ Name → Gram
  | .inl k => NameDoc L (fs.keyOf k) ⬝ known k
  | .inr n => NameDoc L n ⬝ plain L.unknown

section
variable (o : Options) (env : Env)

mutual

/-- The documents for a value, without the bitwise fast path. -/
def Doc : (t : Ty) → Mode → t.Val → Gram
  | .prim p, m, v => plain ((lexOf o m).prim p v)
  | .nonZero signed w, m, v =>
    plain ((lexOf o m).prim (nonZeroPrim signed w) (nonZeroRaw signed w v.1))
  | .unit, m, _ => plain (lexOf o m).unit
  | .bytes, m, v => plain ((lexOf o m).bytes v)
  | .string, m, v => plain ((lexOf o m).str v.bytes)
  | .byteArray _, m, v => plain ((lexOf o m).arr v.1)
  | .option t, m, v =>
    match v with
    | none => (lexOf o m).none
    | some x => (lexOf o m).some ⬝ Doc t m x
  | .array _ t, m, v => plain ((lexOf o m).seq v.1.length) ⬝ each (v.1.map (Doc t m))
  | .vec t, m, v => plain ((lexOf o m).seq v.length) ⬝ each (v.map (Doc t m))
  | .set t, m, v => plain ((lexOf o m).seq v.length) ⬝ each (v.map (Doc t m))
  | .map k t, m, v =>
    plain ((lexOf o m).map v.length) ⬝ each (v.map fun x => Doc k m x.1 ⬝ Doc t m x.2)
  /- there may be more elements -/
  | .tuple ts, m, v => some' fun n =>
    plain ((lexOf o m).seq (ts.length + n)) ⬝ each (docTys ts m v) ⬝ plain ((lexOf o m).seqRest n)
  | .result nt t u, m, v => plain (lexOf o m).variant ⬝
    match v with
    | .inl x => NameDoc (lexOf o m) (resultName nt true) ⬝ Doc t m x
    | .inr x => NameDoc (lexOf o m) (resultName nt false) ⬝ Doc u m x
  | .boxed t, m, v => Doc t m v
  | .wrapping t, m, v => Doc t m v
  | .transparent t, m, v => Doc t m v
  /- any map is a struct without fields -/
  | .unitStruct, m, _ => some' fun n =>
    plain ((lexOf o m).map n) ⬝ plain ((lexOf o m).mapRest n)
  /- entries for the fields in any order, the last one of which counts, together
  with entries that are not for a field -/
  | .strct nt fs, m, v => fun s r => ∃ es : List (fs.Known ⊕ Name),
      (∀ n, .inr n ∈ es → n ∉ fs.names ∧ n.ty = nt) ∧
      fs.assemble env (es.filterMap Sum.getLeft?) = .ok v ∧
      (plain ((lexOf o m).map es.length) ⬝ each (es.map (entryDoc (lexOf o m) fs (docKnown fs m)))) s r
  | .packed _ fs, m, v => (lexOf o m).pack (each (docPack fs v))
  | .unitEnum _ names, m, v => NameDoc (lexOf o m) names[v]
  | .enm _ vs, m, v => plain (lexOf o m).variant ⬝ docVariant vs m v

/-- The elements of a tuple. -/
def docTys : (ts : Tys) → Mode → ts.Val → List Gram
  | .nil, _, _ => []
  | .cons t ts, m, v => Doc t m v.1 :: docTys ts m v.2

/-- The value of a field. -/
def docKnown : (fs : Fields) → Mode → fs.Known → Gram
  | .nil, _, k => nomatch k
  | .cons _ _ _ t fs, m, k =>
    match k with
    | .inl v => Doc t m v
    | .inr k => docKnown fs m k

/-- The fields of a packed struct. -/
def docPack : (fs : Fields) → fs.Val → List Gram
  | .nil, _ => []
  | .cons _ _ _ t fs, v => Doc t .packed v.1 :: docPack fs v.2

/-- The tag and the body of a variant. -/
def docVariant : (vs : Variants) → Mode → vs.Val → Gram
  | .nil, _, v => nomatch v
  | .cons n t vs, m, v =>
    match v with
    | .inl x => NameDoc (lexOf o m) n ⬝ Doc t m x
    | .inr x => docVariant vs m x

end
end

mutual

/-- In every struct and enum names are distinct and have the declared type, which the
derive macro and the compiler guarantee. -/
def Named : Ty → Bool
  | .option t => Named t
  | .array _ t => Named t
  | .vec t => Named t
  | .set t => Named t
  | .map k t => Named k && Named t
  | .tuple ts => namedTys ts
  | .result _ t u => Named t && Named u
  | .boxed t => Named t
  | .wrapping t => Named t
  | .transparent t => Named t
  | .strct nt fs => namesOk nt fs.names && namedFields fs
  | .packed _ fs => namedFields fs
  | .unitEnum nt names => namesOk nt names
  | .enm nt vs => namesOk nt vs.names && namedVariants vs
  | _ => true

/-- As above. -/
def namedTys : Tys → Bool
  | .nil => true
  | .cons t ts => Named t && namedTys ts

/-- As above. -/
def namedFields : Fields → Bool
  | .nil => true
  | .cons _ _ _ t fs => Named t && namedFields fs

/-- As above. -/
def namedVariants : Variants → Bool
  | .nil => true
  | .cons _ t vs => Named t && namedVariants vs

end

end Musli.Grammar
