import Verif.Model.Int
/-!
# Copying values as bytes

`IS_BITWISE_ENCODE` and `IS_BITWISE_DECODE`: which types are copied to and from
memory, with the layout of structs as the compiler chose it. `Model/Codec.lean` has
the effect of this on encodings; here is what the bytes in memory are.
-/
namespace Musli.Mem

/-- A byte of memory; `none` is not initialised. -/
abbrev MByte := Option Byte

mutual

/-- A type, as far as memory is concerned. -/
inductive MTy where
  /-- integers and floats of a number of bytes -/
  | num (size : Nat)
  | bool
  | char
  /-- `NonZero*` -/
  | nonZero (size : Nat)
  /-- `AtomicU8`, .. -/
  | atomicNum (size : Nat)
  | atomicBool
  /-- `()`, `PhantomData<T>`, `Sequence<()>` -/
  | empty
  | array (n : Nat) (t : MTy)
  | wrapping (t : MTy)
  /-- A struct which derives `Encode` and `Decode`: does it have `#[musli(packed)]`, does it
  need to be dropped, and how many bytes it occupies. -/
  | strct (packed needsDrop : Bool) (size : Nat) (fs : MFields)
  /-- Any other type: references, collections, enums, ... -/
  | other (size : Nat) (ok : List MByte → Prop)

/-- Fields in the order in which they are declared: `offset_of`, type, whether they are
encoded and decoded without a `with` attribute or the like, and whether they are skipped. -/
inductive MFields where
  | nil
  | cons (offset : Nat) (t : MTy) (plainE plainD skip : Bool) (fs : MFields)

end

/-- `size_of` -/
def MTy.size : MTy → Nat
  | .num n => n
  | .bool => 1
  | .char => 4
  | .nonZero n => n
  | .atomicNum n => n
  | .atomicBool => 1
  | .empty => 0
  | .array n t => n * t.size
  | .wrapping t => t.size
  | .strct _ _ n _ => n
  | .other n _ => n

/-- `0 + size_of::<A>() + ..`, `musli-macros/src/internals/packed.rs:53-62` -/
def MFields.sizes : MFields → Nat
  | .nil => 0
  | .cons _ t _ _ _ fs => t.size + fs.sizes

/-- `offset_of!(Self, a) + size_of::<A>() == offset_of!(Self, b)` for neighbouring fields,
`packed.rs:35-50` -/
def MFields.offsets : MFields → Bool
  | .nil => true
  | .cons _ _ _ _ _ .nil => true
  | .cons a t _ _ _ (.cons b u p q s fs) =>
    (a + t.size == b) && (MFields.cons b u p q s fs).offsets

/-- `all_fields.iter().all(|f| f.encode_path.1.is_default())`, `packed.rs:16-25` -/
def MFields.plain (enc : Bool) : MFields → Bool
  | .nil => true
  | .cons _ _ e d _ fs => (if enc then e else d) && fs.plain enc

/-- `all_fields.len() == unskipped_fields().count()`, `packed.rs:28` -/
def MFields.unskipped : MFields → Bool
  | .nil => true
  | .cons _ _ _ _ s fs => !s && fs.unskipped

mutual

/-- `IS_BITWISE_ENCODE`: `musli-core/src/impls/mod.rs:37, 73, 136, 216, 320, 360, 398, 762`,
`musli/src/compat.rs:31`; `packed.rs:8-69` for structs. Atomics are not encodable. `size_of::<T>()
% align_of::<T>() == 0` always holds. -/
def MTy.bwE : MTy → Bool
  | .num _ => true
  | .bool => true
  | .char => true
  | .nonZero _ => true
  | .empty => true
  | .array _ t => t.bwE
  | .wrapping t => t.bwE
  | .strct packed drop size fs =>
    packed && fs.plain true && fs.unskipped && (!drop && size == fs.sizes && fs.offsets && fs.bwE)
  | _ => false

/-- `#(&& #packed)*`, `packed.rs:52-59` -/
def MFields.bwE : MFields → Bool
  | .nil => true
  | .cons _ t _ _ _ fs => t.bwE && fs.bwE

end

mutual

/-- `IS_BITWISE_DECODE`: `musli-core/src/impls/mod.rs:58, 94, 114, 159, 240, 342, 382, 420, 785`,
`musli/src/compat.rs:51`; `packed.rs:8-69` for structs. -/
def MTy.bwD : MTy → Bool
  | .num _ => true
  | .atomicNum _ => true
  | .atomicBool => true
  | .empty => true
  | .array _ t => t.bwD
  | .wrapping t => t.bwD
  | .strct packed drop size fs =>
    packed && fs.plain false && fs.unskipped && (!drop && size == fs.sizes && fs.offsets && fs.bwD)
  | _ => false

/-- `#(&& #packed)*`, `packed.rs:52-59` -/
def MFields.bwD : MFields → Bool
  | .nil => true
  | .cons _ t _ _ _ fs => t.bwD && fs.bwD

end

/-! ## Slices -/

/-- `max_chunk`, `musli/src/storage/de.rs:327-338`; `size` is not zero. -/
def maxChunk (size : Nat) : Nat :=
  let base := 2 ^ 16
  let size := if size = 0 then 1 else if size > base then base else size
  (base + size - 1) / size

theorem maxChunk_pos (size : Nat) : 0 < maxChunk size := by
  unfold maxChunk
  dsimp only
  split
  · decide
  · split
    · decide
    · apply Nat.div_pos <;> omega

/-- `MIN_NON_ZERO_CAP`: `musli-core/src/alloc/system.rs:179-185`; the same in `std::vec::Vec`. -/
def minNonZeroCap (size : Nat) : Nat := if size = 1 then 8 else if size ≤ 1024 then 4 else 1

/-- The capacity after `reserve(additional)`: `musli-core/src/alloc/system.rs:153-165, 224-248`; the
same in `std::vec::Vec`, but that `with_capacity` allocates no more than it was asked for. -/
def growTo (size cap len additional : Nat) : Nat :=
  if size = 0 then cap
  else if len + additional ≤ cap then cap
  else max (minNonZeroCap size) (max (cap * 2) (len + additional))

/-- What decoding a slice did: the result, with the rest of the input; the capacity
which was allocated for elements, and how many were initialised. -/
structure Out where
  res : Except Err (Bytes × Bytes)
  cap : Nat
  len : Nat

/-- The loop of `decode_slice`, `storage/de.rs:340-361`. `mem n` tells whether memory for `n`
elements is available. -/
def chunks (mem : Nat → Bool) (size len : Nat) (at_ cap : Nat) (data input : Bytes) : Out :=
  if h : at_ < len then
    let chunk := min (len - at_) (maxChunk size)
    let cap' := growTo size cap at_ chunk
    if !mem cap' then ⟨.error .overflow, cap, at_⟩
    else if input.length < chunk * size then ⟨.error .eof, cap', at_⟩
    else chunks mem size len (at_ + chunk) cap' (data ++ input.take (chunk * size))
      (input.drop (chunk * size))
  else ⟨.ok (data, input), cap, at_⟩
termination_by len - at_
decreasing_by
  have : 0 < min (len - at_) (maxChunk size) := by
    have := maxChunk_pos size
    omega
  omega

/-- `decode_slice` for types with `IS_BITWISE_DECODE`, with native fixed options,
`storage/de.rs:305-376`. -/
def decodeSlice [Host] (mem : Nat → Bool) (size : Nat) (input : Bytes) : Out :=
  if input.length < 8 then ⟨.error .eof, 0, 0⟩
  else
    let len := (Fixed.ofNe 64 (input.take 8)).toNat
    let input := input.drop 8
    if size > 0 then chunks mem size len 0 0 [] input
    else ⟨.ok ([], input), 0, len⟩

/-- `size_hint::cautious`, `musli-core/src/internal/size_hint.rs:6-16`. -/
def cautious (size hint : Nat) : Nat :=
  if size = 0 then 0 else min hint (1024 * 1024 / size)

/-- What decoding a collection did: the result, the capacity which was allocated for
elements and how many were put into it. -/
structure Collected (α : Type) where
  res : Except Err (List α × Bytes)
  cap : Nat
  len : Nat

/-- The loop of `default_decode_slice`, `musli-core/src/de/utils.rs:22-28`, and of the visitor of
`Value`, `musli/src/value/value.rs:404-406`, over a sequence of `n` elements. -/
def collect {α : Type} (mem : Nat → Bool) (size : Nat) (d : Dec α) :
    (n : Nat) → (cap : Nat) → (out : List α) → Bytes → Collected α
  | 0, cap, out, s => ⟨.ok (out, s), cap, out.length⟩
  | n + 1, cap, out, s =>
    match d s with
    | .error e => ⟨.error e, cap, out.length⟩
    | .ok (v, s) =>
      let cap' := growTo size cap out.length 1
      if !mem cap' then ⟨.error .overflow, cap, out.length⟩
      else collect mem size d n cap' (out ++ [v]) s

/-- `default_decode_slice`, `musli-core/src/de/utils.rs:5-32`, of a sequence of which `n` elements are
said to follow. -/
def defaultSlice {α : Type} (mem : Nat → Bool) (size : Nat) (d : Dec α) (n : Nat) (s : Bytes) :
    Collected α :=
  let cap := growTo size 0 0 (cautious size n)
  if !mem cap then ⟨.error .overflow, 0, 0⟩ else collect mem size d n cap [] s

/-- `visit_sequence` of `Value`, `musli/src/value/value.rs:395-409`: without `cautious`. -/
def valueSlice {α : Type} (mem : Nat → Bool) (size : Nat) (d : Dec α) (n : Nat) (s : Bytes) :
    Collected α :=
  let cap := growTo size 0 0 n
  if !mem cap then ⟨.error .overflow, 0, 0⟩ else collect mem size d n cap [] s

end Musli.Mem
