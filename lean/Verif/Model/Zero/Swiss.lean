import Verif.Model.Zero.Search
/-!
# Swiss tables, `musli_zerocopy::swiss`

A table is built into a buffer by `swiss/constructor.rs`, and looked up in by `swiss/map.rs`. The model
has the two regions of the buffer (control bytes and entries) as lists; that they lie apart is a property
of the buffer. `usize` has 64 bits.
-/
namespace Musli.Zero.Swiss
open Musli

/-! ## Bit masks, `swiss/raw/bitmask.rs` -/

/-- `trailing_zeros` of a number which is not zero. -/
def ctz (n : Nat) : Nat := if h : n = 0 ∨ n % 2 = 1 then 0 else ctz (n / 2) + 1
decreasing_by omega

/-- `BitMask`, with `BITMASK_STRIDE`, `bitmask.rs:22`. -/
structure Mask where
  word : Nat
  stride : Nat

/-- `BitMask::any_bit_set`, `bitmask.rs:43-45`. -/
def Mask.any (m : Mask) : Bool := m.word != 0

/-- `BitMask::lowest_set_bit`, `bitmask.rs:49-67` (not the variant for 32-bit ARM). -/
def Mask.lowest (m : Mask) : Option Nat := if m.word = 0 then none else some (ctz m.word / m.stride)

/-- `BitMaskIter::next` until the end, `bitmask.rs:91-95`, with `remove_lowest_bit`, `bitmask.rs:37-39`.
The number of bits bounds the number of steps. -/
def bits (stride : Nat) : (fuel : Nat) → (word : Nat) → List Nat
  | 0, _ => []
  | fuel + 1, w => if w = 0 then [] else (ctz w / stride) :: bits stride fuel (w &&& (w - 1))

/-- `into_iter`, `bitmask.rs:75-79`, where `iterMask` is `BITMASK_ITER_MASK`. -/
def Mask.toList (iterMask : Nat) (m : Mask) : List Nat := bits m.stride 64 (m.word &&& iterMask)

/-! ## Groups of control bytes, `swiss/raw/{sse2,neon,generic}.rs` -/

/-- `EMPTY`, `raw/mod.rs:115`. -/
def empty : Byte := 0xFF#8

/-- `is_full`, `raw/mod.rs:120-122`. -/
def isFull (c : Byte) : Bool := c &&& 0x80#8 == 0

/-- `special_is_empty`, `raw/mod.rs:134-137`. -/
def specialIsEmpty (c : Byte) : Bool := c &&& 0x01#8 != 0

/-- The operations of `Group` which are used. The group is the list of its bytes. -/
structure Group where
  /-- `Group::WIDTH` -/
  width : Nat
  /-- `match_byte(b).into_iter()` -/
  matchByte : Bytes → Byte → List Nat
  /-- `match_empty().any_bit_set()` -/
  anyEmpty : Bytes → Bool
  /-- `match_empty_or_deleted().lowest_set_bit()` -/
  lowestSpecial : Bytes → Option Nat

/-- A word with `w` bits per element: those of `one` where the test is true, otherwise none. -/
def pack (w one : Nat) (p : Byte → Bool) : Bytes → Nat
  | [] => 0
  | b :: s => (if p b then one else 0) + 2 ^ w * pack w one p s

/-- `raw/sse2.rs`: a bit per byte. -/
def sse2 : Group where
  width := 16
  matchByte s b := (Mask.mk (pack 1 1 (· == b) s) 1).toList 0xFFFF
  anyEmpty s := (Mask.mk (pack 1 1 (· == empty) s) 1).any
  lowestSpecial s := (Mask.mk (pack 1 1 (fun c => c &&& 0x80#8 != 0) s) 1).lowest

/-- `raw/neon.rs`: all bits of a byte per byte. -/
def neon : Group where
  width := 8
  matchByte s b := (Mask.mk (pack 8 0xFF (· == b) s) 8).toList 0x8080808080808080
  anyEmpty s := (Mask.mk (pack 8 0xFF (· == empty) s) 8).any
  lowestSpecial s := (Mask.mk (pack 8 0xFF (fun c => c &&& 0x80#8 != 0) s) 8).lowest

/-- The word with these bytes, the first one being the lowest one. -/
def wordOf : Bytes → Nat
  | [] => 0
  | b :: s => b.toNat + 256 * wordOf s

/-- The word with these bytes as a native integer. -/
def readWord (big : Bool) (s : Bytes) : BitVec 64 := BitVec.ofNat 64 (wordOf (if big then s.reverse else s))

/-- `swap_bytes` of a word. -/
def swapWord (w : BitVec 64) : BitVec 64 :=
  BitVec.ofNat 64 (wordOf ((List.range 8).map (fun i => w.extractLsb' (8 * (7 - i)) 8)))

/-- `to_le`. -/
def toLe (big : Bool) (w : BitVec 64) : BitVec 64 := if big then swapWord w else w

/-- `repeat`, `generic.rs:36-38`. -/
def repeatByte (b : Byte) : BitVec 64 := BitVec.ofNat 64 (wordOf (List.replicate 8 b))

/-- `match_byte`, `generic.rs:102-107`. -/
def genericMatch (big : Bool) (s : Bytes) (b : Byte) : BitVec 64 :=
  let cmp := readWord big s ^^^ repeatByte b
  toLe big ((cmp - repeatByte 0x01#8) &&& ~~~cmp &&& repeatByte 0x80#8)

/-- `match_empty`, `generic.rs:112-117`. -/
def genericEmpty (big : Bool) (s : Bytes) : BitVec 64 :=
  let w := readWord big s
  toLe big (w &&& (w <<< 1) &&& repeatByte 0x80#8)

/-- `match_empty_or_deleted`, `generic.rs:122-125`. -/
def genericSpecial (big : Bool) (s : Bytes) : BitVec 64 :=
  toLe big (readWord big s &&& repeatByte 0x80#8)

/-- `raw/generic.rs` with `GroupWord = u64`, on a host of either byte order. -/
def generic (big : Bool) : Group where
  width := 8
  matchByte s b := (Mask.mk (genericMatch big s b).toNat 8).toList (2 ^ 64 - 1)
  anyEmpty s := (Mask.mk (genericEmpty big s).toNat 8).any
  lowestSpecial s := (Mask.mk (genericSpecial big s).toNat 8).lowest

/-! ## Probing, `swiss/raw/mod.rs` -/

/-- `ProbeSeq`, `raw/mod.rs:47-50`. -/
structure ProbeSeq where
  pos : Nat
  stride : Nat

/-- `h1`, `raw/mod.rs:97-100`. -/
def h1 (hash : BitVec 64) : Nat := hash.toNat

/-- `h2`, `raw/mod.rs:105-112`. -/
def h2 (hash : BitVec 64) : Byte := (hash >>> 57 &&& 0x7F#64).setWidth 8

/-- `probe_seq`, `raw/mod.rs:85-92`. -/
def probeSeq (mask : Nat) (hash : BitVec 64) : ProbeSeq := ⟨h1 hash &&& mask, 0⟩

/-- `ProbeSeq::move_next`, `raw/mod.rs:57-69`. -/
def ProbeSeq.next (g : Group) (mask : Nat) (p : ProbeSeq) : Except ZErr ProbeSeq :=
  if p.stride > mask then .error .stride
  else .ok ⟨(p.pos + (p.stride + g.width)) &&& mask, p.stride + g.width⟩

/-- `next_power_of_two`. -/
def nextPow2 (n : Nat) : Nat := if n ≤ 1 then 1 else 2 ^ (Nat.log2 (n - 1) + 1)

/-- `capacity_to_buckets`, `raw/mod.rs:147-167`. -/
def capacityToBuckets (cap : Nat) : Option Nat :=
  if cap < 8 then some (if cap < 4 then 4 else 8)
  else if cap * 8 < 2 ^ 64 then some (nextPow2 (cap * 8 / 7))
  else none

/-- `bucket_mask_to_capacity`, `constructor.rs:451-460`. -/
def maskToCapacity (mask : Nat) : Nat := if mask < 8 then mask else (mask + 1) / 8 * 7

/-! ## Construction, `swiss/constructor.rs` -/

/-- `Constructor`, `constructor.rs:17-36`; `ctrl` is the region from `ctrl_ptr`, `entries` the one from
`base_ptr`. -/
structure Table (V : Type) where
  ctrl : Bytes
  entries : List V
  mask : Nat
  growthLeft : Nat

/-- The bytes of a group, `ctrl_group`, `constructor.rs:383-394`. -/
def groupAt (g : Group) (ctrl : Bytes) (pos : Nat) : Option Bytes :=
  if pos + g.width ≤ ctrl.length then some ((ctrl.drop pos).take g.width) else none

/-- `find_insert_slot_in_group`, `constructor.rs:167-173`. -/
def slotInGroup (g : Group) (mask : Nat) (bytes : Bytes) (p : ProbeSeq) : Option Nat :=
  match g.lowestSpecial bytes with
  | some bit => some ((p.pos + bit) &&& mask)
  | none => none

/-- `fix_insert_slot`, `constructor.rs:254-285`. `unwrap_unchecked` of `None`, which is undefined, is a
panic here. -/
def fixSlot (g : Group) (ctrl : Bytes) (index : Nat) : Except ZErr Nat :=
  match ctrl[index]? with
  | none => .error .panic
  | some c =>
    if isFull c then
      match groupAt g ctrl 0 with
      | none => .error .panic
      | some bytes =>
        match g.lowestSpecial bytes with
        | some i => .ok i
        | none => .error .panic
    else .ok index

/-- `find_insert_slot`, `constructor.rs:184-196`. -/
def findSlot (g : Group) (ctrl : Bytes) (mask : Nat) : (fuel : Nat) → ProbeSeq → Except ZErr Nat
  | 0, _ => .error .fuel
  | fuel + 1, p =>
    match groupAt g ctrl p.pos with
    | none => .error .panic
    | some bytes =>
      match slotInGroup g mask bytes p with
      | some index => fixSlot g ctrl index
      | none =>
        match p.next g mask with
        | .error e => .error e
        | .ok p => findSlot g ctrl mask fuel p

/-- `set_ctrl`, `constructor.rs:312-343`. -/
def setCtrl (g : Group) (ctrl : Bytes) (mask index : Nat) (c : Byte) : Except ZErr Bytes :=
  let index2 := (((index + 2 ^ 64 - g.width) % 2 ^ 64) &&& mask) + g.width
  if index < ctrl.length ∧ index2 < ctrl.length then .ok ((ctrl.set index c).set index2 c)
  else .error .panic

/-- `insert`, `insert_in_slot` and `record_item_insert_at`, `constructor.rs:97-132, 176-179`. -/
def Table.insert {V : Type} (g : Group) (t : Table V) (hash : BitVec 64) (value : V) : Except ZErr (Table V) :=
  match findSlot g t.ctrl t.mask (t.mask + 2) (probeSeq t.mask hash) with
  | .error e => .error e
  | .ok slot =>
    match t.ctrl[slot]? with
    | none => .error .panic
    | some old =>
      if t.growthLeft = 0 ∧ specialIsEmpty old then .error .capacity
      else
        match setCtrl g t.ctrl t.mask slot (h2 hash) with
        | .error e => .error e
        | .ok ctrl =>
          if slot < t.entries.length then
            .ok { t with
              ctrl := ctrl
              entries := t.entries.set slot value
              growthLeft := t.growthLeft - (if specialIsEmpty old then 1 else 0) }
          else .error .panic

/-- A table without elements: the regions are filled with `EMPTY` and zeros, `factory.rs:247-263`,
`constructor.rs:57-73`. `zero` is what an entry of zeros is. -/
def newTable {V : Type} (g : Group) (buckets : Nat) (zero : V) : Table V where
  ctrl := List.replicate (buckets + g.width + g.width) empty
  entries := List.replicate buckets zero
  mask := buckets - 1
  growthLeft := maskToCapacity (buckets - 1)

/-- Insert one after the other. -/
def insertAll {V : Type} (g : Group) (hash : V → BitVec 64) : List V → Table V → Except ZErr (Table V)
  | [], t => .ok t
  | v :: vs, t =>
    match t.insert g (hash v) v with
    | .error e => .error e
    | .ok t => insertAll g hash vs t

/-- `RawTableRef`, and `RawTable` after the references have been loaded, `map.rs:409-414, 500-537`. -/
structure Raw (V : Type) where
  ctrl : Bytes
  entries : List V
  mask : Nat
  len : Nat

/-- `store_raw`, `factory.rs:233-283`. -/
def store {V : Type} (g : Group) (hash : V → BitVec 64) (zero : V) (vs : List V) : Except ZErr (Raw V) :=
  match capacityToBuckets vs.length with
  | none => .error .panic
  | some buckets =>
    match insertAll g hash vs (newTable g buckets zero) with
    | .error e => .error e
    | .ok t => .ok ⟨t.ctrl.take (buckets + g.width), t.entries, t.mask, t.mask - t.growthLeft⟩

/-- `RawTableRef::bind`, `map.rs:528-535`: both regions are loaded, and every entry is validated by
`validate_unsized`, `traits.rs:706-740`, also those of the buckets which are not in use. -/
def Raw.bind {V : Type} (valid : V → Bool) (t : Raw V) : Except ZErr (Raw V) :=
  if t.entries.all valid then .ok t else .error .illegal

/-! ## Lookup, `swiss/map.rs` -/

/-- The loop over the matches in a group, `map.rs:474-482`. -/
def tryMatches {V : Type} (entries : List V) (mask pos : Nat) (eq : V → Bool) : List Nat → Except ZErr (Option Nat)
  | [] => .ok none
  | bit :: rest =>
    let index := (pos + bit) &&& mask
    match entries[index]? with
    | none => .error .bounds
    | some v => if eq v then .ok (some index) else tryMatches entries mask pos eq rest

/-- `find_inner`, `map.rs:449-487` (and `map.rs:567-606`). The sum `pos + size_of::<Group>()` is checked for
overflow in debug builds; without the checks the range is reversed and `get` returns nothing. That the other
sums do not overflow is `probes_no_overflow`. -/
def findLoop {V : Type} (g : Group) (t : Raw V) (h2 : Byte) (eq : V → Bool) :
    (fuel : Nat) → ProbeSeq → Except ZErr (Option Nat)
  | 0, _ => .error .fuel
  | fuel + 1, p =>
    match groupAt g t.ctrl p.pos with
    | none => if p.pos + g.width ≥ 2 ^ 64 then .error .panic else .error .bounds
    | some bytes =>
      match tryMatches t.entries t.mask p.pos eq (g.matchByte bytes h2) with
      | .error e => .error e
      | .ok (some i) => .ok (some i)
      | .ok none =>
        if g.anyEmpty bytes then .ok none
        else
          match p.next g t.mask with
          | .error e => .error e
          | .ok p => findLoop g t h2 eq fuel p

/-- `find`, `map.rs:419-444, 539-564`. -/
def Raw.find {V : Type} (g : Group) (t : Raw V) (hash : BitVec 64) (eq : V → Bool) : Except ZErr (Option V) :=
  match findLoop g t (h2 hash) eq (t.mask + 2) (probeSeq t.mask hash) with
  | .error e => .error e
  | .ok none => .ok none
  | .ok (some i) =>
    match t.entries[i]? with
    | none => .error .bounds
    | some v => .ok (some v)

/-! ## Maps and sets -/

section
variable {K V : Type} [DecidableEq K] (g : Group) (hash : K → BitVec 64)

/-- `store_map`, `factory.rs:107-133`. `hash` is the hash of the key with the fixed seed. The keys are
values, or references to values which are in bounds, so that `visit` does not fail. -/
def storeMap (zero : K × V) (entries : List (K × V)) : Except ZErr (Raw (K × V)) :=
  store g (fun e => hash e.1) zero entries

/-- `Map::get`, `MapRef::get`, `map.rs:77-89, 284-296`. -/
def getMap (m : Raw (K × V)) (key : K) : Except ZErr (Option V) :=
  match m.find g (hash key) (fun e => e.1 == key) with
  | .error e => .error e
  | .ok none => .ok none
  | .ok (some e) => .ok (some e.2)

/-- `Map::contains_key`, `MapRef::contains_key`, `map.rs:159-175, 361-375`. -/
def containsMap (m : Raw (K × V)) (key : K) : Except ZErr Bool :=
  match m.find g (hash key) (fun e => e.1 == key) with
  | .error e => .error e
  | .ok r => .ok r.isSome

/-- `store_set`, `factory.rs:206-226`. -/
def storeSet (zero : K) (values : List K) : Except ZErr (Raw K) := store g hash zero values

/-- `Set::contains`, `SetRef::contains`, `set.rs:72-86, 187-199`. -/
def containsSet (m : Raw K) (value : K) : Except ZErr Bool :=
  match m.find g (hash value) (fun e => e == value) with
  | .error e => .error e
  | .ok r => .ok r.isSome

end
end Musli.Zero.Swiss
