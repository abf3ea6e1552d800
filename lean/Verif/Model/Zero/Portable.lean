import Verif.Model.Zero.Sip
import Verif.Model.Zero.Swiss
/-!
# The hashes of keys on several machines

Paths are relative to `crates/musli-zerocopy/src`. The implementation of `Hash` of a key is the list of calls which
it makes. An archive may be written on a machine and read on another.
-/
namespace Musli.Zero.Portable
open Musli Musli.Zero.Sip

/-- A machine: its byte order, and the width of `usize`. -/
structure Machine where
  order : ByteOrder
  bits : Nat

/-- `FIXED_SEED`, `swiss/factory.rs:15`. -/
def seed : BitVec 64 := 1234567890

/-- The bytes of an integer in some order, `to_le_bytes` and `to_be_bytes`. -/
def bytesIn (E : ByteOrder) (x : BitVec 64) : Bytes := neBytes E x

/-- `from_le_bytes` and `from_be_bytes`. -/
def ofBytesIn (E : ByteOrder) (b : Bytes) : BitVec 64 :=
  match E with
  | .little => Fixed.ofLeBytes 64 b
  | .big => Fixed.ofLeBytes 64 b.reverse

/-- The key of a `MapRef`, `swiss/map.rs:248, 262, 382`, of `phf::MapRef` and `phf::SetRef`,
`phf/map.rs`, `phf/set.rs:155, 174, 216`, which was written on one machine and is read on another: an `Endian<u64, E>`. -/
def mapKey (E : ByteOrder) (_writer _reader : Machine) (key : BitVec 64) : BitVec 64 := ofBytesIn E (bytesIn E key)

/-- The key of a `SetRef`, `swiss/set.rs:155, 167, 207`: a `u64`. -/
def setKey (writer reader : Machine) (key : BitVec 64) : BitVec 64 :=
  ofBytesIn reader.order (bytesIn writer.order key)

/-- `MapRef::hash`, `SetRef::hash` and the hashes in `store_raw`, `swiss/map.rs:378-385`, `swiss/set.rs:203-210`,
`swiss/factory.rs:271-273`. -/
def hash (m : Machine) (key : BitVec 64) (calls : List Call) : Except Err (BitVec 64) :=
  match (Sip.new 0 key).calls m.order m.bits calls with
  | .error e => .error e
  | .ok h => .ok h.finish

/-- `phf::hashing::hash`, `phf/hashing.rs:23-38`, without the arithmetic which follows. -/
def hash128 (m : Machine) (key : BitVec 64) (calls : List Call) : Except Err (BitVec 64 × BitVec 64) :=
  match (Sip.new 0 key).calls m.order m.bits calls with
  | .error e => .error e
  | .ok h => .ok h.finish128

/-- The hash, which does not fail (C77). -/
def hash' (m : Machine) (key : BitVec 64) (calls : List Call) : BitVec 64 :=
  match hash m key calls with
  | .ok h => h
  | .error _ => 0

end Musli.Zero.Portable
