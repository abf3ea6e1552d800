import Verif.Model.Zero.Swiss
/-!
# Swiss tables with two corrections

This is not the code: it is a part of `Model/Zero/Swiss.lean` with two corrections, to tell that nothing else is wrong with it. The length is
counted from the capacity, and only the buckets which are in use are validated.
-/
namespace Musli.Zero.Swiss
open Musli

/-- `store_raw`, `factory.rs:233-283`, and `Constructor::len`, `constructor.rs:86-88`, with the correction: the growth which is left is
subtracted from the capacity and not from the mask. -/
def storeC {V : Type} (g : Group) (hash : V → BitVec 64) (zero : V) (vs : List V) : Except ZErr (Raw V) :=
  match capacityToBuckets vs.length with
  | none => .error .panic
  | some buckets =>
    match insertAll g hash vs (newTable g buckets zero) with
    | .error e => .error e
    | .ok t => .ok ⟨t.ctrl.take (buckets + g.width), t.entries, t.mask, maskToCapacity t.mask - t.growthLeft⟩

/-- What belongs to a control byte: its bucket is in use and holds a valid entry, or it is not in use. The bytes at the end are copies
of those of the first buckets. -/
def Raw.bucketOk {V : Type} (valid : V → Bool) (t : Raw V) (i : Nat) : Bool :=
  match t.ctrl[i]? with
  | none => true
  | some c =>
    match t.entries[i &&& t.mask]? with
    | none => !isFull c
    | some v => !isFull c || valid v

/-- `RawTableRef::bind`, `map.rs:528-535`, with the correction. -/
def Raw.bindC {V : Type} (valid : V → Bool) (t : Raw V) : Except ZErr (Raw V) :=
  if (List.range t.ctrl.length).all (t.bucketOk valid) then .ok t else .error .illegal

end Musli.Zero.Swiss
