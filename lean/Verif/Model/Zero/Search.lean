import Verif.Basic
/-!
# `musli_zerocopy::slice::binary_search`
-/
namespace Musli.Zero

/-- Errors of `musli-zerocopy`, `error.rs:60-223`, as far as they occur in the model; `panic` stands
for a panic. -/
inductive ZErr where
  /-- A panic. -/
  | panic
  /-- `OutOfRangeBounds`, `OutOfBounds`, `IndexOutOfBounds`, `ControlRangeOutOfBounds`. -/
  | bounds
  /-- `AlignmentMismatch`, `AlignmentRangeMismatch`. -/
  | alignment
  /-- `StrideOutOfBounds`. -/
  | stride
  /-- `CapacityError`. -/
  | capacity
  /-- `IllegalEnumDiscriminant`, `IllegalChar`, `IllegalBool`, `NonZeroZeroed`, `Utf8Error`. -/
  | illegal
  /-- `InvalidOffsetRange`, `InvalidMetadataRange`, `LengthOverflow`. -/
  | overflow
  /-- Used by the model for loops that do not end. -/
  | fuel
  /-- An error of a closure of the caller. -/
  | user
  /-- Undefined behaviour: an access out of bounds, a read of uninitialised memory, a wrong layout for the
  allocator. -/
  | ub
deriving DecidableEq, Repr

/-- `BinarySearch`, `slice/binary_search.rs:8-17`. -/
inductive BinarySearch where
  | found (index : Nat)
  | missing (index : Nat)
deriving DecidableEq, Repr

/-- One turn of the loop and the ones after it, `slice/binary_search.rs:107-132`. `size` is what the
code keeps in `size`; `load` is `buf.load(slice.get_unchecked(mid))`. -/
def searchLoop {α : Type} (load : Nat → Except ZErr α) (f : α → Except ZErr Ordering) :
    (fuel : Nat) → (size left right : Nat) → Except ZErr BinarySearch
  | 0, _, _, _ => .error .fuel
  | fuel + 1, size, left, right =>
    if left < right then do
      let mid := left + size / 2
      let value ← load mid
      let cmp ← f value
      if cmp = .lt then
        let left := mid + 1
        searchLoop load f fuel (right - left) left right
      else if cmp = .gt then
        let right := mid
        searchLoop load f fuel (right - left) left right
      else .ok (.found mid)
    else .ok (.missing left)

/-- `binary_search_by`, `slice/binary_search.rs:95-135`, and its copy `try_binary_search_by`,
`trie/factory.rs:337-374`. `len` is `slice.len()`. -/
def binarySearchBy {α : Type} (len : Nat) (load : Nat → Except ZErr α) (f : α → Except ZErr Ordering) :
    Except ZErr BinarySearch :=
  searchLoop load f (len + 1) len 0 len

/-- The elements of a slice which is in bounds and aligned (`get_unchecked` past its end is undefined;
here it is an error). -/
def loadFrom {α : Type} (l : List α) (i : Nat) : Except ZErr α :=
  match l[i]? with
  | some a => .ok a
  | none => .error .bounds

/-- `binary_search`, `slice/binary_search.rs:50-56`, for a key which is not behind a reference. -/
def binarySearch {α : Type} [Ord α] (l : List α) (x : α) : Except ZErr BinarySearch :=
  binarySearchBy l.length (loadFrom l) (fun v => .ok (compare v x))

end Musli.Zero
