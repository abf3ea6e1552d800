import Verif.Model.Codec
import Verif.Model.Json.Codec
import Verif.Model.Value.Value
/-!
# Model of the collections of the standard library

`crates/musli-core/src/impls/alloc.rs`: `BTreeMap`, `HashMap`, `BTreeSet`, `HashSet`,
`BinaryHeap` and `VecDeque`. In `Model/Codec.lean` the types `.map`, `.set` and `.vec` are
lists: what the iterator of a collection yields, and what a decoder is given. Here the
collections themselves are values: the encoder iterates over them, in an order which the caller
does not know, and the decoder inserts into them.
-/
namespace Musli

/-- What the code uses of `BTreeMap` and `HashMap`: `new` (or `with_capacity_and_hasher`),
`insert`, and the order of the iterator. -/
structure MapImpl (K V : Type) where
  Map : Type
  new : Map
  insert : Map → K → V → Map
  iter : Map → List (K × V)

/-- What the code uses of `BTreeSet`, `HashSet` and `BinaryHeap`: `new`, `insert` (or `push`), and the
order of the iterator. -/
structure SetImpl (K : Type) where
  Set : Type
  new : Set
  insert : Set → K → Set
  iter : Set → List K

section
variable [Host] (o : Options) (env : Env)

/-- `Encode for BTreeMap`, `HashMap`, `impls/alloc.rs:492-505`. -/
def MapImpl.encode (m : Mode) (k t : Ty) (I : MapImpl k.Val t.Val) (x : I.Map) : Enc :=
  (m.fmt o).encMap (I.iter x).length +>
    Enc.all (fun e => viaE o env k m e.1 +> viaE o env t m e.2) (I.iter x)

/-- `Decode for BTreeMap`, `HashMap`, `impls/alloc.rs:549-572`. -/
def MapImpl.decode (m : Mode) (k t : Ty) (I : MapImpl k.Val t.Val) : Dec I.Map := do
  let c ← (m.fmt o).decMap
  let out ← loopN (fun out => do
    let key ← viaD o env k m
    let value ← viaD o env t m
    pure (I.insert out key value)) c I.new
  let _ ← (m.fmt o).endMap 0
  pure out

/-- `Encode for BTreeSet`, `HashSet`, `BinaryHeap`, `impls/alloc.rs:283-317`. -/
def SetImpl.encode (m : Mode) (t : Ty) (I : SetImpl t.Val) (x : I.Set) : Enc :=
  (m.fmt o).encSeq (I.iter x).length +> Enc.all (viaE o env t m) (I.iter x)

/-- `Decode for BTreeSet`, `HashSet`, `BinaryHeap`, `impls/alloc.rs:320-350`. -/
def SetImpl.decode (m : Mode) (t : Ty) (I : SetImpl t.Val) : Dec I.Set := do
  let c ← (m.fmt o).decSeq
  let out ← loopN (fun out => do
    let value ← viaD o env t m
    pure (I.insert out value)) c I.new
  let _ ← (m.fmt o).endSeq 0
  pure out

/-- The loop of `default_encode_slices` over one slice, `musli-core/src/en/utils.rs:43-48`. -/
def pushSlice (m : Mode) (t : Ty) (s : List t.Val) : Enc := Enc.all (viaE o env t m) s

/-- The loop over the slices, `musli-core/src/en/utils.rs:42-49`; of bytes, `storage/en.rs:603-615`. -/
def eachSlice {α} (f : List α → Enc) : List (List α) → Enc
  | [] => .ok []
  | s :: l => f s +> eachSlice f l

/-- `encode_slices`: `storage/en.rs:251-267, 588-618`, and for the other formats
`musli-core/src/en/utils.rs:27-52`. `size_of::<T>() > 0` is checked in the code, since the memory of
a value without a size is empty it makes no difference here. -/
def encodeSlices (m : Mode) (t : Ty) (len : Nat) (slices : List (List t.Val)) : Enc :=
  if (m.fmt o).native && t.bwE then
    neLen len +> eachSlice (fun s => .ok (s.flatMap t.rawE)) slices
  else (m.fmt o).encSeq len +> eachSlice (pushSlice o env m t) slices

/-- `Encode for VecDeque`, `impls/alloc.rs:395-406`. A `VecDeque` is what `as_slices` says: a ring
buffer, of which the second slice is the part that has wrapped around. -/
def encodeDeque (m : Mode) (t : Ty) (a b : List t.Val) : Enc :=
  encodeSlices o env m t (a.length + b.length) [a, b]

/-- `Decode for VecDeque`, `impls/alloc.rs:414-428`: a `Vec` is decoded and becomes the first slice. -/
def decodeDeque (m : Mode) (t : Ty) : Dec (List t.Val × List t.Val) := do
  let v ← decode o env m (.vec t)
  pure (v, [])

end

/-- `Decode for BTreeMap`, `HashMap` in JSON. Simplified: the entries are inserted after all of them
were read; inserting does not fail and cannot be seen before. -/
def MapImpl.decodeJson (full : Bool) (env : Env) (k t : Ty) (I : MapImpl k.Val t.Val) : Json.P I.Map := do
  let l ← Json.decJ full env (.map k t)
  pure (l.foldl (fun out e => I.insert out e.1 e.2) I.new)

/-- `Decode for BTreeMap`, `HashMap` from a `Value`. Simplified in the same way. -/
def MapImpl.fromValue [Host] (o : Options) (env : Env) (k t : Ty) (I : MapImpl k.Val t.Val) (v : Value) :
    Except Err I.Map :=
  match Musli.fromValue o env (.map k t) v with
  | .ok l => .ok (l.foldl (fun out e => I.insert out e.1 e.2) I.new)
  | .error e => .error e

end Musli
