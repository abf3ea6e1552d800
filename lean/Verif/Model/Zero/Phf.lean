import Verif.Model.Zero.Search
/-!
# Perfect hash functions, `musli_zerocopy::phf`

The slices of the buffer are lists; that they lie apart is a property of the buffer. Tables have fewer
than 2³² entries. The random number generator is a sequence of keys, the hash function is a parameter.
-/
namespace Musli.Zero.Phf
open Musli

/-- `Hashes`, `phf/hashing.rs:9-13`. `g` are the upper 32 bits of `h1`. -/
structure Hashes where
  g : BitVec 32
  f1 : BitVec 32
  f2 : BitVec 32
deriving DecidableEq

/-- `displace`, `phf/hashing.rs:18-20`. -/
def displace (f1 f2 d1 d2 : BitVec 32) : BitVec 32 := d2 + f1 * d1 + f2

/-- `displacements_len`, `phf/generator.rs:25-27`. -/
def displacementsLen (len : Nat) : Nat := (len + 4) / 5

/-- The place of a key under some displacements, `phf/generator.rs:122-123`, `phf/hashing.rs:55, 77`. -/
def slot (n : Nat) (d : BitVec 32 × BitVec 32) (h : Hashes) : Nat := (displace h.f1 h.f2 d.1 d.2).toNat % n

/-- The loop over the keys of a bucket, `phf/generator.rs:125-137`. `acc` is `values_to_add`; that
`try_map` has the current generation is that the index is in it. `usize::MAX` in `map` is `none`. -/
def place (hashes : List Hashes) (n : Nat) (map : List (Option Nat)) (d : BitVec 32 × BitVec 32) :
    List Nat → List (Nat × Nat) → Option (List (Nat × Nat))
  | [], acc => some acc
  | key :: rest, acc =>
    match hashes[key]? with
    | none => none
    | some h =>
      let index := slot n d h
      if map[index]? ≠ some none ∨ index ∈ acc.map Prod.fst then none
      else place hashes n map d rest (acc ++ [(index, key)])

/-- The loops over the displacements, `phf/generator.rs:115-143`. -/
def searchBucket (hashes : List Hashes) (n : Nat) (map : List (Option Nat)) (bucket : List Nat) :
    Option ((BitVec 32 × BitVec 32) × List (Nat × Nat)) :=
  (List.range n).findSome? fun d1 =>
    (List.range n).findSome? fun d2 =>
      (place hashes n map (BitVec.ofNat 32 d1, BitVec.ofNat 32 d2) bucket []).map
        (fun v => ((BitVec.ofNat 32 d1, BitVec.ofNat 32 d2), v))

/-- Write the chosen values, `phf/generator.rs:136-139`. -/
def addAll (map : List (Option Nat)) : List (Nat × Nat) → List (Option Nat)
  | [] => map
  | (i, key) :: rest => addAll (map.set i (some key)) rest

/-- The outer loop, `phf/generator.rs:114-147`: the displacements of the buckets, in their order. -/
def searchAll (hashes : List Hashes) (n : Nat) : List (List Nat) → List (Option Nat) →
    Option (List (BitVec 32 × BitVec 32) × List (Option Nat))
  | [], map => some ([], map)
  | bucket :: rest, map =>
    match searchBucket hashes n map bucket with
    | none => none
    | some (d, values) =>
      match searchAll hashes n rest (addAll map values) with
      | none => none
      | some (ds, map) => some (d :: ds, map)

/-- The keys of every bucket, `phf/generator.rs:87-92`. -/
def bucketsOf (hashes : List Hashes) : List (List Nat) :=
  (List.range (displacementsLen hashes.length)).map fun b =>
    (List.range hashes.length).filter fun i =>
      match hashes[i]? with
      | some h => h.g.toNat % displacementsLen hashes.length == b
      | none => false

/-- `try_generate_hash`, `phf/generator.rs:62-150`. The sort, `phf/generator.rs:94`, is stable; what is
sorted are the buckets without their numbers. -/
def tryGenerate (hashes : List Hashes) : Option (List (BitVec 32 × BitVec 32) × List (Option Nat)) :=
  searchAll hashes hashes.length ((bucketsOf hashes).mergeSort (fun a b => decide (a.length ≤ b.length)))
    (List.replicate hashes.length none)

/-- `generate_hash`, `phf/generator.rs:27-60`: the first of the random keys for which it works. There is
no end to the keys; the model stops after `fuel` of them. -/
def generate {K : Type} (hash : BitVec 64 → K → Hashes) (keys : List K) :
    (fuel : Nat) → (rng : Nat → BitVec 64) →
    Except ZErr (BitVec 64 × List (BitVec 32 × BitVec 32) × List (Option Nat))
  | 0, _ => .error .fuel
  | fuel + 1, rng =>
    match tryGenerate (keys.map (hash (rng 0))) with
    | some r => .ok (rng 0, r)
    | none => generate hash keys fuel (fun i => rng (i + 1))

/-- Swap two elements. -/
def swapAt {α : Type} (l : List α) (i j : Nat) : Option (List α) :=
  match l[i]?, l[j]? with
  | some a, some b => some ((l.set i b).set j a)
  | _, _ => none

/-- The inner loop, `phf/factory.rs:181-191`. `at` panics when out of bounds. -/
def swapLoop {V : Type} (from_ : Nat) : (fuel : Nat) → List V → List (Option Nat) →
    Except ZErr (List V × List (Option Nat))
  | 0, _, _ => .error .fuel
  | fuel + 1, entries, map =>
    match map[from_]? with
    | some (some to) =>
      if from_ ≠ to then
        match swapAt entries from_ to, swapAt map from_ to with
        | some entries, some map => swapLoop from_ fuel entries map
        | _, _ => .error .panic
      else .ok (entries, map)
    | _ => .error .panic

/-- The loop over all slots, `phf/factory.rs:180-192`. -/
def swapAll {V : Type} (n : Nat) : List Nat → List V → List (Option Nat) → Except ZErr (List V)
  | [], entries, _ => .ok entries
  | from_ :: rest, entries, map =>
    match swapLoop from_ (n + 1) entries map with
    | .error e => .error e
    | .ok (entries, map) => swapAll n rest entries map

/-- `MapRef`, `SetRef` with the slices they point to, `phf/map.rs:221-231`. -/
structure Raw (V : Type) where
  key : BitVec 64
  entries : List V
  displacements : List (BitVec 32 × BitVec 32)

/-- `store_raw`, `phf/factory.rs:143-197`. -/
def store {K V : Type} (hash : BitVec 64 → K → Hashes) (access : V → K) (rng : Nat → BitVec 64) (fuel : Nat)
    (entries : List V) : Except ZErr (Raw V) :=
  match generate hash (entries.map access) fuel rng with
  | .error e => .error e
  | .ok (key, ds, map) =>
    match swapAll entries.length (List.range entries.length) entries map with
    | .error e => .error e
    | .ok entries => .ok ⟨key, entries, ds⟩

/-- `get_entry` of `Map` and `MapRef` and `contains` of `Set` and `SetRef`, `phf/map.rs:137-161, 336-372`,
`phf/set.rs:73-93, 205-236`, with `get_index` and `get_custom_index`, `phf/hashing.rs:40-78`. The remainder
by a length of zero, `phf/hashing.rs:46, 55, 68, 77`, panics. -/
def Raw.find {K V : Type} [DecidableEq K] (hash : BitVec 64 → K → Hashes) (access : V → K) (m : Raw V) (k : K) :
    Except ZErr (Option V) :=
  if m.displacements.length = 0 then .ok none
  else
    let h := hash m.key k
    match m.displacements[h.g.toNat % m.displacements.length]? with
    | none => .error .bounds
    | some d =>
      if m.entries.length = 0 then .error .panic
      else match m.entries[slot m.entries.length d h]? with
      | none => .ok none
      | some e => if access e = k then .ok (some e) else .ok none

section
variable {K V : Type} [DecidableEq K] (hash : BitVec 64 → K → Hashes)

/-- `store_map`, `phf/factory.rs:62-77`. -/
def storeMap (rng : Nat → BitVec 64) (fuel : Nat) (entries : List (K × V)) : Except ZErr (Raw (K × V)) :=
  store hash Prod.fst rng fuel entries

/-- `Map::get`, `MapRef::get`, `phf/map.rs:77-89, 278-290`. -/
def getMap (m : Raw (K × V)) (k : K) : Except ZErr (Option V) :=
  match m.find hash Prod.fst k with
  | .error e => .error e
  | .ok none => .ok none
  | .ok (some e) => .ok (some e.2)

/-- `store_set`, `phf/factory.rs:131-141`. -/
def storeSet (rng : Nat → BitVec 64) (fuel : Nat) (values : List K) : Except ZErr (Raw K) :=
  store hash id rng fuel values

/-- `Set::contains`, `SetRef::contains`, `phf/set.rs:73-93, 205-236`. -/
def containsSet (m : Raw K) (k : K) : Except ZErr Bool :=
  match m.find hash id k with
  | .error e => .error e
  | .ok r => .ok r.isSome

end
end Musli.Zero.Phf
