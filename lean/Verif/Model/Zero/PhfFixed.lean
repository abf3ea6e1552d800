import Verif.Model.Zero.Phf
/-!
# Perfect hash functions with two corrections

This is not the code: it is `Model/Zero/Phf.lean` with two corrections, to tell that nothing else is wrong with it.
-/
namespace Musli.Zero.Phf
open Musli

/-- The buckets with their numbers, in the order in which they are placed. `phf/generator.rs:94` sorts the buckets and
forgets the numbers. -/
def sortedBuckets (hashes : List Hashes) : List (List Nat × Nat) :=
  (bucketsOf hashes).zipIdx.mergeSort (fun a b => decide (a.1.length ≤ b.1.length))

/-- The first correction of `try_generate_hash`, `phf/generator.rs:62-150`: the displacements which are found for a bucket are
written at the number of the bucket, and not at its place in the order. -/
def tryGenerateCorrected (hashes : List Hashes) : Option (List (BitVec 32 × BitVec 32) × List (Option Nat)) :=
  match searchAll hashes hashes.length ((sortedBuckets hashes).map Prod.fst) (List.replicate hashes.length none) with
  | none => none
  | some (ds, map) =>
    some ((List.range (displacementsLen hashes.length)).map fun b =>
      ((((sortedBuckets hashes).map Prod.snd).zip ds).lookup b).getD (0, 0), map)

/-- `generate_hash`, `phf/generator.rs:27-60`, unchanged but for what it calls. -/
def generateCorrected {K : Type} (hash : BitVec 64 → K → Hashes) (keys : List K) :
    (fuel : Nat) → (rng : Nat → BitVec 64) →
    Except ZErr (BitVec 64 × List (BitVec 32 × BitVec 32) × List (Option Nat))
  | 0, _ => .error .fuel
  | fuel + 1, rng =>
    match tryGenerateCorrected (keys.map (hash (rng 0))) with
    | some r => .ok (rng 0, r)
    | none => generateCorrected hash keys fuel (fun i => rng (i + 1))

/-- `store_raw`, `phf/factory.rs:143-197`, with the second correction: every slot gets the entry whose number the table has for
it. The loop of `phf/factory.rs:180-192` brings the entry of a slot to the slot with the number which the table has for it. -/
def storeCorrected {K V : Type} (hash : BitVec 64 → K → Hashes) (access : V → K) (rng : Nat → BitVec 64) (fuel : Nat)
    (entries : List V) : Except ZErr (Raw V) :=
  match generateCorrected hash (entries.map access) fuel rng with
  | .error e => .error e
  | .ok (key, ds, map) => .ok ⟨key, map.filterMap fun k => k.bind fun k => entries[k]?, ds⟩

end Musli.Zero.Phf
