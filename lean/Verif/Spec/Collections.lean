import Verif.Model.Collections
/-!
# What the collections of the standard library guarantee
-/
namespace Musli

/-- The value of a key in a list of entries, of which the last one counts. -/
def lastValue {K V : Type} [DecidableEq K] (l : List (K × V)) (k : K) : Option V :=
  ((l.filter (fun e => e.1 = k)).getLast?).map Prod.snd

namespace MapImpl
variable {K V : Type} [DecidableEq K]

/-- `get`. -/
def get (I : MapImpl K V) (m : I.Map) (k : K) : Option V :=
  ((I.iter m).find? (fun e => e.1 = k)).map Prod.snd

/-- The contract of the standard library: a new map is empty, `insert` sets the value of a key and
leaves the other entries, in whatever order they are iterated, and the iterator yields each key once. -/
structure Lawful (I : MapImpl K V) : Prop where
  new : I.iter I.new = []
  insert : ∀ m k v, (I.iter (I.insert m k v)).Perm ((k, v) :: (I.iter m).filter (fun e => e.1 ≠ k))
  nodup : ∀ m, ((I.iter m).map Prod.fst).Nodup

/-- `==` of maps: the same value, or none, for every key. -/
def Equal (I : MapImpl K V) (a b : I.Map) : Prop := ∀ k, I.get a k = I.get b k

end MapImpl

namespace SetImpl
variable {K : Type}

/-- The contract of `BTreeSet` and `HashSet`. -/
structure Lawful [DecidableEq K] (I : SetImpl K) : Prop where
  new : I.iter I.new = []
  insert : ∀ m k, (I.iter (I.insert m k)).Perm (k :: (I.iter m).filter (fun e => e ≠ k))
  nodup : ∀ m, (I.iter m).Nodup

/-- The contract of `BinaryHeap`: every element is kept. -/
structure LawfulHeap (I : SetImpl K) : Prop where
  new : I.iter I.new = []
  insert : ∀ m k, (I.iter (I.insert m k)).Perm (k :: I.iter m)

end SetImpl

end Musli
