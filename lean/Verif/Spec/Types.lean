import Verif.Model.Types
/-!
# Items of an implementation
-/
namespace Musli.Types.Spec
open Musli Musli.Types

/-- The name of an item. -/
def name : Item → Option Bytes
  | .fn n _ _ => some n
  | .type n _ _ => some n
  | .other _ => none

/-- The conditions of an item. -/
def conditions : Item → List Cfg
  | .fn _ c _ => c
  | .type _ c _ => c
  | .other _ => []

/-- The items with a name that are compiled. -/
def compiled (env : Nat → Bool) (n : Bytes) (items : List Item) : List Item :=
  items.filter fun i => decide (name i = some n) && (conditions i).all (Cfg.holds env)

/-- How often a name is written, under whichever conditions. -/
def written (n : Bytes) (items : List Item) : Nat := items.countP fun i => decide (name i = some n)

/-- What is written is: a name at most once, and functions without conditions. -/
def Plain (n : Bytes) (items : List Item) : Prop :=
  written n items ≤ 1 ∧ ∀ i ∈ items, name i = some n → (∃ m c b, i = .fn m c b) → conditions i = []

end Musli.Types.Spec
