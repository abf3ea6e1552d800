import Verif.Model.MapAccess
/-!
# What a caller sees of a map that it reads by hand
-/
namespace Musli

/-- Each entry comes once, in order. A single call sees the next entry, if there is one; asking for the
remaining entries sees the next ones, and leaves none for later calls. -/
def MapOp.sees {α} : List MapOp → List α → List (List α)
  | [], _ => []
  | .entry :: ops, l => l.take 1 :: sees ops (l.drop 1)
  | .rest k :: ops, l => l.take k :: sees ops []

/-- How many entries the calls read, if there are enough. -/
def MapOp.singles : List MapOp → Option Nat
  | [] => some 0
  | .entry :: ops => (singles ops).map (· + 1)
  | .rest _ :: _ => none

end Musli
