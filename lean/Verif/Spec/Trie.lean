import Verif.Model.Zero.Trie
/-!
# What users do with a trie builder, and what should be in the trie

`Op.run` makes the calls of the model one after the other. `entries` says which keys and values were inserted: the
bytes behind the references, when they were inserted.
-/
namespace Musli.Zero.Trie
open Musli

/-- Calls of a user. -/
inductive Op (α : Type) where
  /-- something is stored at the end of the buffer, `OwnedBuf::store_unsized` or any other -/
  | store (bytes : Bytes)
  /-- `Builder::insert` -/
  | insert (string : SRef) (value : α)

/-- The buffer and the builder after the calls. -/
def run {α : Type} : Bytes → Links α → List (Op α) → Except ZErr (Bytes × Links α)
  | buf, trie, [] => .ok (buf, trie)
  | buf, trie, .store bytes :: ops => run (buf ++ bytes) trie ops
  | buf, trie, .insert string value :: ops =>
    match insert buf trie string value with
    | .ok trie => run buf trie ops
    | .error e => .error e

/-- What was inserted, if all references were in the buffer. -/
def entries {α : Type} : Bytes → List (Op α) → Option (List (Bytes × α))
  | _, [] => some []
  | buf, .store bytes :: ops => entries (buf ++ bytes) ops
  | buf, .insert string value :: ops =>
    if string.off + string.len ≤ buf.length then
      (entries buf ops).map (((buf.drop string.off).take string.len, value) :: ·)
    else none

/-- Whenever a key is inserted, what it and an earlier, greater one have in common at their beginning is also the
beginning of an earlier key which is not greater. For instance because keys are inserted in their order, that of
the standard library for slices of bytes, or because no greater one has the same first byte. -/
def InOrder {α : Type} (es : List (Bytes × α)) : Prop :=
  ∀ before e after, es = before ++ e :: after → ∀ p, p ≠ [] → p <+: e.1 →
    (∃ k ∈ before, e.1 < k.1 ∧ p <+: k.1) → ∃ k ∈ before, k.1 ≤ e.1 ∧ p <+: k.1

/-- That the walk yields the items, and then `None`: `next` is called until then, in the model for a number of turns
of its loop which is large enough. -/
def Yields {α : Type} (buf : Bytes) (cap : Option Nat) (w : Walk α) (items : List (Bytes × α)) : Prop :=
  ∃ n, ∀ m, n ≤ m → collect buf cap m w = .ok items

end Musli.Zero.Trie
