import Verif.Model.Codec
/-!
# Closures which stop early

`decode_sequence(f)` and `decode_map(f)` with a closure that reads at most `k`
elements (entries) and returns. `wire/de.rs:468-495`, `descriptive/de.rs:571-591`,
`storage/de.rs:379-408`: after the closure returns, what it left is skipped (or,
in storage, is an error).
-/
namespace Musli

/-- A closure of `decode_sequence` that reads at most `k` elements with `d`. -/
def seqPrefix {α} (F : Fmt) (d : Dec α) (k : Nat) : Dec (List α) := do
  let c ← F.decSeq
  let l ← decN d (min k c)
  let _ ← F.endSeq (c - min k c)
  pure l

/-- A closure of `decode_map` that reads at most `k` entries with `d`. -/
def mapPrefix {α} (F : Fmt) (d : Dec α) (k : Nat) : Dec (List α) := do
  let c ← F.decMap
  let l ← decN d (min k c)
  let _ ← F.endMap (c - min k c)
  pure l

end Musli
