import Verif.Props.ZeroOwned
import Verif.Props.ZeroTrie
/-!
# Layout, buffers and tries agree with the tests of the repository

`crates/musli-zerocopy/src/buf/tests.rs` and `crates/musli-zerocopy/src/trie/tests.rs`, evaluated with the model. These are tests of the
model, not theorems.
-/
namespace Musli.Zero.OwnedProps
open Musli Musli.Zero Musli.Zero.LayoutProps

/-- `Inner`, `tests.rs:12-18`. -/
abbrev testInner : ZTy := .struct none 0 (fields [u8, u64])
/-- `allocate_array_needing_padding`. -/
abbrev testElement : ZTy := .struct none 0 (fields [u8, u32, .array testInner 2])
/-- `inner_padding`: `align(8)` and `align(16)`. -/
abbrev testAligned : ZTy := .struct none 0 (fields [.struct none 3 (fields [u8]), .struct none 4 (fields [u32])])

example : testElement.padded = true ∧ testElement.size = 40 ∧
    (ZTy.struct none 0 (fields [u32, u32, u32])).padded = false ∧
    testAligned.padded = true ∧ (ZTy.struct none 3 (fields [u8])).padded = true ∧ (ZTy.struct none 4 (fields [u32])).padded = true ∧
    testAligned.size = 32 ∧ testAligned.lg = 4 ∧
    (ZTy.struct (some 0) 0 (fields [u8, u32])).padded = false ∧ (ZTy.struct (some 0) 0 (fields [u8, u32])).size = 5 := by decide

/-- The offset of what is stored uninitialised after one byte, and what is then the length. -/
abbrev afterByte (t : ZTy) : Option (Nat × Nat) := (do
  let b ← Owned.new bump 128 0
  let b ← extend bump b [1#8]
  let b ← storeUninit bump b t
  .ok (b.len - t.size, b.len) : Except ZErr (Nat × Nat)).toOption

/-- `test_unaligned_write`: a `Ref<str>` is two `u32`; `inner_padding`. -/
example : afterByte (.struct none 0 (fields [.struct none 0 (fields [u32, u32])])) = some (4, 12) ∧
    afterByte testAligned = some (16, 48) := by decide +kernel

/-- What is written of an element of `allocate_array_needing_padding` is what was there, with padding of zeros. -/
example : (storeUnaligned testElement ([some 1#8] ++ gap 3 ++ [some 4#8, some 3#8, some 2#8, some 1#8] ++ [some 1#8] ++ gap 7 ++
      List.replicate 8 (some 5#8) ++ [some 1#8] ++ gap 7 ++ List.replicate 8 (some 6#8))).toOption =
    some ([some 1#8] ++ List.replicate 3 (some 0#8) ++ [some 4#8, some 3#8, some 2#8, some 1#8] ++ [some 1#8] ++
      List.replicate 7 (some 0#8) ++ List.replicate 8 (some 5#8) ++ [some 1#8] ++ List.replicate 7 (some 0#8) ++
      List.replicate 8 (some 6#8)) := by decide +kernel

/-- `inner_padding`. -/
example : (storeUnaligned testAligned ([some 10#8] ++ gap 15 ++ [some 20#8, some 0#8, some 0#8, some 0#8] ++ gap 12)).toOption =
    some ([some 10#8] ++ List.replicate 15 (some 0#8) ++ [some 20#8] ++ List.replicate 15 (some 0#8)) := by decide +kernel

end Musli.Zero.OwnedProps

namespace Musli.Zero.Trie
open Musli Musli.Zero

/-- What is returned for a string, and what is yielded below a prefix, when these strings are inserted with these values. -/
abbrev trieTest (keys : List (Bytes × Nat)) (key p : Bytes) : Option (Option (List Nat) × List (Bytes × Nat)) :=
  (sampleRun (keys.map (·.1)) key p (some 64)).map fun r =>
    (r.2.1.map fun is => is.filterMap fun i => (keys.map (·.2))[i]?, r.2.2.filterMap fun e => (keys.map (·.2))[e.2]?.map fun v => (e.1, v))

abbrev works : List (Bytes × Nat) := [(utf8% "work", 1), (utf8% "worker", 2), (utf8% "workers", 3), (utf8% "working", 4), (utf8% "working", 5),
  (utf8% "working man", 6)]
abbrev disorderly : List (Bytes × Nat) := [(utf8% "working", 4), (utf8% "working man", 6), (utf8% "work", 1), (utf8% "worker", 2),
  (utf8% "workers", 3), (utf8% "working", 5)]
abbrev runs : List (Bytes × Nat) := works ++ [(utf8% "run", 7), (utf8% "running", 8)]

/-- `regular_trie`. -/
example : (trieTest works (utf8% "aard") []).map (·.1) = some none ∧ (trieTest works (utf8% "worker") []).map (·.1) = some (some [2]) ∧
    (trieTest works (utf8% "working") []).map (·.1) = some (some [4, 5]) := by decide +kernel

/-- `disorederly_trie`. -/
example : (trieTest disorderly (utf8% "aard") []).map (·.1) = some none ∧
    (trieTest disorderly (utf8% "worker") []).map (·.1) = some (some [2]) ∧
    (trieTest disorderly (utf8% "working") []).map (·.1) = some (some [4, 5]) := by decide +kernel

/-- `trie_problem`. -/
example : (trieTest [(utf8% "食べない", 2), (utf8% "食べなかった", 1)] (utf8% "食べなかった") []).map (·.1) = some (some [1]) ∧
    (trieTest [(utf8% "食べない", 2), (utf8% "食べなかった", 1)] (utf8% "食べない") []).map (·.1) = some (some [2]) := by decide +kernel

/-- `trie_prefix` and `entries`. -/
example : (trieTest runs [] (utf8% "workin")).map (·.2) =
      some [(utf8% "working", 4), (utf8% "working", 5), (utf8% "working man", 6)] ∧
    (trieTest runs [] (utf8% "wor")).map (·.2) = some works ∧
    (trieTest runs [] (utf8% "runn")).map (·.2) = some [(utf8% "running", 8)] ∧
    (trieTest runs [] (utf8% "asdf")).map (·.2) = some [] := by decide +kernel

end Musli.Zero.Trie
