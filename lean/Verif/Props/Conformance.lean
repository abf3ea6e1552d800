import Verif.Props.Tagged
import Verif.Props.Json
import Verif.Props.SkipField
import Verif.Model.PackedField
import Verif.Props.Alloc
/-!
# The model agrees with the tests of the repository

The expectations of `crates/musli/tests`, evaluated with the model. These are tests of the model, not theorems.
-/
namespace Musli
open Sample

set_option maxRecDepth 20000

namespace Conformance

attribute [local instance] Sample.host

/-- A field without attributes. -/
abbrev fld (n : Name) (t : Ty) (fs : Fields) : Fields := .cons n none none t fs
abbrev u32 : Ty := .prim (.uint .w32)
abbrev hello : Str := ⟨utf8% "Hello", by decide⟩

/-! ## `variants.rs` -/

/-- `EmptyVariants`, lines 3-16. -/
def emptyVariants : Ty := .enm .str (.cons (str (utf8% "Empty")) .unitStruct
  (.cons (str (utf8% "Tuple")) (.strct .str .nil) (.cons (str (utf8% "Struct")) (.strct .str .nil) .nil)))

example : Json.encode env emptyVariants (.inl ()) = .ok (utf8% "{\"Empty\":{}}") ∧
    Json.encode env emptyVariants (.inr (.inl ())) = .ok (utf8% "{\"Tuple\":{}}") ∧
    Json.encode env emptyVariants (.inr (.inr (.inl ()))) = .ok (utf8% "{\"Struct\":{}}") := by decide +kernel

/-- `NamedVariants`, lines 18-40. -/
def namedVariants : Ty := .enm .str
  (.cons (str (utf8% "Variant1")) (.strct .idx (fld (.idx 0) u32 .nil))
  (.cons (str (utf8% "Variant2")) (.strct .idx (fld (.idx 0) u32 .nil)) .nil))

example : Json.encode env namedVariants (.inl (1#32, ())) = .ok (utf8% "{\"Variant1\":{\"0\":1}}") ∧
    Json.encode env namedVariants (.inr (.inl (2#32, ()))) = .ok (utf8% "{\"Variant2\":{\"0\":2}}") := by decide +kernel
example : Json.decode true env namedVariants (utf8% "{\"Variant2\":{\"0\":2}}") = .ok (.inr (.inl (2#32, ())), []) := rfl

/-- `UntaggedVariants`, lines 42-67. -/
def untaggedVariants : Ty := .enm .str
  (.cons (str (utf8% "Empty")) (.packed false .nil)
  (.cons (str (utf8% "Tuple")) (.packed false (fld (.idx 0) u32 (fld (.idx 1) u32 .nil)))
  (.cons (str (utf8% "Struct")) (.packed false (fld (str (utf8% "a")) u32 (fld (str (utf8% "b")) u32 .nil))) .nil)))

example : Json.encode env untaggedVariants (.inl ()) = .ok (utf8% "{\"Empty\":[]}") ∧
    Json.encode env untaggedVariants (.inr (.inl (42#32, 84#32, ()))) = .ok (utf8% "{\"Tuple\":[42,84]}") ∧
    Json.encode env untaggedVariants (.inr (.inr (.inl (42#32, 84#32, ())))) = .ok (utf8% "{\"Struct\":[42,84]}") := by
  decide +kernel
example : Json.decode true env untaggedVariants (utf8% "{\"Struct\":[42,84]}") =
    .ok (.inr (.inr (.inl (42#32, 84#32, ()))), []) := rfl

/-! ## `bytes.rs`, lines 6-27 -/

def container : Ty := .strct .str (fld (str (utf8% "vec")) .bytes (fld (str (utf8% "vec_deque")) .bytes
  (fld (str (utf8% "boxed")) .bytes .nil)))

example : Json.encode env container ([0, 1, 2, 3], [0, 1, 2, 3], [0, 1, 2, 3], ()) =
    .ok (utf8% "{\"vec\":[0,1,2,3],\"vec_deque\":[0,1,2,3],\"boxed\":[0,1,2,3]}") := by decide +kernel
example : Json.decode true env container (utf8% "{\"vec\":[0,1,2,3],\"vec_deque\":[0,1,2,3],\"boxed\":[0,1,2,3]}") =
    .ok (([0, 1, 2, 3], [0, 1, 2, 3], [0, 1, 2, 3], ()), []) := rfl

/-! ## `skip_encoding.rs` and `skip_encoding_if.rs` -/

/-- `SkipEncodeIf`. -/
def skipEncodeIf : Ty := .strct .str (fld (str (utf8% "before")) u32
  (.cons (str (utf8% "skipped")) (some 0) (some 0) (.option u32) (fld (str (utf8% "after")) u32 .nil)))

example : Json.encode env skipEncodeIf (1#32, some 2#32, 3#32, ()) =
      .ok (utf8% "{\"before\":1,\"skipped\":2,\"after\":3}") ∧
    Json.encode env skipEncodeIf (1#32, none, 3#32, ()) = .ok (utf8% "{\"before\":1,\"after\":3}") := by decide +kernel
example : Json.decode true env skipEncodeIf (utf8% "{\"before\":1,\"after\":3}") = .ok ((1#32, none, 3#32, ()), []) := rfl

/-- `SkipEncodeIfPacked`. -/
def skipEncodeIfPacked : Ty := .packed false (fld (str (utf8% "before")) u32
  (.cons (str (utf8% "skipped")) none (some 0) (.option u32) (fld (str (utf8% "after")) u32 .nil)))

example : Json.encode env skipEncodeIfPacked (1#32, some 2#32, 3#32, ()) = .ok (utf8% "[1,2,3]") ∧
    Json.encode env skipEncodeIfPacked (1#32, none, 3#32, ()) = .ok (utf8% "[1,3]") := by decide +kernel
example : Json.decode true env (.packed true (fld (.idx 0) u32 (fld (.idx 1) u32 .nil))) (utf8% "[1,3]") =
    .ok ((1#32, 3#32, ()), []) := rfl

/-- `SkipSerializeOuter`. -/
def skipOuter : Ty := .strct .str (fld (str (utf8% "flag")) (.prim .bool)
  (.cons (str (utf8% "inner")) (some 0) (some 0) (.option .unitStruct) .nil))

example : Json.encode env skipOuter (false, some (), ()) = .ok (utf8% "{\"flag\":false,\"inner\":{}}") ∧
    Json.encode env skipOuter (false, none, ()) = .ok (utf8% "{\"flag\":false}") := by decide +kernel
example : Json.decode true env skipOuter (utf8% "{\"flag\":false,\"inner\":{}}") = .ok ((false, some (), ()), []) := rfl

/-! ## `struct_name.rs`, `struct_fallback.rs`, `tuples`, `transparent.rs` -/

/-- `struct_name.rs` 30-57: the names of fields in text, by name and by index. -/
example : Json.encode env (.strct .str (fld (str (utf8% "string")) .string (fld (str (utf8% "number")) u32 .nil)))
      (⟨utf8% "foo", by decide⟩, 42#32, ()) = .ok (utf8% "{\"string\":\"foo\",\"number\":42}") ∧
    Json.encode env (.strct .idx (fld (.idx 0) .string (fld (.idx 1) u32 .nil)))
      (⟨utf8% "foo", by decide⟩, 42#32, ()) = .ok (utf8% "{\"0\":\"foo\",\"1\":42}") := by decide +kernel

/-- `struct_rename`, `struct_fallback.rs` 43-62. -/
example : Json.decode true env (.strct .idx (fld (.idx 3) u32 .nil)) (utf8% "{\"0\":11,\"1\":13,\"2\":15,\"3\":17}") =
    .ok ((17#32, ()), []) := rfl

/-- `transparent_struct`, `transparent.rs` 38-62. -/
example : Json.encode env (.transparent .string) ⟨utf8% "Hello World", by decide⟩ = .ok (utf8% "\"Hello World\"") ∧
    Json.encode env .string ⟨utf8% "Hello World", by decide⟩ = .ok (utf8% "\"Hello World\"") := by decide +kernel

/-! ## `named_variants.rs` and `enum_fallback.rs` -/

example : Json.encode env (.unitEnum .str [str (utf8% "variant-name")]) (0 : Fin 1) = .ok (utf8% "\"variant-name\"") := by
  decide +kernel

/-- `EnumDefault`, `enum_fallback.rs` 5-52: `Variant4` has the name 3, `Fallback` is the fallback. -/
example : Json.decUnitFallbackJ true .idx [.idx 3, .idx 1] 1 (utf8% "0") = .ok ((1 : Fin 2), []) ∧
    Json.decUnitFallbackJ true .idx [.idx 3, .idx 1] 1 (utf8% "2") = .ok ((1 : Fin 2), []) ∧
    Json.decUnitFallbackJ true .idx [.idx 3, .idx 1] 1 (utf8% "3") = .ok ((0 : Fin 2), []) := ⟨rfl, rfl, rfl⟩

/-! ## `enum_adjacent.rs`, `enum_internal.rs` -/

/-- `Named`, `enum_adjacent.rs` 5-38. -/
def named : Variants :=
  .cons (str (utf8% "Variant1")) (.strct .str (fld (str (utf8% "string")) .string (fld (str (utf8% "number")) u32 .nil)))
  (.cons (str (utf8% "variant2")) (.strct .str (fld (str (utf8% "string")) .string .nil)) .nil)

example : Json.encAdjacentJ env (str (utf8% "type")) (str (utf8% "content")) named (.inl (hello, 42#32, ())) =
      .ok (utf8% "{\"type\":\"Variant1\",\"content\":{\"string\":\"Hello\",\"number\":42}}") ∧
    Json.encAdjacentJ env (str (utf8% "type")) (str (utf8% "content")) named (.inr (.inl (hello, ()))) =
      .ok (utf8% "{\"type\":\"variant2\",\"content\":{\"string\":\"Hello\"}}") := by decide +kernel
/-- A quote and a zero, lines 31-37. -/
example : Json.encAdjacentJ env (str (utf8% "type")) (str (utf8% "content")) named
      (.inr (.inl (⟨[0x22, 0], by decide⟩, ()))) =
    .ok (utf8% "{\"type\":\"variant2\",\"content\":{\"string\":\"\\\"\\u0000\"}}") := by decide +kernel
example : Json.decAdjacentJ env true (str (utf8% "type")) (str (utf8% "content")) .str named
    (utf8% "{\"type\":\"variant2\",\"content\":{\"string\":\"\\\"\\u0000\"}}") =
    .ok (.inr (.inl (⟨[0x22, 0], by decide⟩, ())), []) := rfl

/-- `Indexed`, `enum_adjacent.rs` 125-150. -/
def indexed : Variants :=
  .cons (.idx 33) (.strct .str (fld (str (utf8% "variant1")) u32 .nil))
  (.cons (.idx 44) (.strct .str (fld (str (utf8% "variant2")) u32 .nil)) .nil)

example : Json.encAdjacentJ env (.idx 11) (.idx 22) indexed (.inl (10#32, ())) =
      .ok (utf8% "{\"11\":33,\"22\":{\"variant1\":10}}") ∧
    Json.encAdjacentJ env (.idx 11) (.idx 22) indexed (.inr (.inl (20#32, ()))) =
      .ok (utf8% "{\"11\":44,\"22\":{\"variant2\":20}}") := by decide +kernel
example : Json.decAdjacentJ env true (.idx 11) (.idx 22) .idx indexed (utf8% "{\"11\":44,\"22\":{\"variant2\":20}}") =
    .ok (.inr (.inl (20#32, ())), []) := rfl

/-- `enum_internal.rs` 5-38 and 95-118. -/
example : Json.encInternalJ env (str (utf8% "type")) named (.inr (.inl (hello, ()))) =
      .ok (utf8% "{\"type\":\"variant2\",\"string\":\"Hello\"}") ∧
    Json.encInternalJ env (.idx 11) indexed (.inl (10#32, ())) = .ok (utf8% "{\"11\":33,\"variant1\":10}") := by
  decide +kernel
example : Json.decInternalJ env (fun _ _ => 0) (str (utf8% "type")) .str named
    (utf8% "{\"type\":\"variant2\",\"string\":\"Hello\"}") = .ok (.inr (.inl (hello, ())), []) := rfl

/-! ## `untagged.rs`, `untagged_enums.rs` -/

/-- `Enum`, `untagged.rs` 10-64. -/
def untagged : Variants :=
  .cons (.idx 0) .unitStruct
  (.cons (.idx 1) (.transparent (.strct .str (fld (str (utf8% "field")) .string .nil)))
  (.cons (.idx 2) (.strct .str (fld (str (utf8% "field")) .string .nil))
  (.cons (.idx 3) (.strct .idx (fld (.idx 0) (.strct .str (fld (str (utf8% "field")) .string .nil)) .nil)) .nil)))

example : Json.encBodyJ env untagged (.inl ()) = .ok (utf8% "{}") ∧
    Json.encBodyJ env untagged (.inr (.inl (hello, ()))) = .ok (utf8% "{\"field\":\"Hello\"}") ∧
    Json.encBodyJ env untagged (.inr (.inr (.inl (hello, ())))) = .ok (utf8% "{\"field\":\"Hello\"}") ∧
    Json.encBodyJ env untagged (.inr (.inr (.inr (.inl ((hello, ()), ()))))) =
      .ok (utf8% "{\"0\":{\"field\":\"Hello\"}}") := by decide +kernel

/-- `Untagged`, `untagged_enums.rs` 92-131: the second variant is tried if the first does not fit. -/
def personOrStruct : Variants :=
  .cons (.idx 0) (.strct .str (fld (str (utf8% "name")) .string (fld (str (utf8% "age")) u32 .nil)))
  (.cons (.idx 1) (.transparent (.strct .str (fld (str (utf8% "foo")) u32 (fld (str (utf8% "bar")) u32
    (fld (str (utf8% "baz")) u32 .nil))))) .nil)

example : Json.encBodyJ env personOrStruct (.inr (.inl (1#32, 2#32, 3#32, ()))) =
    .ok (utf8% "{\"foo\":1,\"bar\":2,\"baz\":3}") := by decide +kernel
example : (Json.decUntaggedJ env true true personOrStruct (utf8% "{\"foo\":1,\"bar\":2,\"baz\":3}")).map (·.1) =
    .ok (.inr (.inl (1#32, 2#32, 3#32, ()))) := rfl
example : (Json.decUntaggedJ env true true personOrStruct (utf8% "{\"name\":\"John\",\"age\":37}")).map (·.1) =
    .ok (.inl (⟨utf8% "John", by decide⟩, 37#32, ())) := rfl

/-! ## `upgrade.rs`, `skip_compat.rs` -/

/-- `Version1` and `Version2`, in the binary mode. -/
def version1 : Ty := .strct .idx (fld (.idx 0) .string .nil)
@[inherit_doc version1] def version2 : Ty := .strct .idx (fld (.idx 0) .string (.cons (.idx 1) (some 0) none (.option u32) .nil))

/-- Version 2 is read as version 1 in the formats which are stable under upgrade. -/
example : (match encode varOpts env .wire version2 (hello, some 61#32, ()) with
      | .ok bs => decode varOpts env .wire version1 bs | .error e => .error e) = .ok ((hello, ()), []) ∧
    (match encode varOpts env .descriptive version2 (hello, some 61#32, ()) with
      | .ok bs => decode varOpts env .descriptive version1 bs | .error e => .error e) = .ok ((hello, ()), []) :=
  ⟨rfl, rfl⟩
/-- Version 1 is read as version 2 in all formats with tags. -/
example : (match encode varOpts env .storage version1 (hello, ()) with
      | .ok bs => decode varOpts env .storage version2 bs | .error e => .error e) = .ok ((hello, none, ()), []) ∧
    (match encode varOpts env .wire version1 (hello, ()) with
      | .ok bs => decode varOpts env .wire version2 bs | .error e => .error e) = .ok ((hello, none, ()), []) ∧
    (match encode varOpts env .descriptive version1 (hello, ()) with
      | .ok bs => decode varOpts env .descriptive version2 bs | .error e => .error e) = .ok ((hello, none, ()), []) :=
  ⟨rfl, rfl, rfl⟩

end Conformance

/-! ## `crates/musli/src/alloc/slice/tests.rs`: the structure of the slice allocator -/

namespace Slice.Conformance

/-- A list of regions. -/
def chain (step : Nat → Option Nat) : Nat → Option Nat → List Nat
  | 0, _ => []
  | _, none => []
  | n + 1, some k => k :: chain step n (step k)

/-- What `assert_structure` looks at: the region in `occupied`, the free regions, the list of regions backward and
forward, and start and capacity of the regions in the list. -/
structure Regions where
  occupied : Option Nat
  free : List Nat
  back : List Nat
  list : List Nat
  places : List (Nat × Nat)
deriving DecidableEq

def regions (s : State) : Regions :=
  let back := chain (fun k => (s.i.hdr k).prev) 10 s.i.tail
  let list := chain (fun k => (s.i.hdr k).next) 10 back.getLast?
  ⟨s.i.occupied, chain (fun k => (s.i.hdr k).next) 10 s.i.freeHead, back.reverse, list,
    list.map fun k => ((s.i.hdr k).start, (s.i.hdr k).capacity)⟩

/-- The structure after some operations of the code, with an `ArrayBuffer` of 4096 bytes. -/
def after (ops : List Op) : Regions :=
  regions (play false (zeros 4096) (fun _ => none) ops).1

/-- `Vec::<u8, _>::new_in`. -/
abbrev new (h : Nat) : Op := .new h 1 1
/-- `extend_from_slice`. -/
abbrev ext (h : Nat) (bs : Bytes) : Op := .extend h bs.length bs

/- The regions `A` to `D` of the tests are 1 to 4. -/

/-- `grow_last`, lines 193-224. -/
example : after [new 0, new 1, ext 1 [1, 2, 3, 4, 5, 6], ext 1 [7, 8]] =
      ⟨none, [], [1, 2], [1, 2], [(0, 0), (0, 8)]⟩ ∧
    after [new 0, new 1, ext 1 [1, 2, 3, 4, 5, 6], ext 1 [7, 8], ext 1 [9, 10]] =
      ⟨none, [], [1, 2], [1, 2], [(0, 0), (0, 10)]⟩ ∧
    after [new 0, new 1, ext 1 [1, 2, 3, 4, 5, 6], ext 1 [7, 8], ext 1 [9, 10], .drop 0, .drop 1] =
      ⟨none, [1, 2], [], [], []⟩ := by decide +kernel

/-- `realloc`, lines 226-298. -/
def three : List Op := [new 0, ext 0 [1, 2, 3, 4], new 1, ext 1 [1, 2, 3, 4], new 2, ext 2 [1, 2, 3, 4]]

example : after three = ⟨none, [], [1, 2, 3], [1, 2, 3], [(0, 4), (4, 4), (8, 4)]⟩ ∧
    after (three ++ [.drop 0]) = ⟨some 1, [], [1, 2, 3], [1, 2, 3], [(0, 4), (4, 4), (8, 4)]⟩ ∧
    after (three ++ [.drop 0, .drop 1]) = ⟨some 1, [2], [1, 3], [1, 3], [(0, 8), (8, 4)]⟩ ∧
    after (three ++ [.drop 0, .drop 1, new 3]) = ⟨none, [2], [1, 3], [1, 3], [(0, 8), (8, 4)]⟩ ∧
    after (three ++ [.drop 0, .drop 1, new 3, ext 3 [1, 2]]) = ⟨none, [2], [1, 3], [1, 3], [(0, 8), (8, 4)]⟩ ∧
    after (three ++ [.drop 0, .drop 1, new 3, ext 3 [1, 2], ext 3 [1, 2, 3, 4, 5, 6, 7, 8, 9, 10, 11, 12, 13, 14, 15, 16]]) =
      ⟨some 1, [], [1, 3, 2], [1, 3, 2], [(0, 8), (8, 4), (12, 18)]⟩ := by decide +kernel

/-- `grow_empty_moved`, lines 300-348. -/
def moved : List Op := [new 0, new 1, new 2, ext 2 [0], ext 0 [1, 2, 3, 4]]

example : after moved = ⟨none, [], [2, 3, 1], [2, 3, 1], [(0, 0), (0, 1), (1, 4)]⟩ ∧
    after (moved ++ [.drop 2]) = ⟨none, [3], [2, 1], [2, 1], [(0, 1), (1, 4)]⟩ ∧
    after (moved ++ [.drop 2, .drop 1]) = ⟨some 2, [3], [2, 1], [2, 1], [(0, 1), (1, 4)]⟩ ∧
    after (moved ++ [.drop 2, .drop 1, .drop 0]) = ⟨none, [2, 1, 3], [], [], []⟩ := by decide +kernel

/-- `extend`, `extend_middle` and `extend_gap`, lines 350-442. -/
example : after [new 0, new 1, ext 0 [1, 2], ext 1 [1, 2, 3, 4], .append 0 1] = ⟨none, [2], [1], [1], [(0, 6)]⟩ ∧
    after [new 0, new 1, new 2, ext 0 [1, 2], ext 1 [1, 2, 3, 4], ext 2 [1, 2, 3, 4], .append 0 1] =
      ⟨none, [2], [1, 3], [1, 3], [(0, 6), (6, 4)]⟩ ∧
    after [new 0, new 1, new 2, ext 0 [1, 2], ext 1 [7, 8, 9, 10], ext 2 [3, 4, 5, 6], .drop 1, .append 0 2] =
      ⟨none, [3, 2], [1], [1], [(0, 10)]⟩ ∧
    (outcome false 4096 [new 0, new 1, new 2, ext 0 [1, 2], ext 1 [7, 8, 9, 10], ext 2 [3, 4, 5, 6], .drop 1,
      .append 0 2] 0).1 = some [1, 2, 3, 4, 5, 6] := by decide +kernel

/-- `grow_into_preceeding`, lines 463-500. -/
def four : List Op := [new 0, ext 0 [0], new 1, ext 1 [1], new 2, ext 2 [2], new 3, ext 3 [3], .drop 0]

example : after four = ⟨some 1, [], [1, 2, 3, 4], [1, 2, 3, 4], [(0, 1), (1, 1), (2, 1), (3, 1)]⟩ ∧
    after (four ++ [ext 1 [2]]) = ⟨none, [2], [1, 3, 4], [1, 3, 4], [(0, 2), (2, 1), (3, 1)]⟩ := by decide +kernel

/-- `flip_flop`, lines 502-578. -/
def flip : List Op := [new 0, new 1, ext 0 [0], ext 1 [0]]

example : after flip = ⟨none, [], [1, 2], [1, 2], [(0, 1), (1, 1)]⟩ ∧
    after (flip ++ [ext 0 [1]]) = ⟨some 1, [], [1, 2, 3], [1, 2, 3], [(0, 1), (1, 1), (2, 2)]⟩ ∧
    after (flip ++ [ext 0 [1], ext 1 [1]]) = ⟨none, [2], [1, 3], [1, 3], [(0, 2), (2, 2)]⟩ ∧
    after (flip ++ [ext 0 [1], ext 1 [1], ext 0 [2]]) = ⟨none, [2], [1, 3], [1, 3], [(0, 2), (2, 3)]⟩ ∧
    after (flip ++ [ext 0 [1], ext 1 [1], ext 0 [2], ext 1 [2]]) =
      ⟨some 1, [], [1, 3, 2], [1, 3, 2], [(0, 2), (2, 3), (5, 3)]⟩ ∧
    after (flip ++ [ext 0 [1], ext 1 [1], ext 0 [2], ext 1 [2], ext 0 [3]]) =
      ⟨none, [3], [1, 2], [1, 2], [(0, 5), (5, 3)]⟩ ∧
    after (flip ++ [ext 0 [1], ext 1 [1], ext 0 [2], ext 1 [2], ext 0 [3], ext 1 [3]]) =
      ⟨none, [3], [1, 2], [1, 2], [(0, 5), (5, 4)]⟩ := by decide +kernel

/-- `limits`, lines 580-597: a buffer of 8 bytes has no room for a header, one of 32 bytes has for 8 bytes. -/
example : ((zeros 8).i.alloc false 0 1).1 = none ∧
    (((play false (zeros 32) (fun _ => none) [new 0]).1.step false (ext 0 [0, 1, 2, 3, 4, 5, 6, 7])).1,
      (((play false (zeros 32) (fun _ => none) [new 0, ext 0 [0, 1, 2, 3, 4, 5, 6, 7]]).1.step false (ext 0 [0])).1)) =
      (true, false) := by decide +kernel

end Slice.Conformance
end Musli
