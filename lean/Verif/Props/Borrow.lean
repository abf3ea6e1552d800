import Verif.Proofs.Borrow
import Verif.Props.Samples
/-!
# C107: strings and bytes borrowed from the input
-/
namespace Musli

section
variable [Host] (o : Options) (env : Env)

/-- **C107 (partial).** Binary formats: `&str` decodes from exactly the inputs `String` decodes
from, to the same string, leaving the same input; so does `str::decode_unsized` and `Cow<str>`,
which always borrows. Missing: JSON and `&[u8]`, where it is false. -/
theorem C107_binary_str_partial (m : Mode) :
    visitStr o m (Vis.borrow Str) = decode o env m .string ∧
    visitStr o m (Vis.copy Str) = decode o env m .string ∧
    visitStr o m (Vis.cow Str) = (decode o env m .string >>= fun x => pure (Cow.borrowed x)) := by
  refine ⟨?_, ?_, visitStr_eq o m _ env⟩
  · exact (visitStr_eq o m _ env).trans (dec_bind_pure _)
  · exact (visitStr_eq o m _ env).trans (dec_bind_pure _)

/-- **C107 (partial).** Binary formats: the same for `&[u8]`, the closure of
`<[u8]>::decode_unsized` and `Cow<[u8]>`, against a `Vec<u8>` which is `#[musli(bytes)]`. -/
theorem C107_binary_bytes_partial (m : Mode) :
    visitBytes o m (Vis.borrow Bytes) = decode o env m .bytes ∧
    visitBytes o m (Vis.copy Bytes) = decode o env m .bytes ∧
    visitBytes o m (Vis.cow Bytes) =
      (decode o env m .bytes >>= fun x => pure (Cow.borrowed x)) := by
  have e : decode o env m .bytes = (m.fmt o).decBytes := by
    show decD o env .bytes m = _
    rw [decD]
  rw [e]
  refine ⟨?_, ?_, visitBytes_eq o m _⟩
  · exact (visitBytes_eq o m _).trans (dec_bind_pure _)
  · exact (visitBytes_eq o m _).trans (dec_bind_pure _)

/-- **C107 (partial).** Binary formats: what is borrowed is a contiguous part of the input, the one
right before what is left. -/
theorem C107_binary_part_partial (m : Mode) (s r : Bytes) :
    (∀ x : Str, visitStr o m (Vis.borrow Str) s = .ok (x, r) → ∃ pre, s = pre ++ (x.bytes ++ r)) ∧
    (∀ x : Bytes, visitBytes o m (Vis.borrow Bytes) s = .ok (x, r) → ∃ pre, s = pre ++ (x ++ r)) := by
  constructor
  · intro x h
    rw [(C107_binary_str_partial o (⟨fun _ _ => none, fun _ _ _ => false⟩ : Env) m).1] at h
    change decD o _ .string m s = _ at h
    rw [decD] at h
    obtain ⟨b, s1, h1, h2⟩ := Dec.bind_eq_ok.1 h
    cases hb : toStr b with
    | error e => rw [hb] at h2; cases h2
    | ok y =>
      rw [hb] at h2
      cases h2
      rw [← Json.toStr_inv hb]
      exact decStr_part o m h1
  · intro x h
    rw [visitBytes_borrow] at h
    exact decBytes_part o m h

/-- **C107, violated.** `&[u8]` implements `Encode` as a slice of `u8`, which is a sequence, and
`Decode` as bytes: what it encodes to, in wire and descriptive, never decodes. -/
theorem C107_violated_slice (v : (Ty.vec (.prim (.uint .w8))).Val) (bs r : Bytes) :
    (encode o env .wire (.vec (.prim (.uint .w8))) v = .ok bs →
      visitBytes o .wire (Vis.borrow Bytes) (bs ++ r) = .error .invalid) ∧
    (encode o env .descriptive (.vec (.prim (.uint .w8))) v = .ok bs →
      visitBytes o .descriptive (Vis.borrow Bytes) (bs ++ r) = .error .invalid) := by
  constructor
  · intro h
    rw [visitBytes_borrow]
    exact wire_slice o h r
  · intro h
    rw [visitBytes_borrow]
    exact desc_slice o h r

/-- **C107 (partial).** In storage and packed it does decode, unless integers and lengths are fixed
and lengths as wide as on the host: a sequence of `u8` has the encoding of bytes there. -/
theorem C107_slice_partial (ho : Opt.isNativeFixed o = false) (v : Bytes) :
    encode o env .storage (.vec (.prim (.uint .w8))) v = encode o env .storage .bytes v ∧
    encode o env .packed (.vec (.prim (.uint .w8))) v = encode o env .packed .bytes v :=
  ⟨storage_slice o ho env v, packed_slice o ho env v⟩

end

namespace Json
open Musli.Json.Spec

/-- **C107 (partial).** JSON: `&str` decodes from an input exactly if it begins, after whitespace,
with a string literal in which there are no escapes; the result is what is between its quotes. -/
theorem C107_json_str_partial (s r : Bytes) (x : Str) :
    visitStr (Vis.borrow Str) s = .ok (x, r) ↔
      (∃ ws, Ws ws ∧ s = ws ++ 0x22#8 :: (x.bytes ++ 0x22#8 :: r)) ∧
      ∀ b ∈ x.bytes, 0x20 ≤ b.toNat ∧ b ≠ 0x22#8 ∧ b ≠ 0x5C#8 := by
  rw [visitStr_ok, ← plain_iff]
  constructor
  · rintro ⟨b, y, h1, h2⟩
    cases b with
    | false => cases h2
    | true =>
      cases h2
      obtain ⟨ws, hw, hp, _, e⟩ := (parseStringB_borrowed _ _ _).1 h1
      exact ⟨⟨ws, hw, e⟩, hp⟩
  · rintro ⟨⟨ws, hw, e⟩, hp⟩
    exact ⟨true, x, (parseStringB_borrowed _ _ _).2 ⟨ws, hw, hp, x.valid, e⟩, rfl⟩

/-- **C107 (partial).** JSON: where `&str` decodes, `String` decodes to the same. `Cow<str>` and
`str::decode_unsized` decode exactly where `String` does, to the same string; a `Cow` borrows
exactly if `&str` decodes. -/
theorem C107_json_agree_partial (s r : Bytes) (x : Str) :
    (visitStr (Vis.borrow Str) s = .ok (x, r) → decStr s = .ok (x, r)) ∧
    (visitStr (Vis.copy Str) s = .ok (x, r) ↔ decStr s = .ok (x, r)) ∧
    (decStr s = .ok (x, r) ↔ ∃ c : Cow Str, visitStr (Vis.cow Str) s = .ok (c, r) ∧ c.get = x) ∧
    (visitStr (Vis.cow Str) s = .ok (Cow.borrowed x, r) ↔
      visitStr (Vis.borrow Str) s = .ok (x, r)) := by
  simp only [visitStr_ok, decStr_ok]
  refine ⟨?_, ?_, ?_, ?_⟩
  · rintro ⟨b, y, h1, h2⟩
    cases b <;> cases h2
    exact ⟨_, h1⟩
  · constructor
    · rintro ⟨b, y, h1, h2⟩
      cases b <;> cases h2 <;> exact ⟨_, h1⟩
    · rintro ⟨b, h⟩
      exact ⟨b, x, h, by cases b <;> rfl⟩
  · constructor
    · rintro ⟨b, h⟩
      cases b with
      | true => exact ⟨.borrowed x, ⟨true, x, h, rfl⟩, rfl⟩
      | false => exact ⟨.owned x, ⟨false, x, h, rfl⟩, rfl⟩
    · rintro ⟨c, ⟨b, y, h1, h2⟩, rfl⟩
      cases b <;> cases h2 <;> exact ⟨_, h1⟩
  · constructor
    · rintro ⟨b, y, h1, h2⟩
      cases b <;> cases h2
      exact ⟨true, x, h1, rfl⟩
    · rintro ⟨b, y, h1, h2⟩
      cases b <;> cases h2
      exact ⟨true, x, h1, rfl⟩

/-- **C107 (partial).** JSON: what a string encodes to decodes as `&str` exactly if it contains no
control character, quote or backslash; then the result is the string. -/
theorem C107_json_encoded_partial (x : Str) (r : Bytes) :
    ((∃ y r', visitStr (Vis.borrow Str) (encodeString x.bytes ++ r) = .ok (y, r')) ↔
      ∀ b ∈ x.bytes, 0x20 ≤ b.toNat ∧ b ≠ 0x22#8 ∧ b ≠ 0x5C#8) ∧
    ∀ y r', visitStr (Vis.borrow Str) (encodeString x.bytes ++ r) = .ok (y, r') → y = x ∧ r' = r := by
  have back : ∀ y r', visitStr (Vis.borrow Str) (encodeString x.bytes ++ r) = .ok (y, r') →
      y = x ∧ r' = r := by
    intro y r' h
    have h1 := (C107_json_agree_partial _ _ _).1 h
    have h2 : decStr (encodeString x.bytes ++ r) = .ok (x, r) :=
      P.bind_eq_ok.2 ⟨_, _, parseString_encode _ x.valid r, pOfExcept_ok.2 ⟨toStr_val x, rfl⟩⟩
    rw [h2] at h1
    cases h1
    exact ⟨rfl, rfl⟩
  refine ⟨⟨?_, ?_⟩, back⟩
  · rintro ⟨y, r', h⟩
    obtain ⟨rfl, rfl⟩ := back _ _ h
    exact ((C107_json_str_partial _ _ _).1 h).2
  · intro h
    refine ⟨x, r, (C107_json_str_partial _ _ _).2 ⟨⟨[], (by intro b hb; cases hb), ?_⟩, h⟩⟩
    unfold encodeString
    rw [encStrLoop_plain _ _ ((plain_iff x.bytes).2 h)]
    simp

/-- **C107, violated.** JSON: a string with an escape, `"a\nb"`, decodes as a `String` but not as
`&str`; nor does the encoding of the string of a single quote. -/
theorem C107_violated_json_str :
    (∃ x s r, decStr s = .ok (x, r) ∧ ∀ y r', visitStr (Vis.borrow Str) s ≠ .ok (y, r')) ∧
    ∃ x : Str, ∀ y r', visitStr (Vis.borrow Str) (encodeString x.bytes) ≠ .ok (y, r') := by
  refine ⟨⟨⟨utf8% "a\nb", by decide⟩, utf8% "\"a\\nb\"", [], ?_, ?_⟩, ⟨[0x22#8], by decide⟩, ?_⟩
  · rfl
  · intro y r' h; cases h
  · intro y r' h; cases h

/-- **C107, violated.** JSON: bytes are written as an array of numbers; `&[u8]` never decodes. -/
theorem C107_violated_json_bytes (full : Bool) (s r x : Bytes) :
    visitBytes full (Vis.borrow Bytes) s ≠ .ok (x, r) := by
  intro h
  unfold visitBytes at h
  obtain ⟨_, s1, _, h⟩ := P.bind_eq_ok.1 h
  obtain ⟨l, s2, _, h⟩ := P.bind_eq_ok.1 h
  obtain ⟨y, s3, h, _⟩ := P.bind_eq_ok.1 h
  cases h

/-- **C107 (partial).** JSON: the closure of `<[u8]>::decode_unsized` gets, and `Cow<[u8]>` owns, what a
`Vec<u8>` which is `#[musli(bytes)]` decodes to. -/
theorem C107_json_bytes_partial (full : Bool) (s r x : Bytes) :
    (visitBytes full (Vis.copy Bytes) s = .ok (x, r) ↔ decBytes full s = .ok (x, r)) ∧
    ∀ c : Cow Bytes, visitBytes full (Vis.cow Bytes) s = .ok (c, r) ↔
      ∃ x, c = .owned x ∧ decBytes full s = .ok (x, r) := by
  unfold visitBytes decBytes sequence
  simp only [P.bind_eq_ok]
  constructor
  · constructor
    · rintro ⟨u, s1, h1, l, s2, h2, y, s3, h3, v, s4, h4, h5⟩
      cases h3; cases h5
      exact ⟨u, s1, h1, _, s2, h2, v, _, h4, rfl⟩
    · rintro ⟨u, s1, h1, l, s2, h2, v, s4, h4, h5⟩
      cases h5
      exact ⟨u, s1, h1, _, s2, h2, _, s2, rfl, v, _, h4, rfl⟩
  · intro c
    constructor
    · rintro ⟨u, s1, h1, l, s2, h2, y, s3, h3, v, s4, h4, h5⟩
      cases h3; cases h5
      exact ⟨l, rfl, u, s1, h1, l, s2, h2, v, _, h4, rfl⟩
    · rintro ⟨x, rfl, u, s1, h1, l, s2, h2, v, s4, h4, h5⟩
      cases h5
      exact ⟨u, s1, h1, _, s2, h2, .owned _, s2, rfl, v, _, h4, rfl⟩

example : visitBytes true (Vis.cow Bytes) (utf8% "[1, 2] ") = .ok (.owned [1, 2], utf8% " ") := by decide +kernel

/-! ## Examples -/

/-- `"hi"` decodes as `&str`; `"h\u00e9"` as a `Cow` which does not borrow. -/
example : visitStr (Vis.borrow Str) (utf8% " \"hi\",") = .ok (⟨utf8% "hi", by decide⟩, utf8% ",") ∧
    visitStr (Vis.cow Str) (utf8% "\"h\\u00e9\"") = .ok (.owned ⟨utf8% "hé", by decide⟩, []) ∧
    visitStr (Vis.cow Str) (utf8% "\"hé\"") = .ok (.borrowed ⟨utf8% "hé", by decide⟩, []) :=
  ⟨rfl, rfl, rfl⟩

/-- An array of numbers decodes as `Cow<[u8]>`, which owns them. -/
example : visitBytes true (Vis.cow Bytes) (utf8% "[1, 2]") = .ok (.owned [1#8, 2#8], []) := by
  decide +kernel

end Json

section
attribute [local instance] Sample.host

/-- A `&[u8]` of two bytes, written and read. -/
example : encode Sample.varOpts Sample.env .wire (.vec (.prim (.uint .w8))) [1#8, 2#8] =
      .ok [0x82#8, 0xC1#8, 0xC2#8] ∧
    visitBytes Sample.varOpts .wire (Vis.borrow Bytes) [0x42#8, 1#8, 2#8, 9#8] =
      .ok ([1#8, 2#8], [9#8]) ∧
    Opt.isNativeFixed Sample.varOpts = false ∧
    encode Sample.varOpts Sample.env .storage (.vec (.prim (.uint .w8))) [1#8, 2#8] =
      .ok [2#8, 1#8, 2#8] := by
  decide +kernel

/-- `&str` from storage. -/
example : visitStr Sample.varOpts .storage (Vis.borrow Str) [2#8, 0xC3#8, 0xA9#8, 7#8] =
    .ok (⟨utf8% "é", by decide⟩, [7#8]) := rfl
end
end Musli
