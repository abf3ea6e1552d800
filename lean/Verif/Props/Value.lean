import Verif.Proofs.Skip
import Verif.Proofs.Value.Invariant
import Verif.Proofs.Value.Ints
import Verif.Props.Samples
/-!
# C63 - C68: `musli::value`
-/
namespace Musli

/-! ## C63: a value of a type as a `Value` and back -/

section
variable [Host] (o : Options) (env : Env)

/-- **C63**, the full statement: `value::decode(&value::encode(&v)?)? == v`, for types whose
fields and variants are named consistently and which round-trip in the descriptive format. -/
def C63Full : Prop := ∀ (t : Ty) (v : t.Val) (x : Value), Supported o .descriptive t = true →
  t.envOk env → toValue o env t v = .ok x → fromValue o env t x = .ok v

/-- **C63 (partial).** It holds if `()` is neither the payload of an option nor an element of a
sequence or tuple. -/
theorem C63_value_roundtrip_partial (t : Ty) (ht : Supported o .descriptive t = true)
    (hu : t.unitFree = true) (henv : t.envOk env) (v : t.Val) (x : Value)
    (hx : toValue o env t v = .ok x) : fromValue o env t x = .ok v := by
  rw [toValue_eq o env t v hu] at hx
  exact decV_reprV _ env t false ht henv false v x hx

end

section
open Sample
attribute [local instance] Sample.host

example : Supported varOpts .descriptive person = true ∧ person.unitFree = true ∧ person.envOk env :=
  ⟨by decide, by decide, person_envOk⟩
example : (toValue varOpts env person bob).toOption.isSome = true := by decide
/-- Units are fine in fields, in maps and as the body of a variant. -/
example : (Ty.map .unit (.strct .idx (.cons (.idx 0) none none .unit .nil))).unitFree = true := by decide

/-- `Some(())` becomes `Value::Unit`, which is not an option. -/
theorem C63_violated_some_unit :
    toValue varOpts env (.option .unit) (some ()) = .ok .unit ∧
    fromValue varOpts env (.option .unit) .unit = .error .invalid := ⟨rfl, rfl⟩

/-- The elements of `vec![(), ()]` are lost. -/
theorem C63_violated_vec_unit :
    toValue varOpts env (.vec .unit) [(), ()] = .ok (.seq []) ∧
    fromValue varOpts env (.vec .unit) (.seq []) = .ok ([] : List Unit) := ⟨rfl, rfl⟩

/-- `((), 5u8)` loses its first element and cannot be decoded. -/
theorem C63_violated_tuple_unit :
    let t : Ty := .tuple (.cons .unit (.cons (.prim (.uint .w8)) .nil))
    toValue varOpts env t ((), 5#8, ()) = .ok (.seq [.number (.uint .w8 5#8)]) ∧
    fromValue varOpts env t (.seq [.number (.uint .w8 5#8)]) = .error .invalid := ⟨rfl, rfl⟩

@[inherit_doc C63Full]
theorem C63_full_statement_false : ¬C63Full varOpts env := by
  intro h
  have := h (.option .unit) (some ()) .unit (by decide) trivial rfl
  cases this

end

/-! ## C64: numbers of a `Value` -/

section
variable [Host] (o : Options) (env : Env)

/-- **C64.** An integer written as one integer type and read as another gives the same integer
if it is in the range of the other type, and an error otherwise. -/
theorem C64_integers_across_types (s t : IntTy) (v : s.prim.Val) (x : Value)
    (hx : toValue o env (.prim s.prim) v = .ok x) :
    (t.fits (s.toInt v) → ∃ u, fromValue o env (.prim t.prim) x = .ok u ∧ t.toInt u = s.toInt v) ∧
    (¬t.fits (s.toInt v) → ∃ e, fromValue o env (.prim t.prim) x = .error e) := by
  have hx' : primV s.prim v = x := by
    have : toValue o env (.prim s.prim) v = .ok (primV s.prim v) := by
      unfold toValue; rw [encV]; rfl
    rw [this] at hx; cases hx; rfl
  subst hx'
  have hd : ∀ p y, fromValue o env (.prim p) y = readPrim o false p y := by
    intro p y; unfold fromValue; rw [decV]
  rw [hd]
  obtain ⟨h1, h2⟩ := readPrim_int o false t (primV s.prim v) (s.toInt v) .overflow
    (readInt_prim o false t.kind s v)
  exact ⟨h1, fun h => ⟨_, h2 h⟩⟩

open Json.Spec in
/-- **C64.** With `map_keys_as_numbers`, the decimal digits of an integer are accepted as the key
of a map whose keys are integers; the key is that integer if it is in range, and decoding fails
otherwise. -/
theorem C64_string_keys (ho : Opt.isMapKeysAsNumbers o = true) (t : IntTy) (u : Ty) (neg : Bool)
    (ds : Bytes) (hd : Digits ds) (hne : ds ≠ []) (hz : neg = true → 0 < value ds) (s : Str)
    (hs : s.bytes = sign neg ++ ds) (y : Value) (w : u.Val) (hy : fromValue o env u y = .ok w) :
    (t.fits (signedValue neg (value ds)) → ∃ k : t.prim.Val,
      fromValue o env (.map (.prim t.prim) u) (.map [(.string s, y)]) = .ok [(k, w)] ∧
      t.toInt k = signedValue neg (value ds)) ∧
    (¬t.fits (signedValue neg (value ds)) → ∃ e,
      fromValue o env (.map (.prim t.prim) u) (.map [(.string s, y)]) = .error e) := by
  obtain ⟨h1, h2⟩ := readPrim_int o true t (.string s) (signedValue neg (value ds)) .invalid
    (readInt_key o ho t neg hd hne hz s hs)
  have e : fromValue o env (.map (.prim t.prim) u) (.map [(.string s, y)]) =
      (do let a ← readPrim o true t.prim (.string s)
          let b ← fromValue o env u y
          let r ← readPairs (readPrim o true t.prim) (decV o env u false) []
          pure ((a, b) :: r)) := by
    unfold fromValue
    have hk : decV o env (.prim t.prim) true = readPrim o true t.prim := by funext z; rw [decV]
    rw [decV, hk]
    rfl
  constructor
  · intro hf
    obtain ⟨k, hk, hv⟩ := h1 hf
    refine ⟨k, ?_, hv⟩
    rw [e, hk, hy]; rfl
  · intro hf
    refine ⟨.invalid, ?_⟩
    rw [e, h2 hf]; rfl

open Json.Spec in
/-- **C64.** A string that was accepted as an integer key is an optional sign followed by the
digits of that integer. -/
theorem C64_string_keys_only_digits (t : IntTy) (u : Ty) (s : Str) (y : Value)
    (l : List (t.prim.Val × u.Val))
    (h : fromValue o env (.map (.prim t.prim) u) (.map [(.string s, y)]) = .ok l) :
    ∃ k w sg ds, l = [(k, w)] ∧ s.bytes = sg ++ ds ∧ Digits ds ∧ ds ≠ [] ∧
      ((sg = [] ∨ sg = [0x2B#8]) ∧ t.toInt k = value ds ∨
        sg = [0x2D#8] ∧ t.toInt k = -(value ds : Int)) := by
  have e : fromValue o env (.map (.prim t.prim) u) (.map [(.string s, y)]) =
      (do let a ← readPrim o true t.prim (.string s)
          let b ← fromValue o env u y
          let r ← readPairs (readPrim o true t.prim) (decV o env u false) []
          pure ((a, b) :: r)) := by
    unfold fromValue
    have hk : decV o env (.prim t.prim) true = readPrim o true t.prim := by funext z; rw [decV]
    rw [decV, hk]
    rfl
  rw [e] at h
  cases hk : readPrim o true t.prim (.string s) with
  | error e => rw [hk] at h; cases h
  | ok k =>
    rw [hk] at h
    cases hw : fromValue o env u y with
    | error e => rw [hw] at h; cases h
    | ok w =>
      rw [hw] at h
      cases h
      obtain ⟨sg, ds, h1, h2, h3, h4⟩ := readPrim_string_inv o t s k hk
      exact ⟨k, w, sg, ds, rfl, h1, h2, h3, h4⟩

/-- **C64.** A string which is not the key of a map is no integer, and without
`map_keys_as_numbers` neither is the key of a map. -/
theorem C64_strings_are_not_integers (t : IntTy) (s : Str) :
    fromValue o env (.prim t.prim) (.string s) = .error .invalid ∧
    (Opt.isMapKeysAsNumbers o = false → ∀ (u : Ty) (y : Value),
      fromValue o env (.map (.prim t.prim) u) (.map [(.string s, y)]) = .error .invalid) := by
  constructor
  · unfold fromValue
    rw [decV]
    exact readPrim_string o false t s (by simp)
  · intro ho u y
    have hk : decV o env (.prim t.prim) true (.string s) = .error .invalid := by
      rw [decV]; exact readPrim_string o true t s (by rw [ho]; rfl)
    unfold fromValue
    rw [decV]
    show (decV o env (.prim t.prim) true (.string s) >>= _) = _
    rw [hk]
    rfl

end

section
open Sample
attribute [local instance] Sample.host

example : toValue varOpts env (.prim (.sint .w16)) (-5#16) = .ok (.number (.sint .w16 (-5#16))) := rfl
example : fromValue varOpts env (.prim (.sint .w8)) (.number (.sint .w16 (-5#16))) = .ok (-5#8) := rfl
example : fromValue varOpts env (.prim (.uint .w64)) (.number (.sint .w16 (-5#16))) = .error .overflow := rfl
example : Opt.isMapKeysAsNumbers (Opt.setMapKeysAsNumbers Opt.new) = true := by decide
end

/-! ## C65: a `Value` as a `Value` -/

/-- **C65.** Decoding a `Value` as a `Value` gives that value. -/
theorem C65_decode_identity (x : Value) : valueFromValue x = x := copyIn_eq x

/-- **C65**, the full statement: so does encoding it. -/
def C65Full : Prop := ∀ x : Value, valueToValue x = x

/-- **C65 (partial).** It does if there is no `Value::Unit` in a sequence or option. -/
theorem C65_encode_identity_partial (x : Value) (h : x.unitFree = true) : valueToValue x = x :=
  copyOut_slot x h

/-- A sequence loses its units, `Some` of unit becomes unit. -/
theorem C65_violated :
    valueToValue (.seq [.unit, .bool true]) = .seq [.bool true] ∧
    valueToValue (.some .unit) = .unit := ⟨rfl, rfl⟩

@[inherit_doc C65Full]
theorem C65_full_statement_false : ¬C65Full := by
  intro h
  have := h (.some .unit)
  rw [C65_violated.2] at this
  cases this

example : (Value.map [(.string ⟨utf8% "a", by decide⟩, .seq [.some (.bool true), .none]),
    (.number (.usize 3), .unit)]).unitFree = true := by decide

/-! ## C66: decoding through a buffer, in the descriptive format -/

section
variable [Host] (o : Options) (env : Env)

/-- **C66**, the full statement: a value which was encoded in the descriptive format can be
decoded through `decode_buffer`. -/
def C66Full : Prop := ∀ (t : Ty) (v : t.Val) (bs rest : Bytes), Supported o .descriptive t = true →
  t.envOk env → encode o env .descriptive t v = .ok bs →
  decBuffered o env t (bs ++ rest) = .ok (v, rest)

/-- What the buffer reads and what was encoded. -/
theorem decBuffered_of (t : Ty) (ht : WellFormedTy .descriptive t = true) (henv : t.envOk env)
    (v : t.Val) (hr : reprV o env t v = reprV Desc.bufferOptions env t v) (bs rest : Bytes)
    (he : encode o env .descriptive t v = .ok bs) :
    decBuffered o env t (bs ++ rest) = .ok (v, rest) := by
  have hrel := rel (o := o) (env := env) (m := .descriptive) rfl t v (.inl (.inr rfl)) (t.counted_of_ok rfl _ ht)
  unfold Rel at hrel
  cases hx : reprV o env t v with
  | error e =>
    rw [hx] at hrel
    obtain ⟨b, hb⟩ := hrel
    unfold encode at he
    rw [hb] at he; cases he
  | ok x =>
    rw [hx] at hrel
    have hb : encValue (Desc.fmt o) x = .ok bs := by
      rw [← show encode o env .descriptive t v = encValue (Desc.fmt o) x from hrel]; exact he
    unfold decBuffered
    rw [Dec.bind_ok (Desc.readValue_enc o hb rest)]
    refine ofExcept_ok ?_ rest
    unfold fromValue
    rw [decV_fixed]
    rw [hr] at hx
    refine decV_reprV _ env t false ?_ henv false v x hx
    have hn : Opt.isNativeFixed Desc.bufferOptions = false := by
      unfold Opt.isNativeFixed
      rfl
    rw [hn, ok_host _ false]
    exact ht

/-- **C66 (partial).** It holds for types without packed structs. -/
theorem C66_buffered_partial (t : Ty) (ht : WellFormedTy .descriptive t = true)
    (hp : t.unpacked = true) (henv : t.envOk env) (v : t.Val) (bs rest : Bytes)
    (he : encode o env .descriptive t v = .ok bs) :
    decBuffered o env t (bs ++ rest) = .ok (v, rest) :=
  decBuffered_of o env t ht henv v (reprV_opt o _ env t v hp) bs rest he

/-- **C66 (partial).** It holds for all types with the default options. -/
theorem C66_buffered_default_options_partial (t : Ty) (ht : WellFormedTy .descriptive t = true)
    (henv : t.envOk env) (v : t.Val) (bs rest : Bytes)
    (he : encode Opt.new env .descriptive t v = .ok bs) :
    decBuffered Opt.new env t (bs ++ rest) = .ok (v, rest) :=
  decBuffered_of Opt.new env t ht henv v rfl bs rest he

end

section
open Sample
attribute [local instance] Sample.host

example : WellFormedTy .descriptive person = true ∧ person.unpacked = true ∧ person.envOk env :=
  ⟨by decide, by decide, person_envOk⟩
example : (encode fixedBig env .descriptive person bob).isOk = true := by decide

/-- A packed `(u16,)` which was encoded with fixed-width integers is read as variable-width
integers by the buffer: 0x0102 becomes 1, without an error. Decoded directly it is 0x0102. -/
theorem C66_violated_packed_fixed :
    let t : Ty := .packed false (.cons (.idx 0) none none (.prim (.uint .w16)) .nil)
    encode fixedBig env .descriptive t (0x0102#16, ()) = .ok [0xA2, 0x01, 0x02] ∧
    decode fixedBig env .descriptive t [0xA2, 0x01, 0x02] = .ok ((0x0102#16, ()), []) ∧
    decBuffered fixedBig env t [0xA2, 0x01, 0x02] = .ok ((1#16, ()), []) := by
  refine ⟨by decide, by decide, by decide⟩

@[inherit_doc C66Full]
theorem C66_full_statement_false : ¬C66Full fixedBig env := by
  intro h
  have := h _ _ _ [] (by decide) (by simp only [Ty.envOk, Fields.envOk, and_true]; try trivial) C66_violated_packed_fixed.1
  rw [List.append_nil, C66_violated_packed_fixed.2.2] at this
  revert this
  decide

end

/-! ## C67: a `Value` through the descriptive format -/

section
variable [Host] (o : Options)

/-- **C67**, the full statement: a `Value` which was encoded in the descriptive format is decoded
as the same `Value`. -/
def C67Full : Prop := ∀ (x : Value) (bs rest : Bytes), encValue (Desc.fmt o) x = .ok bs →
  Desc.readValue o (bs ++ rest) = .ok (x, rest)

/-- **C67 (partial).** It is decoded as the same value except that a `usize` becomes a `u64` and
an `isize` an `i64`. -/
theorem C67_value_through_descriptive_partial (x : Value) (bs rest : Bytes)
    (he : encValue (Desc.fmt o) x = .ok bs) :
    Desc.readValue o (bs ++ rest) = .ok (x.fixedWidth, rest) := Desc.readValue_enc o he rest

/-- **C67.** That difference is not visible to the decoding of any type. -/
theorem C67_width_not_observable (env : Env) (t : Ty) (x : Value) :
    fromValue o env t x.fixedWidth = fromValue o env t x := decV_fixed o env t false x

end

section
open Sample
attribute [local instance] Sample.host

example : (encValue (Desc.fmt varOpts) (.seq [.unit, .some (.number (.usize 300)), .variant
    (.string ⟨utf8% "é", by decide⟩) (.map [(.char 'x', .bytes [1, 2])])])).isOk = true := by decide

/-- `Value::Number(Number::Usize(5))` becomes `Value::Number(Number::U64(5))`. -/
theorem C67_violated_usize :
    encValue (Desc.fmt varOpts) (.number (.usize 5)) = .ok [0x59, 5] ∧
    Desc.readValue varOpts [0x59, 5] = .ok (.number (.uint .w64 5), []) := ⟨rfl, rfl⟩

@[inherit_doc C67Full]
theorem C67_full_statement_false : ¬C67Full varOpts := by
  intro h
  have := h _ _ [] C67_violated_usize.1
  rw [List.append_nil, C67_violated_usize.2] at this
  injection this with this
  injection this with this _
  injection this with this
  cases this

end

/-! ## C68: encoding through a `Value` -/

section
variable [Host] (o : Options) (env : Env)

/-- Both encoders agree. -/
theorem transcode {m : Mode} (hn : (m.fmt o).native = false) (t : Ty) (hu : t.unitFree = true)
    (hm : Delim m ∨ t.plain = true) (hc : t.counted = true) (v : t.Val) (x : Value) (hx : toValue o env t v = .ok x) :
    encValue (m.fmt o) x = encode o env m t v := by
  rw [toValue_eq o env t v hu] at hx
  have h := rel (o := o) (env := env) hn t v hm hc
  unfold Rel at h
  rw [hx] at h
  exact h.symm

/-- **C68**, the full statement: `to_vec(&value::encode(&v)?)? == to_vec(&v)?`. -/
def C68Full (m : Mode) : Prop := ∀ (t : Ty) (v : t.Val) (x : Value),
  toValue o env t v = .ok x → encValue (m.fmt o) x = encode o env m t v

/-- **C68 (partial).** In the wire and descriptive formats, a type in which `()` is neither the
payload of an option nor an element of a sequence has the same encoding directly and through a
`Value`, unless it is an enum with `skip_encoding_if` in a variant (`Ty.counted`). -/
theorem C68_transcode_partial (m : Mode) (hm : m = .wire ∨ m = .descriptive) (t : Ty)
    (hu : t.unitFree = true) (hc : t.counted = true) (v : t.Val) (x : Value) (hx : toValue o env t v = .ok x) :
    encValue (m.fmt o) x = encode o env m t v :=
  transcode o env (by rcases hm with rfl | rfl <;> rfl) t hu (.inl hm) hc v x hx

/-- **C68 (partial).** In the storage format that holds if there are also no byte arrays of a
fixed size and no packed structs, for options without the bitwise fast path. -/
theorem C68_transcode_storage_partial (hn : Opt.isNativeFixed o = false) (t : Ty)
    (hu : t.unitFree = true) (hp : t.plain = true) (hc : t.counted = true) (v : t.Val) (x : Value)
    (hx : toValue o env t v = .ok x) :
    encValue (Mode.fmt o .storage) x = encode o env .storage t v :=
  transcode (m := .storage) o env hn t hu (.inr hp) hc v x hx

end

section
open Sample
attribute [local instance] Sample.host

example : person.unitFree = true ∧ person.plain = true ∧ person.counted = true ∧ Opt.isNativeFixed varOpts = false := by decide
example : (toValue varOpts env person bob).toOption.isSome = true := by decide

/-- `[u8; 2]` of bytes has no length prefix in the storage format; as a `Value` it has one. -/
theorem C68_violated_storage_bytes :
    toValue varOpts env (.byteArray 2) ⟨[7, 8], rfl⟩ = .ok (.bytes [7, 8]) ∧
    encode varOpts env .storage (.byteArray 2) ⟨[7, 8], rfl⟩ = .ok [7, 8] ∧
    encValue (Mode.fmt varOpts .storage) (.bytes [7, 8]) = .ok [2, 7, 8] := ⟨rfl, by decide, by decide⟩

/-- Nor has a packed struct, which as a `Value` is its bytes. -/
theorem C68_violated_storage_packed :
    let t : Ty := .packed false (.cons (.idx 0) none none (.prim (.uint .w8)) (.cons (.idx 1) none none (.prim (.uint .w16)) .nil))
    toValue varOpts env t (5#8, 300#16, ()) = .ok (.bytes [5, 172, 2]) ∧
    encode varOpts env .storage t (5#8, 300#16, ()) = .ok [5, 172, 2] ∧
    encValue (Mode.fmt varOpts .storage) (.bytes [5, 172, 2]) = .ok [3, 5, 172, 2] := ⟨rfl, by decide, by decide⟩

/-- `vec![()]` is a sequence of one element, but not as a `Value`. -/
theorem C68_violated_unit (m : Mode) (hm : m = .wire ∨ m = .descriptive) :
    toValue varOpts env (.vec .unit) [()] = .ok (.seq []) ∧
    encValue (m.fmt varOpts) (.seq []) ≠ encode varOpts env m (.vec .unit) [()] := by
  refine ⟨rfl, ?_⟩
  rcases hm with rfl | rfl <;> decide

@[inherit_doc C68Full]
theorem C68_full_statement_false (m : Mode) (hm : m = .wire ∨ m = .descriptive) :
    ¬C68Full varOpts env m := by
  intro h
  exact (C68_violated_unit m hm).2 (h _ _ _ (C68_violated_unit m hm).1)

end
end Musli
