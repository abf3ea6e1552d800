import Verif.Proofs.RoundTrip
import Verif.Props.Samples
/-!
# C10, C11, C12, C16, C21: round-trip and unambiguity of the binary formats
-/
namespace Musli

section
variable [Host] (o : Options) (env : Env)

/-- **C10.** Storage: decoding what was encoded gives the value back and leaves
exactly what followed. For options without the bitwise fast path. -/
theorem C10_storage_roundtrip (hn : Opt.isNativeFixed o = false) (t : Ty)
    (ht : WellFormedTy .storage t = true) (henv : t.envOk env)
    (v : t.Val) (bs rest : Bytes) (he : encode o env .storage t v = .ok bs) :
    decode o env .storage t (bs ++ rest) = .ok (v, rest) :=
  rtD o env t .storage false (by rw [hn, ok_host _ false]; exact ht) henv v bs rest he (by simp)

/-- **C12.** Wire: as C10, for any options. -/
theorem C12_wire_roundtrip (t : Ty) (ht : Supported o .wire t = true) (henv : t.envOk env)
    (v : t.Val) (bs rest : Bytes) (he : encode o env .wire t v = .ok bs) :
    decode o env .wire t (bs ++ rest) = .ok (v, rest) :=
  rtD o env t .wire false ht henv v bs rest he (by simp)

/-- **C16.** Descriptive: as C10, for any options. -/
theorem C16_descriptive_roundtrip (t : Ty) (ht : Supported o .descriptive t = true)
    (henv : t.envOk env) (v : t.Val) (bs rest : Bytes)
    (he : encode o env .descriptive t v = .ok bs) :
    decode o env .descriptive t (bs ++ rest) = .ok (v, rest) :=
  rtD o env t .descriptive false ht henv v bs rest he (by simp)

/-- **C11 (partial).** With the bitwise fast path values round-trip if the type
satisfies `Supported`, which excludes the types below. The full statement
(`C11Full` below) is false. -/
theorem C11_fast_path_roundtrip_partial (t : Ty)
    (ht : Supported o .storage t = true) (henv : t.envOk env)
    (v : t.Val) (bs rest : Bytes) (he : encode o env .storage t v = .ok bs) :
    decode o env .storage t (bs ++ rest) = .ok (v, rest) :=
  rtD o env t .storage false ht henv v bs rest he (by simp)

/-- **C11 (partial).** The same for the packed format, in which nothing may follow
a value that ends in an option. -/
theorem C11_packed_roundtrip_partial (t : Ty)
    (ht : t.ok (Opt.isNativeFixed o) (hostOrder o) .packed true = true) (henv : t.envOk env)
    (v : t.Val) (bs : Bytes) (he : encode o env .packed t v = .ok bs) :
    decode o env .packed t bs = .ok (v, []) := by
  have := rtD o env t .packed true ht henv v bs [] he (fun _ => rfl)
  rwa [List.append_nil] at this

end

/-! Examples: the hypotheses hold for a type with all kinds of parts, and a value
is really encoded. -/
section
open Sample
attribute [local instance] Sample.host

example : WellFormedTy .storage person = true ∧ Supported varOpts .wire person = true ∧
    Supported fixedBig .descriptive person = true ∧ person.envOk env :=
  ⟨by decide, by decide, by decide, person_envOk⟩
example : Opt.isNativeFixed varOpts = false ∧ Opt.isNativeFixed nativeOpts = true := by decide
example : encode varOpts env .storage person bob =
    .ok [3, 0, 2, 0xC3, 0xA9, 2, 1, 2, 3, 1, 3, 2, 0x78, 0, 0, 0x79, 1, 1, 0, 0xAC, 2] := by decide
example : (encode fixedBig env .wire person bob).isOk = true := by decide
example : (encode fixedBig env .descriptive person bob).isOk = true := by decide
example : Supported nativeOpts .storage (.vec (.tuple (.cons (.prim (.uint .w32)) (.cons (.prim .bool) .nil)))) = true ∧
    (encode nativeOpts env .storage (.vec (.tuple (.cons (.prim (.uint .w32)) (.cons (.prim .bool) .nil))))
      [(7#32, true, ()), (8#32, false, ())]).isOk = true := by decide
end

/-! ## C11 is false in general: witnesses -/
section
open Sample
attribute [local instance] Sample.host

/-- `(u8, [bool; 2])`: the encoder copies the array, the decoder expects a
length. -/
theorem C11_violated_tuple_of_bool_array :
    let t : Ty := .tuple (.cons (.prim (.uint .w8)) (.cons (.array 2 (.prim .bool)) .nil))
    let v : t.Val := (5#8, ⟨[true, false], rfl⟩, ())
    WellFormedTy .storage t = true ∧
    ∃ bs, encode nativeOpts env .storage t v = .ok bs ∧
      decode nativeOpts env .storage t bs = .error .eof := by
  refine ⟨by decide, _, rfl, by decide⟩

/-- `Box<[u32; 2]>`: encoded with a length, decoded without; a different value is
returned without any error. -/
theorem C11_violated_boxed_array :
    let t : Ty := .boxed (.array 2 (.prim (.uint .w32)))
    let v : t.Val := ⟨[5#32, 6#32], rfl⟩
    let w : t.Val := ⟨[2#32, 0#32], rfl⟩
    WellFormedTy .storage t = true ∧
    ∃ bs rest, encode nativeOpts env .storage t v = .ok bs ∧
      decode nativeOpts env .storage t bs = .ok (w, rest) := by
  refine ⟨by decide, _, [5, 0, 0, 0, 6, 0, 0, 0], rfl, by decide⟩

/-- `NonZeroU16` with big-endian options on a little-endian machine: encoded in
the configured order, decoded in the order of the machine. -/
theorem C11_violated_byte_order :
    let t : Ty := .nonZero false .w16
    let v : t.Val := ⟨1#16, by simp [IW.bits]⟩
    let w : t.Val := ⟨256#16, by simp [IW.bits]⟩
    WellFormedTy .storage t = true ∧
    ∃ bs, encode fixedBig env .storage t v = .ok bs ∧
      decode fixedBig env .storage t bs = .ok (w, []) := by
  refine ⟨by decide, _, rfl, by decide⟩

end
/-- **C11.** The full statement, and that it is false. -/
def C11Full : Prop := ∀ (host : Host) (o : Options) (env : Env) (t : Ty),
  WellFormedTy .storage t = true → t.envOk env → ∀ (v : t.Val) (bs rest : Bytes),
  @encode host o env .storage t v = .ok bs →
  @decode host o env .storage t (bs ++ rest) = .ok (v, rest)

@[inherit_doc C11Full]
theorem C11_full_statement_false : ¬C11Full := by
  intro h
  obtain ⟨h1, bs, h2, h3⟩ := C11_violated_byte_order
  have := h Sample.host Sample.fixedBig Sample.env _ h1 trivial _ bs [] h2
  rw [List.append_nil, h3] at this
  revert this
  decide

/-! ## C21 -/

section
variable [Host] (o : Options) (env : Env)

/-- **C21.** If two encodings, each followed by anything, are the same bytes, then
the values are the same (and what follows them). So no encoding is a prefix of
the encoding of another value. -/
theorem C21_unambiguous (m : Mode) (t : Ty) (ht : Supported o m t = true) (henv : t.envOk env)
    (v w : t.Val) (bs bs' rest rest' : Bytes)
    (hv : encode o env m t v = .ok bs) (hw : encode o env m t w = .ok bs')
    (h : bs ++ rest = bs' ++ rest') : v = w ∧ rest = rest' := by
  have h1 := rtD o env t m false ht henv v bs rest hv (by simp)
  have h2 := rtD o env t m false ht henv w bs' rest' hw (by simp)
  rw [h, h2] at h1
  cases h1
  exact ⟨rfl, rfl⟩

end

example : @Supported Sample.host Sample.varOpts .wire Sample.person = true := by decide

end Musli
