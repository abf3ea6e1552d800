import Verif.Proofs.SkipVariant
import Verif.Props.Json
import Verif.Props.Documents
/-!
# C121: skipped fields
-/
namespace Musli

section
variable [Host] (o : Options) (env : Env)

/-- **C121.** A field with `#[musli(skip)]` is not written: every binary format writes what the struct without the skipped
fields writes. -/
theorem C121_encode (m : Mode) (nt : NameTy) (fs : AllFields) (v : fs.Val) :
    fs.encode o env m v = encode o env m (.strct nt fs.unskipped) (fs.visible v) := allEncode_eq o env m nt fs v

/-- **C121.** It is not read: decoding any input succeeds exactly if decoding the struct without skipped fields does, with the
same fields and the same rest, and gives each skipped field its initial value. In particular an entry under the name of a
skipped field is an unknown entry. -/
theorem C121_decode (m : Mode) (nt : NameTy) (fs : AllFields) (s r : Bytes) (v : fs.Val) :
    fs.decode o env nt m s = .ok (v, r) ↔
      decode o env m (.strct nt fs.unskipped) s = .ok (fs.visible v, r) ∧ fs.Fresh env v :=
  allDecode_iff o env m nt fs s r v

/-- **C121.** Round trip: what is not skipped comes back, what is skipped is initial. So a value comes back exactly if its skipped
fields have their initial values. -/
theorem C121_round_trip (m : Mode) (nt : NameTy) (fs : AllFields) (hok : Supported o m (.strct nt fs.unskipped) = true)
    (henv : fs.unskipped.envOk env) (hi : fs.Inits env) (v : fs.Val) (bs rest : Bytes)
    (he : fs.encode o env m v = .ok bs) :
    (∃ w, fs.decode o env nt m (bs ++ rest) = .ok (w, rest) ∧ fs.visible w = fs.visible v ∧ fs.Fresh env w) ∧
    (fs.decode o env nt m (bs ++ rest) = .ok (v, rest) ↔ fs.Fresh env v) := by
  rw [C121_encode o env m nt] at he
  have hd := rtD o env (.strct nt fs.unskipped) m false hok henv (fs.visible v) bs rest he (by simp)
  constructor
  · obtain ⟨w, h1, h2⟩ := exists_fresh env fs hi (fs.visible v)
    exact ⟨w, (C121_decode o env m nt fs _ _ w).mpr ⟨by rw [h1]; exact hd, h2⟩, h1, h2⟩
  · exact ⟨fun h => ((C121_decode o env m nt fs _ _ v).mp h).2, fun h => (C121_decode o env m nt fs _ _ v).mpr ⟨hd, h⟩⟩

/-- **C121.** A transparent struct is its only field which is not skipped. -/
theorem C121_transparent (m : Mode) (fs : AllFields) (n : Name) (d k : Option Nat) (t : Ty)
    (h : fs.unskipped = .cons n d k t .nil) :
    (∀ v : fs.Val, fs.encTransparent o env m v =
      encode o env m (.transparent t) (h ▸ fs.visible v : (Fields.cons n d k t .nil).Val).1) ∧
    (∀ (s r : Bytes) (v : fs.Val), fs.decTransparent o env m s = .ok (v, r) ↔
      decode o env m (.transparent t) s = .ok ((h ▸ fs.visible v : (Fields.cons n d k t .nil).Val).1, r) ∧
        fs.Fresh env v) :=
  ⟨fun v => allEncTransparent_eq o env m fs v n d k t h, fun s r v => allDecTransparent_iff o env m fs s r v n d k t h⟩

/-- **C121 (partial).** Enums with `skip_encoding_if` on fields of variants. What is written is read back exactly if one field of
such a variant is written, since the number of entries in front is the size hint of the enum. The full statement,
that it is always read back, is false: `C121_violated_variant`. -/
theorem C121_variant_partial (m : Mode) (nt : NameTy) (vs : Variants) (hn : namesOk nt vs.names = true)
    (hb : vs.bodiesOk (Opt.isNativeFixed o) (hostOrder o) m false = true) (henv : vs.envOk env) (v : vs.Val) (bs : Bytes)
    (he : encode o env m (.enm nt vs) v = .ok bs) :
    decode o env m (.enm nt vs) bs = .ok (v, []) ↔ vs.Writes env 1 v :=
  variant_exact o env m nt vs hn hb henv v bs he

/-- **C121 (partial).** The same for adjacently tagged enums, whose size hint is 2. -/
theorem C121_adjacent_partial (m : Mode) (tag content : Name) (nt : NameTy) (vs : Variants)
    (hn : namesOk nt vs.names = true)
    (hb : vs.bodiesOk (Opt.isNativeFixed o) (hostOrder o) m false = true) (henv : vs.envOk env)
    (hty : content.ty = tag.ty) (hne : content ≠ tag) (hord : TagOrder o m tag nt)
    (v : vs.Val) (bs : Bytes) (he : encAdjacent o env tag content vs m v = .ok bs) :
    decAdjacent o env tag content nt vs m bs = .ok (v, []) ↔ vs.Writes env 2 v :=
  adjacent_exact o env hn hb henv hty hne hord v bs he

/-- **C121 (partial).** A packed struct with `skip_encoding_if` writes the packed struct of the fields which are not skipped.
Missing: structs which are copied bitwise, see `C121_violated_packed`. -/
theorem C121_packed_partial (m : Mode) (lay : Bool) (fs : Fields) (v : fs.Val)
    (hf : (m.fast (Opt.isNativeFixed o) && (lay && fs.bwE)) = false) :
    encode o env m (.packed lay fs) v = encode o env m (.packed false (fs.shrink env v).1) (fs.shrink env v).2 := by
  unfold encode
  simp only [encD, native_fmt, hf, Bool.false_and, Bool.and_false, Bool.false_eq_true, if_false]
  rw [encPackFields_shrink]

end

namespace Json
variable (env : Env)

/-- **C121.** The same in JSON. -/
theorem C121_json_encode (nt : NameTy) (fs : AllFields) (v : fs.Val) :
    encodeAll env fs v = encode env (.strct nt fs.unskipped) (fs.visible v) := encodeAll_eq env nt fs v

/-- **C121.** The same in JSON. -/
theorem C121_json_decode (full : Bool) (nt : NameTy) (fs : AllFields) (s r : Bytes) (v : fs.Val) :
    decodeAllJ full env nt fs s = .ok (v, r) ↔
      decode full env (.strct nt fs.unskipped) s = .ok (fs.visible v, r) ∧ fs.Fresh env v :=
  decodeAllJ_iff full env nt fs s r v

/-- **C121.** Round trip in JSON. -/
theorem C121_json_round_trip (full : Bool) (nt : NameTy) (fs : AllFields)
    (hok : (Ty.strct nt fs.unskipped).jsonOk = true) (hn : (Ty.strct nt fs.unskipped).jsonNames = true)
    (henv : fs.unskipped.envOk env) (hi : fs.Inits env) (v : fs.Val) (bs rest : Bytes)
    (he : encodeAll env fs v = .ok bs) (hr : Spec.NoNumber rest) :
    (∃ w, decodeAllJ full env nt fs (bs ++ rest) = .ok (w, rest) ∧ fs.visible w = fs.visible v ∧ fs.Fresh env w) ∧
    (decodeAllJ full env nt fs (bs ++ rest) = .ok (v, rest) ↔ fs.Fresh env v) := by
  rw [C121_json_encode env nt] at he
  have hd := C30_round_trip full env (.strct nt fs.unskipped) hok hn henv (fs.visible v) bs rest he hr
  constructor
  · obtain ⟨w, h1, h2⟩ := exists_fresh env fs hi (fs.visible v)
    exact ⟨w, (C121_json_decode env full nt fs _ _ w).mpr ⟨by rw [h1]; exact hd, h2⟩, h1, h2⟩
  · exact ⟨fun h => ((C121_json_decode env full nt fs _ _ v).mp h).2,
      fun h => (C121_json_decode env full nt fs _ _ v).mpr ⟨hd, h⟩⟩

/-- **C121.** Enums with `skip_encoding_if` on fields of variants are read back in JSON, which announces no numbers. -/
theorem C121_json_variant (full : Bool) (nt : NameTy) (vs : Variants) (hok : (Ty.enm nt vs).jsonOk = true)
    (hn : (Ty.enm nt vs).jsonNames = true) (henv : vs.envOk env) (v : vs.Val) (bs rest : Bytes)
    (he : encode env (.enm nt vs) v = .ok bs) (hr : Spec.NoNumber rest) :
    decode full env (.enm nt vs) (bs ++ rest) = .ok (v, rest) :=
  C30_round_trip full env (.enm nt vs) hok hn henv v bs rest he hr

/-- **C121.** A packed struct in JSON. -/
theorem C121_json_packed (lay : Bool) (fs : Fields) (v : fs.Val) :
    encode env (.packed lay fs) v = encode env (.packed false (fs.shrink env v).1) (fs.shrink env v).2 := by
  unfold encode
  simp only [encJ]
  rw [encPackJ_shrink]

end Json

/-! ## Examples and violations -/

section
open Sample
local instance : Host := Sample.host

/-- The environment of the examples: the initial value of numbers is 0, numbers which are 0 are skipped. -/
def zeroEnv : Env where
  dflt := fun _ t => match t with
    | .prim (.uint w) => some (0 : BitVec w.bits)
    | _ => none
  skipIf := fun _ t v => match t, v with
    | .prim (.uint w), v => decide ((v : BitVec w.bits) = 0)
    | _, _ => false

/-- ```
struct Cached { a: u8, #[musli(skip)] cache: u32, #[musli(default, skip_encoding_if = is_zero)] b: u8 }
``` -/
abbrev cached : AllFields :=
  .field (.idx 0) none none (.prim (.uint .w8)) (.skipped 0 (.prim (.uint .w32))
    (.field (.idx 2) (some 0) (some 0) (.prim (.uint .w8)) .nil))

/-- The fields of `Cached` with the cache are encoded and decoded: the cache is lost. -/
theorem C121_example :
    cached.encode varOpts zeroEnv .wire (7#8, 99#32, 0#8, ()) = .ok [0x82, 0xC0, 0xC7] ∧
    cached.decode varOpts zeroEnv .idx .wire [0x82, 0xC0, 0xC7] = .ok ((7#8, 0#32, 0#8, ()), []) ∧
    cached.decode varOpts zeroEnv .idx .wire [0x86, 0xC0, 0xC7, 0xC1, 0xC5, 0xC2, 0xC8] = .ok ((7#8, 0#32, 8#8, ()), []) :=
  ⟨by rfl, by rfl, by rfl⟩

/-- The hypotheses of `C121_round_trip` are met. -/
example : Supported varOpts .wire (.strct .idx cached.unskipped) = true ∧ cached.unskipped.envOk zeroEnv ∧
    cached.Inits zeroEnv := by
  refine ⟨by decide, ?_, rfl, trivial⟩
  simp only [AllFields.unskipped, Fields.envOk, Ty.envOk, and_true, true_and]
  intro v h
  simp only [zeroEnv, decide_eq_true_eq] at h ⊢
  subst h
  rfl

/-- The hypotheses of the JSON theorems are met. -/
example :
    let fs : AllFields := .field (str (utf8% "a")) none none (.prim (.uint .w8)) (.skipped 0 (.prim (.uint .w32))
      (.field (str (utf8% "b")) (some 0) (some 0) (.prim (.uint .w8)) .nil))
    (Ty.strct .str fs.unskipped).jsonOk = true ∧ (Ty.strct .str fs.unskipped).jsonNames = true ∧ fs.Inits zeroEnv ∧
    (Ty.enm .str (.cons (str (utf8% "V")) (.strct .str fs.unskipped) .nil)).jsonOk = true ∧
    (Ty.enm .str (.cons (str (utf8% "V")) (.strct .str fs.unskipped) .nil)).jsonNames = true ∧
    Json.encodeAll zeroEnv fs (5#8, 99#32, 6#8, ()) = .ok (utf8% "{\"a\":5,\"b\":6}") :=
  ⟨by decide, by decide, ⟨rfl, trivial⟩, by decide, by decide, by decide +kernel⟩

/-- `#[musli(transparent)] struct Meters(#[musli(skip)] u32, u8)`. -/
example : AllFields.encTransparent varOpts zeroEnv (.skipped 0 (.prim (.uint .w32)) (.field (.idx 1) none none (.prim (.uint .w8)) .nil))
      .storage (99#32, 5#8, ()) = .ok [5] ∧
    AllFields.decTransparent varOpts zeroEnv (.skipped 0 (.prim (.uint .w32)) (.field (.idx 1) none none (.prim (.uint .w8)) .nil))
      .storage [5] = .ok ((0#32, 5#8, ()), []) := ⟨by rfl, by rfl⟩

/-- The variants of the enum below are read back or not as the theorem says. -/
abbrev skippingVariants : Variants :=
  .cons (.idx 0) (.strct .idx (.cons (.idx 0) none none (.prim (.uint .w8))
    (.cons (.idx 1) (some 0) (some 0) (.prim (.uint .w8)) .nil))) .nil

example : namesOk .idx skippingVariants.names = true ∧
    skippingVariants.bodiesOk (Opt.isNativeFixed varOpts) (hostOrder varOpts) .storage false = true ∧
    skippingVariants.envOk zeroEnv ∧ skippingVariants.Writes zeroEnv 1 (.inl (5#8, 0#8, ())) ∧
    ¬ skippingVariants.Writes zeroEnv 1 (.inl (5#8, 6#8, ())) ∧
    skippingVariants.Writes zeroEnv 2 (.inl (5#8, 6#8, ())) := by
  refine ⟨by decide, by decide, ?_, fun _ => rfl, fun h => ?_, fun _ => rfl⟩
  · simp only [skippingVariants, Variants.envOk, Fields.envOk, Ty.envOk, and_true, true_and]
    intro v h
    simp only [zeroEnv, decide_eq_true_eq] at h ⊢
    subst h
    rfl
  · exact absurd (h rfl) (by decide)

/-- **C121** is false for variants: `enum E { V { a: u8, #[musli(default, skip_encoding_if = is_zero)] b: u8 } }`. The second
field is written but the number of entries says that there is one: it is not read, and its bytes are left over. -/
theorem C121_violated_variant :
    encode varOpts zeroEnv .storage (.enm .idx skippingVariants) (.inl (5#8, 6#8, ())) = .ok [0, 1, 0, 5, 1, 6] ∧
    decode varOpts zeroEnv .storage (.enm .idx skippingVariants) [0, 1, 0, 5, 1, 6] =
      .ok (.inl (5#8, 0#8, ()), [1, 6]) := ⟨by rfl, by rfl⟩

/-- **C121** is false for adjacently tagged enums: one entry is written, the number says two. -/
theorem C121_violated_adjacent :
    encAdjacent varOpts zeroEnv (.idx 0) (.idx 1) skippingVariants .storage (.inl (5#8, 0#8, ())) =
      .ok [2, 0, 0, 1, 2, 0, 5] ∧
    (decAdjacent varOpts zeroEnv (.idx 0) (.idx 1) .idx skippingVariants .storage [2, 0, 0, 1, 2, 0, 5]).isOk = false :=
  ⟨by rfl, by decide⟩

/-- `#[musli(packed)] struct P { a: u8, #[musli(skip_encoding_if = is_zero)] b: u8 }`. -/
abbrev skippingPack : Fields :=
  .cons (.idx 0) none none (.prim (.uint .w8)) (.cons (.idx 1) none (some 0) (.prim (.uint .w8)) .nil)

/-- **C121** is false for packed structs which are copied bitwise: the field is written. -/
theorem C121_violated_packed :
    encode nativeOpts zeroEnv .storage (.packed true skippingPack) (5#8, 0#8, ()) = .ok [5, 0] ∧
    encode varOpts zeroEnv .storage (.packed true skippingPack) (5#8, 0#8, ()) = .ok [5] ∧
    skippingPack.shrink zeroEnv (5#8, 0#8, ()) = ⟨.cons (.idx 0) none none (.prim (.uint .w8)) .nil, (5#8, ())⟩ :=
  ⟨by rfl, by rfl, by rfl⟩

/-- And what is written without the field cannot be read as the struct, default or not. -/
theorem C121_violated_packed_decode :
    (decode varOpts zeroEnv .storage (.packed true skippingPack) [5]).isOk = false := by decide

end
end Musli
