import Verif.Proofs.SerdeDoc
import Verif.Props.Samples
/-!
# C96–C98: serde types through `musli::serde`
-/
namespace Musli

section
variable [Host] (o : Options) (env : Env)

/-! ## C96: round trip -/

/-- **C96.** Storage, wire and descriptive: what a serde type serializes into the
encoder, the same type deserializes from the decoder, and nothing of what follows is
touched. For any options, including those of the bitwise fast path, which the bridge
never takes. -/
theorem C96_serde_roundtrip (m : Mode) (t : Ty) (ht : Serde.ok t m false = true)
    (henv : Serde.envOk env t) (v : t.Val) (bs rest : Bytes)
    (he : Serde.encode o env m t v = .ok bs) :
    Serde.decode o env m t (bs ++ rest) = .ok (v, rest) :=
  Serde.rt o env t m false ht henv v bs rest he (by simp)

/-- **C96.** Packed: an option takes no space for its marker, so it may only come at the
very end (`Serde.ok t .packed true`), and then nothing may follow. -/
theorem C96_serde_packed_roundtrip (t : Ty) (ht : Serde.ok t .packed true = true)
    (henv : Serde.envOk env t) (v : t.Val) (bs : Bytes)
    (he : Serde.encode o env .packed t v = .ok bs) :
    Serde.decode o env .packed t bs = .ok (v, []) := by
  have := Serde.rt o env t .packed true ht henv v bs [] he (fun _ => rfl)
  rwa [List.append_nil] at this

/-- **C96.** So two values of a serde type never have the same encoding, nor is one a
prefix of another. -/
theorem C96_serde_unambiguous (m : Mode) (t : Ty) (ht : Serde.ok t m false = true)
    (henv : Serde.envOk env t) (v w : t.Val) (bs cs x y : Bytes)
    (hv : Serde.encode o env m t v = .ok bs) (hw : Serde.encode o env m t w = .ok cs)
    (h : bs ++ x = cs ++ y) : v = w ∧ x = y := by
  have h1 := C96_serde_roundtrip o env m t ht henv v bs x hv
  have h2 := C96_serde_roundtrip o env m t ht henv w cs y hw
  rw [h, h2] at h1
  cases h1
  exact ⟨rfl, rfl⟩

/-! ## C97: the same bytes as Müsli's own derive -/

/-- **C97 (partial).** A type with both derives, whose names are strings, has the same
bytes from both, where the bitwise fast path is off. Missing: `usize` and `isize`, unit
structs and unit variants, and the fast path; for these it is false, see below. -/
theorem C97_same_bytes_partial (m : Mode) (hn : (m.fmt o).native = false) (t : Ty)
    (hc : Serde.compat t = true) (v : t.Val) :
    Serde.encode o env m t v = Musli.encode o env m t v := by
  unfold Serde.encode Musli.encode
  exact Serde.ser_eq o env t m hn hc v

/-- **C97 (partial).** What Müsli's derive wrote, serde reads. -/
theorem C97_serde_reads_musli_partial (m : Mode) (hn : (m.fmt o).native = false) (t : Ty)
    (hc : Serde.compat t = true) (ht : Serde.ok t m false = true) (henv : Serde.envOk env t)
    (v : t.Val) (bs rest : Bytes) (he : Musli.encode o env m t v = .ok bs) :
    Serde.decode o env m t (bs ++ rest) = .ok (v, rest) :=
  C96_serde_roundtrip o env m t ht henv v bs rest (by rwa [C97_same_bytes_partial o env m hn t hc])

/-- **C97 (partial).** What serde wrote, Müsli's derive reads. -/
theorem C97_musli_reads_serde_partial (m : Mode) (hn : (m.fmt o).native = false) (t : Ty)
    (hc : Serde.compat t = true) (ht : Supported o m t = true) (henv : t.envOk env)
    (v : t.Val) (bs rest : Bytes) (he : Serde.encode o env m t v = .ok bs) :
    Musli.decode o env m t (bs ++ rest) = .ok (v, rest) := by
  have := rtD o env t m false ht henv v bs rest
    (by rw [← Serde.ser_eq o env t m hn hc v]; exact he) (by simp)
  exact this

/-- **C97 (partial).** On any input whatsoever, not only on what one of them wrote: what
serde accepts, Müsli accepts with the same value and the same rest. Missing: fields of
type `Option` without a default and, in wire and descriptive, arrays; for these it is
false, see below. -/
theorem C97_musli_accepts_what_serde_accepts_partial (m : Mode) (hn : (m.fmt o).native = false)
    (t : Ty) (hc : Serde.compat t = true) (hs : Serde.strict t m = true) (input rest : Bytes)
    (v : t.Val) (hd : Serde.decode o env m t input = .ok (v, rest)) :
    Musli.decode o env m t input = .ok (v, rest) := by
  exact Serde.de_ref o env t m hn hc hs input _ hd

/-! ## C98: evolution of serde structs -/

/-- **C98 (partial).** Wire: a serde struct is read from its fields in any order, with any
unknown fields between them. Missing: unknown values which cannot be skipped, see C13; with
variable lengths, the default, there are none. -/
theorem C98_wire_reordered_partial (nt : NameTy) (fs : Fields)
    (hok : Serde.ok (.strct nt fs) .wire false = true) (henv : Serde.envOkFields env fs)
    (v : fs.Val) (es : List fs.Entry) (hp : (es.filterMap Sum.getLeft?).Perm (fs.entries env v))
    (hu : ∀ u, .inr u ∈ es → u.name ∉ fs.names ∧ u.name.ty = .str ∧ WireSkippable o u.ty = true)
    (bs rest : Bytes) (he : Serde.encDoc o env .wire fs es = .ok bs) :
    Serde.decode o env .wire (.strct nt fs) (bs ++ rest) = .ok (v, rest) := by
  by_cases hl : Opt.length o = .variable
  · exact Serde.de_doc o env (m := .wire) (us := true) (Wire.skippable o true fun _ => hl) rfl
      (Wire.consumes_step o) nt fs hok henv v es hp
      (fun u h => ⟨(hu u h).1, (hu u h).2.1, .inl rfl, ((Bool.and_eq_true _ _).mp (hu u h).2.2).1⟩) bs rest he
  · refine Serde.de_doc o env (m := .wire) (us := false) (Wire.skippable o false (by simp)) rfl
      (Wire.consumes_step o) nt fs hok henv v es hp (fun u h => ?_) bs rest he
    obtain ⟨h1, h2, h3⟩ := hu u h
    simp only [WireSkippable, hl, decide_false, Bool.false_or, Bool.and_eq_true] at h3
    exact ⟨h1, h2, .inr h3.2, h3.1⟩

/-- **C98.** Descriptive: the same, for unknown values of every type that can be skipped, see C17. -/
theorem C98_descriptive_reordered (nt : NameTy) (fs : Fields)
    (hok : Serde.ok (.strct nt fs) .descriptive false = true) (henv : Serde.envOkFields env fs)
    (v : fs.Val) (es : List fs.Entry) (hp : (es.filterMap Sum.getLeft?).Perm (fs.entries env v))
    (hu : ∀ u, .inr u ∈ es → u.name ∉ fs.names ∧ u.name.ty = .str ∧ u.ty.counted = true)
    (bs rest : Bytes) (he : Serde.encDoc o env .descriptive fs es = .ok bs) :
    Serde.decode o env .descriptive (.strct nt fs) (bs ++ rest) = .ok (v, rest) :=
  Serde.de_doc o env (m := .descriptive) (us := true) (Desc.skippable o) rfl
    (Desc.consumes_step o) nt fs hok henv v es hp
    (fun u h => ⟨(hu u h).1, (hu u h).2.1, .inl rfl, (hu u h).2.2⟩) bs rest he

/-- **C98 (partial).** Wire: of any entries with distinct names, in any order and with unknown ones in between, a
serde struct takes exactly what they make: each field the value that came for it, or its default, or
`None`. If a required field did not come this is an error. Missing: as above. -/
theorem C98_wire_entries_partial (nt : NameTy) (fs : Fields)
    (hok : Serde.ok (.strct nt fs) .wire false = true) (henv : Serde.envOkFields env fs)
    (es : List fs.Entry) (hd : ((es.filterMap Sum.getLeft?).map fs.keyOf).Nodup)
    (hu : ∀ u, .inr u ∈ es → u.name ∉ fs.names ∧ u.name.ty = .str ∧ WireSkippable o u.ty = true)
    (bs rest : Bytes) (he : Serde.encDoc o env .wire fs es = .ok bs) (v : fs.Val) (r : Bytes) :
    Serde.decode o env .wire (.strct nt fs) (bs ++ rest) = .ok (v, r) ↔
      Serde.Assembled env fs (es.filterMap Sum.getLeft?) v ∧ r = rest := by
  by_cases hl : Opt.length o = .variable
  · exact Serde.de_assembled o env (m := .wire) (us := true) (Wire.skippable o true fun _ => hl) rfl
      (Wire.consumes_step o) nt fs hok henv es hd
      (fun u h => ⟨(hu u h).1, (hu u h).2.1, .inl rfl, ((Bool.and_eq_true _ _).mp (hu u h).2.2).1⟩) bs rest he v r
  · refine Serde.de_assembled o env (m := .wire) (us := false) (Wire.skippable o false (by simp)) rfl
      (Wire.consumes_step o) nt fs hok henv es hd (fun u h => ?_) bs rest he v r
    obtain ⟨h1, h2, h3⟩ := hu u h
    simp only [WireSkippable, hl, decide_false, Bool.false_or, Bool.and_eq_true] at h3
    exact ⟨h1, h2, .inr h3.2, h3.1⟩

/-- **C98.** Descriptive: the same, for unknown values of every type that can be skipped, see C17. -/
theorem C98_descriptive_entries (nt : NameTy) (fs : Fields)
    (hok : Serde.ok (.strct nt fs) .descriptive false = true) (henv : Serde.envOkFields env fs)
    (es : List fs.Entry) (hd : ((es.filterMap Sum.getLeft?).map fs.keyOf).Nodup)
    (hu : ∀ u, .inr u ∈ es → u.name ∉ fs.names ∧ u.name.ty = .str ∧ u.ty.counted = true)
    (bs rest : Bytes) (he : Serde.encDoc o env .descriptive fs es = .ok bs) (v : fs.Val) (r : Bytes) :
    Serde.decode o env .descriptive (.strct nt fs) (bs ++ rest) = .ok (v, r) ↔
      Serde.Assembled env fs (es.filterMap Sum.getLeft?) v ∧ r = rest :=
  Serde.de_assembled o env (m := .descriptive) (us := true) (Desc.skippable o) rfl
    (Desc.consumes_step o) nt fs hok henv es hd
    (fun u h => ⟨(hu u h).1, (hu u h).2.1, .inl rfl, (hu u h).2.2⟩) bs rest he v r

end

/-! ## Examples -/

namespace Sample
/-- ```
struct Order {
    id: u64,
    #[serde(skip_serializing_if = "Option::is_none")] note: Option<String>,
    lines: Vec<(String, f32)>,
    state: State,
}
enum State { Open { by: String }, Paid(u32) }
``` -/
def state : Ty := .enm .str
  (.cons (str (utf8% "Open")) (.strct .str (.cons (str (utf8% "by")) none none .string .nil))
  (.cons (str (utf8% "Paid")) (.transparent (.prim (.uint .w32))) .nil))

@[inherit_doc state]
def orderFields : Fields :=
  (.cons (str (utf8% "id")) none none (.prim (.uint .w64))
  (.cons (str (utf8% "note")) none (some 0) (.option .string)
  (.cons (str (utf8% "lines")) none none
    (.vec (.tuple (.cons .string (.cons (.prim .f32) .nil))))
  (.cons (str (utf8% "state")) none none state .nil))))

@[inherit_doc state]
def order : Ty := .strct .str orderFields

/-- `Order { id: 7, note: None, lines: [("é", 1.0)], state: Paid(300) }`. -/
def order7 : order.Val :=
  (7#64, none, [(⟨utf8% "é", by decide⟩, 0x3f800000#32, ())], .inr (.inl 300#32), ())

theorem order_envOk : Serde.envOk env order := by
  simp only [order, orderFields, state, Serde.envOk, Serde.envOkFields, Serde.envOkTys,
    Serde.envOkVariants, and_true, true_and]
  refine ⟨fun k h => by simp at h, ?_⟩
  refine ⟨?_, ⟨fun k h => by simp at h, ⟨fun k h => by simp at h, fun k h => by simp at h⟩⟩⟩
  intro k _ v hv
  cases v with
  | none => exact .option _
  | some v => cases hv
end Sample

section
open Sample
attribute [local instance] Sample.host

-- the hypotheses of C96
example : Serde.ok order .storage false = true ∧ Serde.ok order .wire false = true ∧
    Serde.ok order .descriptive false = true ∧ Serde.envOk env order :=
  ⟨by decide, by decide, by decide, order_envOk⟩
example : Serde.ok account .wire false = true ∧
    (Serde.encode nativeOpts env .storage account ann).isOk = true ∧
    (Serde.encode fixedBig env .wire account ann).isOk = true := by decide +kernel
example : Serde.encode varOpts env .storage order order7 =
    .ok ([3] ++ ([2] ++ utf8% "id") ++ [7] ++ ([5] ++ utf8% "lines") ++
      [1, 2] ++ [2, 0xC3, 0xA9] ++ [0x80, 0x80, 0x80, 0xfc, 0x03] ++
      ([5] ++ utf8% "state") ++ ([4] ++ utf8% "Paid") ++ [0xAC, 2]) := by decide +kernel
example :
    let t : Ty := .tuple (.cons .string (.cons (.option (.prim (.uint .w8))) .nil))
    Serde.ok t .packed true = true ∧
    (Serde.encode nativeOpts env .packed t (⟨utf8% "é", by decide⟩, none, ())).isOk = true ∧
    (Serde.encode nativeOpts env .packed t (⟨utf8% "é", by decide⟩, some 3#8, ())).isOk = true := by
  decide +kernel

-- the hypotheses of C97
example : Serde.compat state = true ∧ Serde.strict state .wire = true ∧
    Serde.compat (.vec state) = true ∧ ((Mode.wire.fmt varOpts).native = false) ∧
    ((Mode.storage.fmt varOpts).native = false) ∧ Supported varOpts .wire (.vec state) = true := by
  decide +kernel
example : Serde.compat order = true := by decide +kernel
example : (Serde.decode varOpts env .wire state
    (match Serde.encode varOpts env .wire state (.inr (.inl 300#32)) with
     | .ok bs => bs | .error _ => [])).isOk = true := by decide +kernel

/-- Entries of an `Order`, in another order, with two unknown ones. -/
def orderDoc : List orderFields.Entry :=
  [.inl (.inr (.inr (.inr (.inl (.inr (.inl 300#32)))))),
   .inr ⟨str (utf8% "x"), person, bob⟩,
   .inl (.inr (.inr (.inl [(⟨utf8% "é", by decide⟩, 0x3f800000#32, ())]))),
   .inr ⟨str (utf8% "y"), .vec .bytes, [[1, 2], []]⟩,
   .inl (.inl 7#64)]

-- the hypotheses of C98
example : (orderDoc.filterMap Sum.getLeft?).Perm (orderFields.entries env order7) :=
  (List.reverse_perm _).symm
example : ∀ u, .inr u ∈ orderDoc → u.name ∉ orderFields.names ∧ u.name.ty = .str ∧
    WireSkippable varOpts u.ty = true := by
  intro u hu
  simp only [orderDoc, List.mem_cons, List.not_mem_nil, or_false, reduceCtorEq, false_or,
    Sum.inr.injEq] at hu
  rcases hu with rfl | rfl <;> exact ⟨by decide, rfl, by decide +kernel⟩
example : (Serde.encDoc varOpts env .wire orderFields orderDoc).isOk = true ∧
    (Serde.encDoc varOpts env .descriptive orderFields orderDoc).isOk = true := by decide +kernel

-- an order without a note, and without an id, which is an error
example : ((orderDoc.filterMap Sum.getLeft?).map orderFields.keyOf).Nodup := by decide +kernel
example : Serde.Assembled env orderFields (orderDoc.filterMap Sum.getLeft?) order7 :=
  ⟨rfl, .option _, rfl, rfl, trivial⟩
example (v) : ¬ Serde.Assembled env orderFields ((orderDoc.take 4).filterMap Sum.getLeft?) v :=
  fun h => nomatch h.1

/-! ## Where serde and Müsli part -/

/-- **C97** is false for a `usize`: serde writes it as a `u64`. In storage with fixed
integers and 32 bit lengths, eight bytes instead of four. -/
theorem C97_violated_usize :
    let o := Opt.setPointer (Opt.setFixed Opt.new) .u32
    Serde.encode o env .storage (.prim .usize) 7#64 = .ok [7, 0, 0, 0, 0, 0, 0, 0] ∧
    Musli.encode o env .storage (.prim .usize) 7#64 = .ok [7, 0, 0, 0] := by decide

/-- **C97** is false for a unit struct in descriptive: serde writes a unit, Müsli an empty
map. Müsli does not read what serde wrote; serde reads anything as a unit. -/
theorem C97_violated_unit_struct :
    Serde.encode varOpts env .descriptive .unitStruct () ≠
      Musli.encode varOpts env .descriptive .unitStruct () ∧
    (∃ bs, Serde.encode varOpts env .descriptive .unitStruct () = .ok bs ∧
      (Musli.decode varOpts env .descriptive .unitStruct bs).isOk = false) ∧
    (∃ bs, Musli.encode varOpts env .descriptive person bob = .ok bs ∧
      (Serde.decode varOpts env .descriptive .unitStruct bs).isOk = true) :=
  ⟨by decide, ⟨_, rfl, by decide⟩, ⟨_, rfl, by decide +kernel⟩⟩

/-- **C97** is false for `enum E { A, B }`: Müsli writes the name only, serde a variant with
an empty body. -/
theorem C97_violated_unit_enum :
    let t : Ty := .unitEnum .str [str (utf8% "A"), str (utf8% "B")]
    Serde.encode varOpts env .storage t (1 : Fin 2) = .ok [1, 0x42, 0] ∧
    Musli.encode varOpts env .storage t (1 : Fin 2) = .ok [1, 0x42] := by decide

/-- **C97** is false with the bitwise fast path: `Vec<u32>` has a length of eight bytes in the
order of the machine from Müsli, and whatever is configured from serde. -/
theorem C97_violated_fast_path :
    let t : Ty := .vec (.prim (.uint .w32))
    ∃ o : Options, Opt.isNativeFixed o = true ∧
      Serde.encode o env .storage t [5#32] ≠ Musli.encode o env .storage t [5#32] :=
  ⟨fixedBig, by decide, by decide⟩

/-- **C97**: a struct with a missing `Option` is accepted by serde and not by Müsli. -/
theorem C97_violated_missing_option :
    let t : Ty := .strct .str (.cons (str (utf8% "a")) none none (.option .string) .nil)
    Serde.decode varOpts env .storage t [0] = .ok ((none, ()), []) ∧
    (Musli.decode varOpts env .storage t [0]).isOk = false := by decide +kernel

/-- **C97**: three numbers read as `[u8; 2]` are accepted by serde in wire, which skips
the third, and not by Müsli. -/
theorem C97_violated_longer_array :
    let t : Ty := .array 2 (.prim (.uint .w8))
    let bs := match Musli.encode varOpts env .wire (.vec (.prim (.uint .w8))) [1#8, 2#8, 3#8] with
      | .ok bs => bs
      | .error _ => []
    (Serde.decode varOpts env .wire t bs).isOk = true ∧
    (Musli.decode varOpts env .wire t bs).isOk = false := by decide +kernel

/-- **C97**: the full statement. -/
def C97Full : Prop := ∀ (host : Host) (o : Options) (env : Env) (m : Mode) (t : Ty) (v : t.Val)
  (bs cs : Bytes), @Serde.encode host o env m t v = .ok bs → @Musli.encode host o env m t v = .ok cs →
  bs = cs

@[inherit_doc C97Full]
theorem C97_full_statement_false : ¬C97Full := by
  intro h
  have := h host _ env .storage (.prim .usize) 7#64 _ _ C97_violated_usize.1 C97_violated_usize.2
  revert this; decide

/-- **C98** is false without the condition on unknown values, as C14: an unknown `usize`
with a 32 bit length width swallows the field behind it. -/
theorem C98_violated_fixed_usize :
    let o := Opt.setPointer Opt.new .u32
    let fs : Fields := .cons (str (utf8% "a")) none none (.prim (.uint .w8)) .nil
    let es : List fs.Entry := [.inr ⟨str (utf8% "b"), .prim .usize, 7#64⟩, .inl (.inl 5#8)]
    ∃ bs, Serde.encDoc o env .wire fs es = .ok bs ∧
      (Serde.decode o env .wire (.strct .str fs) bs).isOk = false :=
  ⟨_, rfl, by decide +kernel⟩

end

section
variable [Host] (o : Options) (env : Env)

/-- **C98.** A field that comes twice is an error in every format, wherever it comes and
whatever its values are: unlike Müsli's own derive, where the last one counts (C14). -/
theorem C98_duplicate_rejected (m : Mode) (nt : NameTy) (fs : Fields)
    (hok : Serde.ok (.strct nt fs) m false = true) (henv : Serde.envOkFields env fs)
    (es : List fs.Known) (hd : ¬ (es.map fs.keyOf).Nodup) (bs rest : Bytes)
    (he : Serde.encDoc o env m fs (es.map .inl) = .ok bs) :
    (Serde.decode o env m (.strct nt fs) (bs ++ rest)).isOk = false := by
  refine Serde.de_dup o env m nt fs hok henv es hd bs rest ?_
  unfold Serde.encDoc at he
  rw [List.length_map, all_map] at he
  exact he
end

section
open Sample
attribute [local instance] Sample.host
example : ¬ ([.inl 7#64, .inr (.inl none), .inl 8#64].map orderFields.keyOf).Nodup ∧
    (Serde.encDoc varOpts env .storage orderFields
      (List.map .inl [.inl 7#64, .inr (.inl none), .inl 8#64])).isOk = true := by decide +kernel
end

end Musli
