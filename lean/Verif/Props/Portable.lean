import Verif.Proofs.Portable
import Verif.Props.Samples
/-!
# C103: documents are the same on all machines
-/
namespace Musli

variable (h1 h2 : Host) (o : Options) (env : Env)

/-- **C103 (partial).** Unless integers, floats and lengths all have fixed width, a value has the same encoding
on machines of either byte order, in every format; and any bytes are decoded to the same result, or fail alike.
This covers the default options of storage, wire and descriptive. Missing: `C103_violated_storage`,
`C103_violated_wire_pack`. -/
theorem C103_same_everywhere_partial (hn : Opt.isNativeFixed o = false) (m : Mode) (t : Ty) :
    (∀ v, @encode h1 o env m t v = @encode h2 o env m t v) ∧ @decode h1 o env m t = @decode h2 o env m t :=
  ⟨t.encHosts h1 h2 o env m (.inl hn), t.decHosts h1 h2 o env m (.inl hn)⟩

/-- **C103 (partial).** For wire and descriptive the same holds with any options for types without packed
structs. -/
theorem C103_wire_descriptive_partial (m : Mode) (hm : m = .wire ∨ m = .descriptive) (t : Ty)
    (ht : t.noPack = true) :
    (∀ v, @encode h1 o env m t v = @encode h2 o env m t v) ∧ @decode h1 o env m t = @decode h2 o env m t :=
  ⟨t.encHosts h1 h2 o env m (.inr ⟨hm, ht⟩), t.decHosts h1 h2 o env m (.inr ⟨hm, ht⟩)⟩

/-- **C103.** The full statement: options which do not refer to the byte order of the machine have the same
meaning on every machine. -/
def C103Full : Prop := ∀ (h1 h2 : Host) (o : Options) (env : Env) (m : Mode) (t : Ty) (v : t.Val),
  @encode h1 o env m t v = @encode h2 o env m t v

/-- `Vec<u16>` in storage with `options::new().fixed().byte_order(Big)`: the elements and the length are copied
in the order of the machine, since `is_native_fixed` does not compare byte orders. -/
theorem C103_violated_storage :
    @encode ⟨.little⟩ Sample.fixedBig Sample.env .storage (.vec (.prim (.uint .w16))) [1#16] =
      .ok [1, 0, 0, 0, 0, 0, 0, 0, 1, 0] ∧
    @encode ⟨.big⟩ Sample.fixedBig Sample.env .storage (.vec (.prim (.uint .w16))) [1#16] =
      .ok [0, 0, 0, 0, 0, 0, 0, 1, 0, 1] := by decide

/-- A packed struct with a `u16` in wire with the same options. -/
theorem C103_violated_wire_pack :
    @encode ⟨.little⟩ Sample.fixedBig Sample.env .wire
      (.packed false (.cons (.idx 0) none none (.vec (.prim (.uint .w16))) .nil)) ([1#16], ()) ≠
    @encode ⟨.big⟩ Sample.fixedBig Sample.env .wire
      (.packed false (.cons (.idx 0) none none (.vec (.prim (.uint .w16))) .nil)) ([1#16], ()) := by decide

@[inherit_doc C103Full]
theorem C103_full_statement_false : ¬C103Full := by
  intro h
  have := h ⟨.little⟩ ⟨.big⟩ Sample.fixedBig Sample.env .storage (.vec (.prim (.uint .w16))) [1#16]
  rw [C103_violated_storage.1, C103_violated_storage.2] at this
  revert this; decide

/-- The hypotheses hold for the default options, and for a type with all kinds of parts. -/
example : Opt.isNativeFixed Opt.new = false ∧ Sample.person.noPack = true := by decide

/-- With big-endian integers of fixed width and lengths of variable width both machines write big-endian. -/
example : @encode ⟨.little⟩ (Opt.setByteOrder (Opt.setInteger Opt.new .fixed) .big) Sample.env .storage
    (.vec (.prim (.uint .w16))) [1#16] = .ok [1, 0, 1] := by decide

end Musli
