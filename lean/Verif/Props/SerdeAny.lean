import Verif.Proofs.Serde.Data
import Verif.Props.Samples
/-!
# C112: `deserialize_any` shows what was serialized

A serde type with `#[serde(untagged)]`, `#[serde(tag = "..")]` or `#[serde(flatten)]` asks the
descriptive format what is there. It should be told what was serialized.
-/
namespace Musli

section
variable [Host] (o : Options)

/-- **C112 (partial).** Whatever was serialized, in whatever way, `deserialize_any` shows its
content and leaves the reader behind it. Integers have the same value, if not the
same type. Missing: variants of enums. -/
theorem C112_any_partial (d : Serde.SData) (hd : d.noVariant = true) (bs rest : Bytes)
    (he : Serde.serData (Desc.fmt o) d = .ok bs) :
    ∃ seen, Serde.Desc.deserializeAny o (bs ++ rest) = .ok (seen, rest) ∧ seen.plain = d.plain := by
  obtain ⟨s, h1, h2⟩ := (Serde.shows d).1 hd
  refine ⟨s, ?_, h2⟩
  have h3 := Desc.readValue_enc o (Serde.serData_content (Desc.fmt o) d bs he) rest
  have h4 := Serde.Desc.sim_any o _ _ _ _ h3
  rw [h1] at h4
  exact h4

/-- **C112 (partial).** The same for the types with serde's derives: structs, newtypes, tuples,
collections, options. -/
theorem C112_types_partial (env : Env) (t : Ty) (v : t.Val) (d : Serde.SData)
    (hv : Serde.dataOf env t v = some d) (hd : d.noVariant = true) (bs rest : Bytes)
    (he : Serde.encode o env .descriptive t v = .ok bs) :
    ∃ seen, Serde.Desc.deserializeAny o (bs ++ rest) = .ok (seen, rest) ∧ seen.plain = d.plain := by
  refine C112_any_partial o d hd bs rest ?_
  unfold Serde.encode at he
  rw [Serde.ser_dataOf o env t .descriptive v d hv] at he
  exact he

/-- **C112** fails for every enum, wherever it is: the visitor of the serde bridge has no
`visit_variant`. -/
theorem C112_violated_variants (d : Serde.SData) (hd : d.noVariant = false) (bs rest : Bytes)
    (he : Serde.serData (Desc.fmt o) d = .ok bs) :
    Serde.Desc.deserializeAny o (bs ++ rest) = .error .unsupported := by
  have h1 := (Serde.shows d).2 hd
  have h3 := Desc.readValue_enc o (Serde.serData_content (Desc.fmt o) d bs he) rest
  have h4 := Serde.Desc.sim_any o _ _ _ _ h3
  rw [h1] at h4
  exact h4

/-- **C112**, the full statement. -/
def C112Full : Prop := ∀ (host : Host) (o : Options) (d : Serde.SData) (bs rest : Bytes),
  @Serde.serData (@Desc.fmt host o) d = .ok bs →
  ∃ seen, @Serde.Desc.deserializeAny host o (bs ++ rest) = .ok (seen, rest) ∧ seen.plain = d.plain

end

section
open Sample
attribute [local instance] Sample.host

/-- `struct A { id: u128, tags: (Option<bool>, i128), #[serde(flatten)] .. }` and the like. -/
def Sample.serdeSample : Serde.SData :=
  .struct [(⟨utf8% "id", by decide⟩, .uint .w128 (2 ^ 64)), (⟨utf8% "é", by decide⟩,
    .newtypeStruct (.tuple [.some (.bool true), .none, .sint .w128 (-5)])),
    (⟨utf8% "m", by decide⟩, .map true [(.char 'x', .seq true [.bytes [1, 2], .unitStruct])])]

example : Sample.serdeSample.noVariant = true ∧
    (Serde.serData (Desc.fmt varOpts) Sample.serdeSample).isOk = true := by decide
example : ∃ d, Serde.dataOf env (.strct .str (.cons (str (utf8% "a")) none none
      (.option (.vec (.prim .usize))) (.cons (str (utf8% "b")) none none (.transparent .string) .nil)))
      (some [300], ⟨utf8% "é", by decide⟩, ()) = some d ∧ d.noVariant = true :=
  ⟨.struct [(⟨utf8% "a", by decide⟩, .some (.seq true [.uint .w64 300])),
    (⟨utf8% "b", by decide⟩, .newtypeStruct (.str ⟨utf8% "é", by decide⟩))], rfl, rfl⟩
/-- A `u128` which is a `u64` is shown as one, one which is not is not. -/
example : (∃ bs, Serde.serData (Desc.fmt varOpts) (.uint .w128 7) = .ok bs ∧
      Serde.Desc.deserializeAny varOpts bs = .ok (.uint .w64 7, [])) ∧
    Serde.visitU128 0x10000000000000000#128 = .uint .w128 0x10000000000000000#128 :=
  ⟨⟨_, rfl, rfl⟩, by unfold Serde.visitU128; rw [if_neg (by decide)]⟩
/-- Sequences and maps of unknown length are refused. -/
example : Serde.serData (Desc.fmt varOpts) (.seq false [.unit]) = .error .unsupported ∧
    Serde.serData (Storage.fmt false varOpts) (.map false []) = .error .unsupported := ⟨rfl, rfl⟩

/-- `enum E { A }` in a struct with `#[serde(flatten)]`: it is written and cannot be read. -/
example : ∃ d bs, d = Serde.SData.struct [(⟨utf8% "e", by decide⟩, .unitVariant ⟨utf8% "A", by decide⟩)] ∧
    d.noVariant = false ∧ Serde.serData (Desc.fmt varOpts) d = .ok bs ∧
    Serde.Desc.deserializeAny varOpts bs = .error .unsupported := ⟨_, _, rfl, rfl, rfl, rfl⟩

@[inherit_doc C112Full]
theorem C112_full_statement_false : ¬C112Full := by
  intro h
  obtain ⟨s, h1, _⟩ := h host varOpts (.unitVariant ⟨utf8% "A", by decide⟩) _ [] rfl
  have h2 := C112_violated_variants varOpts (.unitVariant ⟨utf8% "A", by decide⟩) rfl _ [] rfl
  rw [h1] at h2
  cases h2

end

end Musli
