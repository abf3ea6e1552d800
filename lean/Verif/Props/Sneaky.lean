import Verif.Proofs.Zero.Sneaky
import Verif.Props.Samples
/-!
# C134
-/
namespace Musli.Props
open Musli Musli.Zero.Sneaky

/-- If the code compiles, without `swap_bytes_self`, the fields of the type which is compiled are those which were seen: the same names, and
the types of all which are not ignored. Those which are ignored were zero-sized when they were seen. -/
theorem C134_types_partial (T : Types) (transparent : Bool) (s : Seen) (c : Compiled) (hs : membersOk s.shape (s.fields.map (·.member)))
    (hc : membersOk c.shape (c.fields.map (·.1))) (h : bodyOk T transparent false s c = true) :
    s.shape = c.shape ∧ (∀ m, (∃ f ∈ s.fields, f.member = m) ↔ ∃ ty, (m, ty) ∈ c.fields) ∧
    (∀ f ∈ s.fields, f.ignored = false → (f.member, f.ty) ∈ c.fields ∧ T.zeroCopy f.ty = true) ∧
    (∀ f ∈ s.fields, f.ignored = true → T.zeroSized f.ty = true) := by
  obtain ⟨h1, h2, h3, h4, -⟩ := body_types hs hc h
  refine ⟨h1, fun m => ?_, h3, h4⟩
  have := h2 m
  simp only [List.mem_map] at this
  rw [this]
  constructor
  · rintro ⟨⟨a, b⟩, hp, rfl⟩; exact ⟨b, hp⟩
  · rintro ⟨ty, hp⟩; exact ⟨_, hp, rfl⟩

/-- If moreover the order of named fields and the types of ignored fields were not changed, what is validated are the types of the fields
which are compiled, in their order, but for such which are zero-sized. -/
theorem C134_same_partial (T : Types) (transparent : Bool) (s : Seen) (c : Compiled) (hs : membersOk s.shape (s.fields.map (·.member)))
    (hc : membersOk c.shape (c.fields.map (·.1))) (h : bodyOk T transparent false s c = true)
    (hord : s.shape = .named → s.fields.map (·.member) = c.fields.map (·.1))
    (hig : ∀ f ∈ s.fields, f.ignored = true → (f.member, f.ty) ∈ c.fields) :
    c.fields = s.fields.map (fun f => (f.member, f.ty)) ∧
    (validated transparent s).filter (fun t => !T.zeroSized t) = (c.fields.map (·.2)).filter fun t => !T.zeroSized t := by
  obtain ⟨h1, -, h3, h4, h5⟩ := body_types hs hc h
  have ho : s.fields.map (·.member) = c.fields.map (·.1) := by
    by_cases hn : s.shape = .named
    · exact hord hn
    · have hp : patternOk s c = true := by
        simp only [bodyOk, Bool.and_eq_true] at h
        exact h.1.1.1
      exact pattern_tuple hs hc hp hn
  have e := fields_eq (membersOk_nodup hc) ho fun f hf => by
    cases hi : f.ignored with
    | false => exact (h3 f hf hi).1
    | true => exact hig f hf hi
  refine ⟨e, ?_⟩
  rw [h5, e, Seen.types, types_filter T.zeroSized s.fields h4, List.map_map]
  rfl

/-- In a transparent struct which is accepted there is at most one field which is not ignored. -/
theorem C134_transparent_partial (T : Types) (s : Seen) (c : Compiled) (hs : membersOk s.shape (s.fields.map (·.member)))
    (hc : membersOk c.shape (c.fields.map (·.1))) (h : bodyOk T true false s c = true) : s.types.length ≤ 1 := by
  obtain ⟨-, -, -, -, h5⟩ := body_types hs hc h
  unfold validated at h5
  split at h5
  · rw [← h5]; simp
  · next hne =>
    match ht : s.types with
    | [] => simp
    | t :: ts => exact absurd ht (hne t ts rfl)

/-- In an enum, the variants which are compiled are those which were seen, and so are their fields. -/
theorem C134_enum_partial (T : Types) (s : List SeenVariant) (c : List CompiledVariant)
    (hs : ∀ v ∈ s, membersOk v.body.shape (v.body.fields.map (·.member)))
    (hc : ∀ v ∈ c, membersOk v.body.shape (v.body.fields.map (·.1))) (h : enumOk T false s c = true) :
    (∀ w ∈ c, ∃ v ∈ s, v.name = w.name) ∧
    ∀ v ∈ s, ∃ w ∈ c, w.name = v.name ∧ v.body.shape = w.body.shape ∧
      (∀ m, (∃ f ∈ v.body.fields, f.member = m) ↔ ∃ ty, (m, ty) ∈ w.body.fields) ∧
      ∀ f ∈ v.body.fields, f.ignored = false → (f.member, f.ty) ∈ w.body.fields ∧ T.zeroCopy f.ty = true := by
  simp only [enumOk, Bool.and_eq_true, List.all_eq_true, List.contains_iff_mem] at h
  obtain ⟨⟨-, h1⟩, h2⟩ := h
  refine ⟨fun w hw => ?_, fun v hv => ?_⟩
  · obtain ⟨v, hv, e⟩ := List.mem_map.1 (h1 w hw); exact ⟨v, hv, e⟩
  · have := h2 v hv
    split at this
    · cases this
    · next w hw =>
      have hm := List.mem_of_find?_eq_some hw
      have hn := List.find?_some hw
      obtain ⟨e, h3, h4, -⟩ := C134_types_partial T false v.body w.body (hs v hv) (hc w hm) this
      exact ⟨w, hm, by simpa using hn, e, h3, h4⟩

/-- What is validated after the discriminant of a variant are the types of the fields of this variant. -/
theorem C134_variant_partial (T : Types) (swapSelf : Bool) (s : List SeenVariant) (c : List CompiledVariant) (h : enumOk T swapSelf s c = true)
    (v : SeenVariant) (hv : v ∈ s) : validatedVariant s v.disc = some v.body.types := by
  simp only [enumOk, Bool.and_eq_true, decide_eq_true_eq] at h
  obtain ⟨⟨hd, -⟩, -⟩ := h
  unfold validatedVariant
  have hf : (s.find? fun w => w.disc == v.disc) = some v := by
    match he : s.find? fun w => w.disc == v.disc with
    | none =>
      have := List.find?_eq_none.1 he v hv
      simp at this
    | some w =>
      have hn := List.find?_some he
      exact he.trans (congrArg some (inj_of_nodup_map hd (List.mem_of_find?_eq_some he) hv (by simpa using hn)))
  rw [hf]
  simp [validated]

/-! ## Concrete cases -/

namespace Sneaky

/-- Types: 0 is `u8`, 1 is `bool`, 2 is `()`, 3 is `PhantomData<T>`, 4 is not zero-copy. -/
abbrev types : Types := { zeroCopy := (· < 4), zeroSized := fun t => t == 2 || t == 3 }

abbrev field (s : Bytes) (ty : Nat) : Field := { member := .named s, ty := ty, ignored := false }
abbrev at_ (n ty : Nat) : Field := { member := .index n, ty := ty, ignored := false }
abbrev skip (f : Field) : Field := { f with ignored := true }
abbrev same (s : Seen) : Compiled := { shape := s.shape, fields := s.fields.map fun f => (f.member, f.ty) }

/-- `struct S { a: u8, #[zero_copy(ignore)] b: (), c: bool }` -/
abbrev ex : Seen := { shape := .named, fields := [field (utf8% "a") 0, skip (field (utf8% "b") 2), field (utf8% "c") 1] }

/-- `struct S(PhantomData<T>, bool)` -/
abbrev two : Seen := { shape := .tuple, fields := [at_ 0 3, at_ 1 1] }

abbrev variants : List SeenVariant :=
  [{ name := utf8% "A", disc := 1, body := { shape := .unit, fields := [] } }, { name := utf8% "B", disc := 2, body := ex },
   { name := utf8% "C", disc := 4, body := two }]
abbrev sameVariants : List CompiledVariant := variants.map fun v => { name := v.name, disc := v.disc, body := same v.body }

end Sneaky
open Sneaky

/-- What is not changed compiles, and meets the hypotheses. -/
example : bodyOk types false false ex (same ex) = true ∧ validated false ex = [0, 1] ∧ membersOk ex.shape (ex.fields.map (·.member)) :=
  ⟨by decide, by decide, by unfold membersOk; decide⟩
example : bodyOk types false false two (same two) = true ∧ membersOk two.shape (two.fields.map (·.member)) :=
  ⟨by decide, by unfold membersOk; decide⟩
example : bodyOk types true false { two with fields := [skip (at_ 0 3), at_ 1 1] } (same two) = true ∧
    validated true { two with fields := [skip (at_ 0 3), at_ 1 1] } = [1] := by decide
example : enumOk types false variants sameVariants = true ∧ validatedVariant variants 4 = some [3, 1] ∧
    validatedVariant variants 1 = some [] ∧ validatedVariant variants 3 = none := by decide

/-- A field more, a field less, a type or a name which is changed, a tuple which was a struct, a transparent struct with two fields which are
not ignored, a type which is not zero-copy, an ignored field which is not zero-sized: none compiles. `tests/ui/deny_sneaky_field_error.rs`. -/
example : bodyOk types false false ex { same ex with fields := (same ex).fields ++ [(.named (utf8% "d"), 0)] } = false ∧
    bodyOk types false false ex { same ex with fields := (same ex).fields.take 2 } = false ∧
    bodyOk types false false ex { same ex with fields := [(.named (utf8% "a"), 1), (.named (utf8% "b"), 2), (.named (utf8% "c"), 1)] } = false ∧
    bodyOk types false false ex { same ex with fields := [(.named (utf8% "x"), 0), (.named (utf8% "b"), 2), (.named (utf8% "c"), 1)] } = false ∧
    bodyOk types false false two { same two with fields := (same two).fields ++ [(.index 2, 0)] } = false ∧
    bodyOk types false false { two with shape := .unit, fields := [] } (same two) = false ∧
    bodyOk types true false two (same two) = false ∧
    bodyOk types false false { two with fields := [at_ 0 4] } (same { two with fields := [at_ 0 4] }) = false ∧
    bodyOk types false false { two with fields := [skip (at_ 0 1)] } (same { two with fields := [at_ 0 1] }) = false := by decide
example : enumOk types false variants (sameVariants.take 2) = false ∧ enumOk types false (variants.take 2) sameVariants = false ∧
    enumOk types false variants (sameVariants.map fun v => { v with body := { shape := .unit, fields := [] } }) = false := by decide

/-- Named fields in another order compile, and are validated in the order which was seen: of a `u8` and then a `bool` which are exchanged,
the `u8` is validated as if it were the `bool`, and the `bool` not at all. -/
theorem C134_violated_order : ∃ (T : Types) (s : Seen) (c : Compiled), membersOk s.shape (s.fields.map (·.member)) ∧
    membersOk c.shape (c.fields.map (·.1)) ∧ bodyOk T false false s c = true ∧ c.fields.map (·.2) = [1, 0] ∧ validated false s = [0, 1] :=
  ⟨types, { shape := .named, fields := [field (utf8% "a") 0, field (utf8% "c") 1] },
    { shape := .named, fields := [(.named (utf8% "c"), 1), (.named (utf8% "a"), 0)] },
    by unfold membersOk; decide, by unfold membersOk; decide, by decide, by decide, by decide⟩

/-- An ignored field whose type is changed is no longer zero-sized, and not validated. -/
theorem C134_violated_ignored : ∃ (T : Types) (s : Seen) (c : Compiled), membersOk s.shape (s.fields.map (·.member)) ∧
    membersOk c.shape (c.fields.map (·.1)) ∧ bodyOk T false false s c = true ∧ (∃ p ∈ c.fields, T.zeroSized p.2 = false ∧ p.2 ∉ validated false s) :=
  ⟨types, { shape := .tuple, fields := [at_ 0 0, skip (at_ 1 2)] }, { shape := .tuple, fields := [(.index 0, 0), (.index 1, 1)] },
    by unfold membersOk; decide, by unfold membersOk; decide, by decide, (.index 1, 1), by decide, by decide, by decide⟩

/-- With `#[repr(transparent)]` and `#[zero_copy(swap_bytes_self)]` no expression is compiled, and of two fields which are not ignored the
second is not validated, though the macro sees the type which is compiled: `struct S(PhantomData<T>, bool)` can be made of the byte 2. -/
theorem C134_violated_self : ∃ (T : Types) (s : Seen), membersOk s.shape (s.fields.map (·.member)) ∧
    bodyOk T true true s (same s) = true ∧ (∃ t ∈ s.types, T.zeroSized t = false ∧ t ∉ validated true s) :=
  ⟨types, two, by unfold membersOk; decide, by decide, 1, by decide, by decide, by decide⟩

/-- With `#[zero_copy(swap_bytes_self)]` the types of fields may be changed. -/
theorem C134_violated_self_types : ∃ (T : Types) (s : Seen) (c : Compiled), membersOk s.shape (s.fields.map (·.member)) ∧
    membersOk c.shape (c.fields.map (·.1)) ∧ bodyOk T false true s c = true ∧ c.fields.map (·.2) = [1] ∧ validated false s = [0] :=
  ⟨types, { shape := .tuple, fields := [at_ 0 0] }, { shape := .tuple, fields := [(.index 0, 1)] },
    by unfold membersOk; decide, by unfold membersOk; decide, by decide, by decide, by decide⟩

/-- Discriminants which are changed compile: what is validated after the discriminant which a variant now has are the fields of another. -/
theorem C134_violated_discriminant : ∃ (T : Types) (s : List SeenVariant) (c : List CompiledVariant), enumOk T false s c = true ∧
    ∃ w ∈ c, ∃ t ∈ w.body.fields.map (·.2), T.zeroSized t = false ∧ validatedVariant s w.disc = some [] :=
  ⟨types, variants, sameVariants.map fun v => { v with disc := if v.disc = 1 then 2 else if v.disc = 2 then 1 else v.disc }, by decide,
    { name := utf8% "B", disc := 1, body := same ex }, by decide, 0, by decide, by decide, by decide⟩

end Musli.Props
