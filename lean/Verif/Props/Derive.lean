import Verif.Spec.Derive
/-!
# C125: which types can be derived, and how they are represented
-/
namespace Musli.Derive
open Spec

/-! ### The fields -/

private theorem kept_from (i : Nat) (fs : List Field) :
    unskippedFrom i fs = (number i fs).filterMap fun p => if p.2.skip then none else some p.1 := by
  induction fs generalizing i with
  | nil => rfl
  | cons f fs ih =>
    cases h : f.skip <;> simp [unskippedFrom, number, h, ih]

theorem unskipped_kept (b : Body) : b.unskipped = kept b := kept_from 0 b.fields

private theorem from_nil (i : Nat) (fs : List Field) : unskippedFrom i fs = [] ↔ ∀ g ∈ fs, g.skip = true := by
  induction fs generalizing i with
  | nil => simp [unskippedFrom]
  | cons f fs ih => cases h : f.skip <;> simp [unskippedFrom, h, ih]

private theorem from_one (i : Nat) (fs : List Field) :
    (∃ j, unskippedFrom i fs = [j]) ↔
      ∃ l f r, fs = l ++ f :: r ∧ f.skip = false ∧ ∀ g ∈ l ++ r, g.skip = true := by
  induction fs generalizing i with
  | nil => simp [unskippedFrom]
  | cons f fs ih =>
    cases h : f.skip with
    | true =>
      simp only [unskippedFrom, h, if_true, ih]
      constructor
      · rintro ⟨l, g, r, rfl, hg, hr⟩
        refine ⟨f :: l, g, r, rfl, hg, ?_⟩
        intro x hx
        rcases List.mem_cons.1 hx with rfl | hx
        · exact h
        · exact hr x hx
      · rintro ⟨l, g, r, he, hg, hr⟩
        cases l with
        | nil =>
          cases he
          rw [h] at hg
          cases hg
        | cons a l =>
          cases he
          exact ⟨l, g, r, rfl, hg, fun x hx => hr x (List.mem_cons_of_mem _ hx)⟩
    | false =>
      simp only [unskippedFrom, h, Bool.false_eq_true, if_false]
      constructor
      · rintro ⟨j, hj⟩
        obtain ⟨-, hj⟩ := List.cons.inj hj
        exact ⟨[], f, fs, rfl, h, (from_nil _ _).1 hj⟩
      · rintro ⟨l, g, r, he, hg, hr⟩
        cases l with
        | nil =>
          cases he
          exact ⟨i, by rw [(from_nil (i + 1) fs).2 hr]⟩
        | cons a l =>
          cases he
          have := hr f (List.mem_cons_self ..)
          rw [h] at this
          cases this

theorem transparentField_some {b : Body} {i : Nat} : b.transparentField = some i ↔ b.unskipped = [i] := by
  unfold Body.transparentField
  split
  · next j h => rw [h]; simp
  · next h =>
    constructor
    · intro e; cases e
    · intro e; exact absurd e (h i)

theorem transparentField_isNone (b : Body) : b.transparentField.isNone = true ↔ ¬OneField b := by
  have := from_one 0 b.fields
  rw [show OneField b ↔ _ from this.symm]
  cases h : b.transparentField with
  | none =>
    simp only [Option.isNone_none, true_iff]
    rintro ⟨j, hj⟩
    rw [transparentField_some.2 hj] at h
    cases h
  | some i =>
    have := transparentField_some.1 h
    simp only [Option.isNone_some, Bool.false_eq_true, false_iff, Classical.not_not]
    exact ⟨i, this⟩

/-! ### What is reported -/

private theorem defaults_true (fs : List Field) : packedDefaults true fs = [] ↔ ∀ g ∈ fs, g.dflt = true := by
  induction fs with
  | nil => simp [packedDefaults]
  | cons f fs ih => cases h : f.dflt <;> simp [packedDefaults, h, ih]

private theorem defaults_last (fs : List Field) :
    packedDefaults false fs = [] ↔ ∀ l f r, fs = l ++ f :: r → f.dflt = true → ∀ g ∈ r, g.dflt = true := by
  induction fs with
  | nil => simp [packedDefaults]
  | cons f fs ih =>
    cases h : f.dflt with
    | true =>
      simp only [packedDefaults, h, if_true, defaults_true]
      constructor
      · intro ha l g r he _ x hx
        cases l with
        | nil => cases he; exact ha x hx
        | cons a l => cases he; exact ha x (by simp [hx])
      · intro ha
        exact ha [] f fs rfl h
    | false =>
      simp only [packedDefaults, h, Bool.false_eq_true, if_false, ih]
      constructor
      · intro ha l g r he hg x hx
        cases l with
        | nil => cases he; rw [h] at hg; cases hg
        | cons a l => cases he; exact ha l g r rfl hg x hx
      · intro ha l g r he
        exact ha (f :: l) g r (by rw [he]; rfl)

private theorem names_nil (fs : List Field) :
    (fs.flatMap fun f => (if f.name then [Problem.fieldName] else []) ++ (if f.pattern then [Problem.fieldName] else [])) = [] ↔
      ∀ f ∈ fs, f.name = false ∧ f.pattern = false := by
  rw [List.flatMap_eq_nil_iff]
  apply forall_congr'; intro f
  apply imp_congr_right; intro _
  cases f.name <;> cases f.pattern <;> simp

private theorem skips_nil (fs : List Field) :
    (fs.flatMap fun f => if f.skipIf then [Problem.transparentSkip] else []) = [] ↔ ∀ f ∈ fs, f.skipIf = false := by
  rw [List.flatMap_eq_nil_iff]
  apply forall_congr'; intro f
  apply imp_congr_right; intro _
  cases f.skipIf <;> simp

theorem body_valid (b : Body) : b.validate = [] ↔ AllowedBody b := by
  unfold Body.validate AllowedBody Body.validatePacking
  cases h : b.packing with
  | tagged => simp
  | untagged => simp
  | packed =>
    simp only [List.append_eq_nil_iff, reduceCtorEq, or_true, if_true, if_false, and_true]
    rw [names_nil, defaults_last]
    have e : ((if b.names = true then [Problem.packedNames] else []) = []) ↔ b.names = false := by cases b.names <;> simp
    rw [e]
    exact ⟨fun h => ⟨h.1.1, h.2, h.1.2⟩, fun h => ⟨⟨h.1, h.2.2⟩, h.2.1⟩⟩
  | transparent =>
    simp only [List.append_eq_nil_iff, true_or, if_true]
    rw [names_nil, skips_nil, and_assoc]
    have := transparentField_isNone b
    cases hn : b.transparentField.isNone with
    | true => simp [this.1 hn]
    | false =>
      have h1 : OneField b := Classical.byContradiction fun h => by rw [this.2 h] at hn; cases hn
      simp [h1, NoNames]

private theorem fallback_seen (vs : List Variant) : setupFallback true vs = [] ↔ ∀ v ∈ vs, v.fallback = false := by
  induction vs with
  | nil => simp [setupFallback]
  | cons v vs ih => cases h : v.fallback <;> cases g : v.body.fields <;> simp [setupFallback, h, g, ih]

private theorem fallback_ok (vs : List Variant) :
    setupFallback false vs = [] ↔ (∀ v ∈ vs, v.fallback = true → v.body.fields = []) ∧
      (∀ l v r, vs = l ++ v :: r → v.fallback = true → ∀ w ∈ r, w.fallback = false) := by
  induction vs with
  | nil => simp [setupFallback]
  | cons v vs ih =>
    cases h : v.fallback with
    | true =>
      cases g : v.body.fields with
      | nil =>
        simp only [setupFallback, h, g, if_true, List.isEmpty_nil, Bool.not_true, Bool.false_eq_true, if_false, fallback_seen]
        constructor
        · intro ha
          refine ⟨?_, ?_⟩
          · intro w hw hf
            rcases List.mem_cons.1 hw with rfl | hw
            · exact g
            · rw [ha w hw] at hf; cases hf
          · intro l u r he hu w hw
            cases l with
            | nil => cases he; exact ha w hw
            | cons a l =>
              cases he
              have := ha u (by simp)
              rw [hu] at this; cases this
        · intro ha
          exact ha.2 [] v vs rfl h
      | cons f fs =>
        simp only [setupFallback, h, g, if_true, List.isEmpty_cons, Bool.not_false, reduceCtorEq, false_iff]
        intro ha
        have := ha.1 v (List.mem_cons_self ..) h
        rw [g] at this; cases this
    | false =>
      simp only [setupFallback, h, Bool.false_eq_true, if_false, ih]
      constructor
      · intro ha
        refine ⟨?_, ?_⟩
        · intro w hw hf
          rcases List.mem_cons.1 hw with rfl | hw
          · rw [h] at hf; cases hf
          · exact ha.1 w hw hf
        · intro l u r he hu w hw
          cases l with
          | nil => cases he; rw [h] at hu; cases hu
          | cons a l => cases he; exact ha.2 l u r rfl hu w hw
      · intro ha
        exact ⟨fun w hw => ha.1 w (List.mem_cons_of_mem _ hw), fun l u r he => ha.2 (v :: l) u r (by rw [he]; rfl)⟩

private theorem variants_valid (tag : Bool) (vs : List Variant) :
    (vs.flatMap fun v => v.body.validate ++ (if v.body.packing = .packed ∧ tag = true then [Problem.packedVariant] else [])) = [] ↔
      (∀ v ∈ vs, AllowedBody v.body) ∧ (tag = true → ∀ v ∈ vs, v.body.packing ≠ .packed) := by
  rw [List.flatMap_eq_nil_iff]
  constructor
  · intro h
    refine ⟨fun v hv => (body_valid _).1 (List.append_eq_nil_iff.1 (h v hv)).1, fun ht v hv hp => ?_⟩
    have := (List.append_eq_nil_iff.1 (h v hv)).2
    rw [if_pos ⟨hp, ht⟩] at this
    cases this
  · rintro ⟨h1, h2⟩ v hv
    rw [(body_valid _).2 (h1 v hv), if_neg (fun h => h2 h.2 v hv h.1)]
    rfl

/-- Nothing is reported of exactly the types which are allowed. -/
theorem valid_iff (d : Decl) : (d.setup = [] ∧ d.validate = []) ↔ Allowed d := by
  cases d with
  | union => simp [Decl.setup, Allowed]
  | strct tag content b =>
    simp only [Decl.setup, Decl.validate, Allowed, true_and, List.append_eq_nil_iff, body_valid, and_assoc]
    cases tag <;> cases content <;> simp
  | enm tag content packing vs =>
    simp only [Decl.setup, Decl.validate, Allowed, List.append_eq_nil_iff, variants_valid, fallback_ok]
    have e : ((∀ v ∈ vs, AllowedBody v.body ∧ (v.fallback = true → v.body.fields = [])) ↔
        (∀ v ∈ vs, AllowedBody v.body) ∧ ∀ v ∈ vs, v.fallback = true → v.body.fields = []) :=
      ⟨fun h => ⟨fun v hv => (h v hv).1, fun v hv => (h v hv).2⟩, fun h v hv => ⟨h.1 v hv, h.2 v hv⟩⟩
    rw [e]
    have p : packingProblems tag content packing = [] ↔
        (packing = .tagged ∨ (packing = .untagged ∧ tag = false ∧ content = false)) := by
      cases packing <;> cases tag <;> cases content <;> simp [packingProblems]
    rw [p]
    constructor
    · rintro ⟨⟨h1, h2⟩, h3, h4, h5⟩
      exact ⟨h3, ⟨h4, h1⟩, h5, h2⟩
    · rintro ⟨h3, ⟨h4, h1⟩, h5, h2⟩
      exact ⟨⟨h1, h2⟩, h3, h4, h5⟩

/-! ### There is code for what is allowed -/

theorem encodeDefault_some {b : Body} (h : AllowedBody b) : encodeDefault b = some (bodyRepr b) := by
  unfold AllowedBody at h
  unfold encodeDefault bodyRepr
  cases hp : b.packing with
  | tagged => simp [unskipped_kept]
  | packed => simp [unskipped_kept]
  | untagged => rw [hp] at h; exact h.elim
  | transparent =>
    rw [hp] at h
    cases ht : b.transparentField with
    | none => exact absurd h.1 ((transparentField_isNone b).1 (by rw [ht]; rfl))
    | some i => simp only [Option.map_some, ← unskipped_kept, transparentField_some.1 ht]

theorem decodeBody_some {b : Body} (h : AllowedBody b) (hw : WfBody b) :
    ∃ m, decodeBody b = some ⟨bodyRepr b, m⟩ ∧ (m = b.all ∨ (b.packing = .packed ∧ m = b.unskipped)) := by
  unfold AllowedBody at h
  unfold WfBody at hw
  unfold decodeBody bodyRepr
  cases hp : b.packing with
  | tagged =>
    cases hk : b.kind with
    | empty =>
      rw [hk] at hw
      refine ⟨_, ?_, .inl rfl⟩
      simp [← unskipped_kept, Body.unskipped, Body.all, hw, unskippedFrom]
    | named => exact ⟨_, by simp only [unskipped_kept], .inl rfl⟩
    | indexed n => exact ⟨_, by simp only [unskipped_kept], .inl rfl⟩
  | packed => exact ⟨_, by simp only [unskipped_kept], .inr ⟨rfl, rfl⟩⟩
  | untagged => rw [hp] at h; exact h.elim
  | transparent => exact ⟨_, by simp only [unskipped_kept], .inl rfl⟩

private theorem deriveEncode_eq {d : Decl} (h : Allowed d) : ∃ c, encodeCode d = some c ∧ deriveEncode d = .ok c := by
  obtain ⟨h1, h2⟩ := (valid_iff d).2 h
  have : ∃ c, encodeCode d = some c := by
    cases d with
    | union => exact h.elim
    | strct tag content b => exact ⟨.body (bodyRepr b), by simp [encodeCode, encodeDefault_some h.2.2]⟩
    | enm tag content packing vs => exact ⟨_, rfl⟩
  obtain ⟨c, hc⟩ := this
  exact ⟨c, hc, by simp [deriveEncode, h1, h2, hc]⟩

private theorem allSome_some {α β : Type} {f : α → Option β} {l : List α} (h : ∀ x ∈ l, ∃ y, f x = some y) :
    ∃ r, allSome f l = some r := by
  induction l with
  | nil => exact ⟨_, rfl⟩
  | cons x l ih =>
    obtain ⟨y, hy⟩ := h x (List.mem_cons_self ..)
    obtain ⟨r, hr⟩ := ih fun x hx => h x (List.mem_cons_of_mem _ hx)
    exact ⟨y :: r, by simp [allSome, hy, hr]⟩

theorem decodeBody_isSome {b : Body} (h : AllowedBody b) : ∃ d, decodeBody b = some d := by
  unfold AllowedBody at h
  unfold decodeBody
  cases hp : b.packing <;> cases hk : b.kind <;> rw [hp] at h <;> first | exact ⟨_, rfl⟩ | exact h.elim

private theorem deriveDecode_eq {d : Decl} (h : Allowed d) : ∃ c, decodeCode d = some c ∧ deriveDecode d = .ok c := by
  obtain ⟨h1, h2⟩ := (valid_iff d).2 h
  have : ∃ c, decodeCode d = some c := by
    cases d with
    | union => exact h.elim
    | strct tag content b =>
      obtain ⟨x, hx⟩ := decodeBody_isSome h.2.2
      exact ⟨_, by simp only [decodeCode, hx]; rfl⟩
    | enm tag content packing vs =>
      obtain ⟨r, hr⟩ := allSome_some (f := fun v => decodeBody v.body) (l := vs) fun v hv => decodeBody_isSome (h.2.1 v hv).1
      simp only [decodeCode, decodeEnum]
      split
      · exact ⟨_, rfl⟩
      · split
        · exact ⟨_, rfl⟩
        · split
          · exact ⟨_, by rw [hr]; rfl⟩
          · exact ⟨_, rfl⟩
        · exact ⟨_, rfl⟩
        · exact ⟨_, rfl⟩
  obtain ⟨c, hc⟩ := this
  exact ⟨c, hc, by simp [deriveDecode, h1, h2, hc]⟩

/-! ### The theorems -/

/-- **C125.** Both derives accept exactly the types which are allowed. -/
theorem C125_accepted (d : Decl) :
    ((∃ c, deriveEncode d = .ok c) ↔ Allowed d) ∧ ((∃ c, deriveDecode d = .ok c) ↔ Allowed d) := by
  refine ⟨⟨?_, fun h => (deriveEncode_eq h).imp fun _ h => h.2⟩, ⟨?_, fun h => (deriveDecode_eq h).imp fun _ h => h.2⟩⟩
  · rintro ⟨c, hc⟩
    apply (valid_iff d).1
    unfold deriveEncode at hc
    split at hc
    · next h1 =>
      split at hc
      · cases hc
      · split at hc
        · next h2 => exact ⟨List.isEmpty_iff.1 h1, List.isEmpty_iff.1 h2⟩
        · cases hc
    · cases hc
  · rintro ⟨c, hc⟩
    apply (valid_iff d).1
    unfold deriveDecode at hc
    split at hc
    · next h1 =>
      split at hc
      · cases hc
      · split at hc
        · next h2 => exact ⟨List.isEmpty_iff.1 h1, List.isEmpty_iff.1 h2⟩
        · cases hc
    · cases hc

/-- **C125.** If there is no implementation, an error is reported. -/
theorem C125_reported (d : Decl) (ps : List Problem) :
    (deriveEncode d = .error ps → ps ≠ []) ∧ (deriveDecode d = .error ps → ps ≠ []) := by
  constructor
  · rintro h rfl
    have hn : ¬Allowed d := fun ha => by
      obtain ⟨c, -, hc⟩ := deriveEncode_eq ha
      rw [hc] at h; cases h
    unfold deriveEncode at h
    split at h
    · next h1 =>
      apply hn
      apply (valid_iff d).1
      refine ⟨List.isEmpty_iff.1 h1, ?_⟩
      split at h
      · exact Except.error.inj h
      · split at h
        · cases h
        · exact Except.error.inj h
    · next h1 => exact h1 (List.isEmpty_iff.2 (Except.error.inj h))
  · rintro h rfl
    have hn : ¬Allowed d := fun ha => by
      obtain ⟨c, -, hc⟩ := deriveDecode_eq ha
      rw [hc] at h; cases h
    unfold deriveDecode at h
    split at h
    · next h1 =>
      apply hn
      apply (valid_iff d).1
      refine ⟨List.isEmpty_iff.1 h1, ?_⟩
      split at h
      · exact Except.error.inj h
      · split at h
        · cases h
        · exact Except.error.inj h
    · next h1 => exact h1 (List.isEmpty_iff.2 (Except.error.inj h))

/-! The representation. -/

private theorem number_mem {α : Type} {i : Nat} {l : List α} {p : Nat × α} (h : p ∈ number i l) : p.2 ∈ l := by
  induction l generalizing i with
  | nil => cases h
  | cons x l ih =>
    rcases List.mem_cons.1 h with rfl | h
    · exact List.mem_cons_self ..
    · exact List.mem_cons_of_mem _ (ih h)

private theorem filterMap_all {α β : Type} {f : α → Option β} {g : α → β} {l : List α} (h : ∀ x ∈ l, f x = some (g x)) :
    l.filterMap f = l.map g := by
  induction l with
  | nil => rfl
  | cons x l ih =>
    rw [List.filterMap_cons_some (h x (List.mem_cons_self ..)), ih fun x hx => h x (List.mem_cons_of_mem _ hx)]
    rfl

private theorem armsOf_all {f : Variant → Option VariantCode} {g : Variant → VariantCode} {vs : List Variant}
    (h : ∀ v ∈ vs, f v = some (g v)) : armsOf f vs = (number 0 vs).map fun p => (p.1, g p.2) :=
  filterMap_all fun p hp => by rw [h p.2 (number_mem hp)]; rfl

private theorem number_allSome {α β γ : Type} {f : α → Option β} (g : β → γ) {l : List α} {r : List β} (i : Nat) (h : allSome f l = some r) :
    ∀ k : α → γ, (∀ x ∈ l, ∀ y, f x = some y → g y = k x) →
      (number i r).map (fun p => (p.1, g p.2)) = (number i l).map fun p => (p.1, k p.2) := by
  induction l generalizing r i with
  | nil => intro k _; cases h; rfl
  | cons x l ih =>
    intro k hk
    unfold allSome at h
    split at h
    · cases h
    · next y hy =>
      cases ht : allSome f l with
      | none => rw [ht] at h; cases h
      | some r' =>
        rw [ht] at h
        cases h
        simp only [number, List.map_cons]
        rw [ih (i + 1) ht k (fun x hx => hk x (List.mem_cons_of_mem _ hx)), hk x (List.mem_cons_self ..) y hy]

/-- An `untagged` enum in which no variant has fields. -/
def UntaggedNames : Decl → Prop
  | .enm false _ .untagged vs => vs ≠ [] ∧ ∀ v ∈ vs, v.body.kind.fieldless = true
  | _ => False

/-- A transparent variant with `#[musli(with = ..)]`, of an enum with `tag` and without `content`. -/
def CustomInternal : Decl → Prop
  | .enm true false _ vs => ∃ v ∈ vs, v.body.packing = .transparent ∧ ∃ f ∈ v.body.fields, f.custom = true
  | _ => False

/-- A packed struct or variant with a skipped field. -/
def PackedSkip : Decl → Prop
  | .strct _ _ b => b.packing = .packed ∧ ∃ f ∈ b.fields, f.skip = true
  | .enm _ _ _ vs => ∃ v ∈ vs, v.body.packing = .packed ∧ ∃ f ∈ v.body.fields, f.skip = true
  | .union => False

/-- A default variant of an enum with `tag`. -/
def FallbackTag : Decl → Prop
  | .enm true _ _ vs => ∃ v ∈ vs, v.fallback = true
  | _ => False

private theorem internal_some {b : Body} (h : AllowedBody b) (hp : b.packing ≠ .packed)
    (hc : ¬(b.packing = .transparent ∧ ∃ f ∈ b.fields, f.custom = true)) :
    encodeInternal b = some (.internal (bodyRepr b)) := by
  have e := encodeDefault_some h
  unfold encodeDefault at e
  unfold encodeInternal
  cases hk : b.packing with
  | tagged =>
    rw [hk] at e
    rw [← Option.some.inj e]
  | packed => exact absurd hk hp
  | untagged => rw [hk] at e; cases e
  | transparent =>
    rw [hk] at e
    cases ht : b.transparentField with
    | none => rw [ht] at e; cases e
    | some i =>
      rw [ht] at e
      have e' := Option.some.inj e
      rw [← e']
      refine (if_neg ?_)
      intro hx
      cases hf : b.fields[i]? with
      | none => rw [hf] at hx; cases hx
      | some f =>
        rw [hf] at hx
        exact hc ⟨hk, f, List.mem_of_getElem? hf, Option.some.inj hx⟩

private theorem fieldless_all (vs : List Variant) :
    (vs.all fun v => v.body.kind.fieldless) = true ↔ ∀ v ∈ vs, v.body.kind.fieldless = true := by simp

private theorem encodeVariant_some {tag content : Bool} {packing : Packing} {vs : List Variant}
    (ha : Allowed (.enm tag content packing vs)) (hc : ¬CustomInternal (.enm tag content packing vs)) :
    ∀ v ∈ vs, encodeVariant (tagging tag content vs) packing v = some (match tagging tag content vs with
      | .empty => .name
      | .default => if packing = .untagged then .bare (bodyRepr v.body) else .external (bodyRepr v.body)
      | .internal => .internal (bodyRepr v.body)
      | .adjacent => .adjacent (bodyRepr v.body)) := by
  intro v hv
  have hb := (ha.2.1 v hv).1
  have he := encodeDefault_some hb
  cases ht : tagging tag content vs with
  | empty => rfl
  | default =>
    rcases ha.1 with rfl | ⟨rfl, -⟩
    · simp [encodeVariant, he]
    · simp [encodeVariant, he]
  | internal =>
    have : tag = true ∧ content = false := by
      unfold tagging at ht
      cases tag <;> cases content <;> simp at ht ⊢ <;> split at ht <;> cases ht
    obtain ⟨rfl, rfl⟩ := this
    exact internal_some hb (ha.2.2.1 rfl v hv) fun h => hc ⟨v, hv, h.1, h.2⟩
  | adjacent => simp [encodeVariant, he]

private theorem decodeVariant_some {b : Body} (ha : AllowedBody b) (hw : WfBody b) (w : BodyCode → VariantCode) :
    ((decodeBody b).map fun d => w d.code) = some (w (bodyRepr b)) := by
  obtain ⟨m, hm, -⟩ := decodeBody_some ha hw
  rw [hm]; rfl

private theorem ite_packing {packing : Packing} (h : packing = .tagged ∨ (packing = .untagged ∧ q)) {α : Type} (a b : α) :
    (match packing with | .untagged => a | _ => b) = if packing = .untagged then a else b := by
  rcases h with rfl | ⟨rfl, -⟩ <;> rfl

private theorem decode_code {tag content : Bool} {packing : Packing} {vs : List Variant}
    (ha : Allowed (.enm tag content packing vs)) (hw : Wf (.enm tag content packing vs)) {e : Decoding}
    (he : decodeEnum (tagging tag content vs) packing vs = some e) :
    e.code = .arms ((number 0 vs).map fun p => (p.1, match tagging tag content vs with
      | .empty => .name
      | .default => if packing = .untagged then .bare (bodyRepr p.2.body) else .external (bodyRepr p.2.body)
      | .internal => .internal (bodyRepr p.2.body)
      | .adjacent => .adjacent (bodyRepr p.2.body))) := by
  unfold decodeEnum at he
  split at he
  · next h =>
    rw [List.isEmpty_iff] at h
    subst h
    cases he
    rfl
  · cases ht : tagging tag content vs with
    | empty => rw [ht] at he; cases he; rfl
    | internal =>
      rw [ht] at he
      cases he
      exact congrArg Code.arms (armsOf_all fun v hv => decodeVariant_some (ha.2.1 v hv).1 (hw v hv) _)
    | adjacent =>
      rw [ht] at he
      cases he
      exact congrArg Code.arms (armsOf_all fun v hv => decodeVariant_some (ha.2.1 v hv).1 (hw v hv) _)
    | default =>
      rw [ht] at he
      rcases ha.1 with rfl | ⟨rfl, -⟩
      · cases he
        exact congrArg Code.arms (armsOf_all fun v hv => decodeVariant_some (ha.2.1 v hv).1 (hw v hv) _)
      · dsimp only at he
        cases hr : allSome (fun v : Variant => decodeBody v.body) vs with
        | none => rw [hr] at he; cases he
        | some r =>
          rw [hr] at he
          cases he
          refine congrArg Code.arms (number_allSome (fun d : BodyDec => VariantCode.bare d.code) 0 hr
            (fun v => .bare (bodyRepr v.body)) fun v hv y hy => ?_)
          have := decodeVariant_some (ha.2.1 v hv).1 (hw v hv) VariantCode.bare
          rw [hy] at this
          exact Option.some.inj this

/-- **C125.** What is decoded is what is encoded: the same fields of the same variants in the same shape. -/
theorem C125_agree (d : Decl) (hw : Wf d) (hc : ¬CustomInternal d) (c : Code) (e : Decoding)
    (h1 : deriveEncode d = .ok c) (h2 : deriveDecode d = .ok e) : e.code = c := by
  have ha := (C125_accepted d).1.1 ⟨c, h1⟩
  obtain ⟨c', hc', hd⟩ := deriveEncode_eq ha
  rw [hd] at h1; cases h1
  obtain ⟨e', he', hd⟩ := deriveDecode_eq ha
  rw [hd] at h2; cases h2
  cases d with
  | union => exact ha.elim
  | strct tag content b =>
    rw [encodeCode, encodeDefault_some ha.2.2] at hc'
    cases hc'
    obtain ⟨m, hm, -⟩ := decodeBody_some ha.2.2 hw
    rw [decodeCode, hm] at he'
    cases he'
    rfl
  | enm tag content packing vs =>
    cases hc'
    rw [decode_code ha hw he']
    exact congrArg Code.arms (armsOf_all (encodeVariant_some ha hc)).symm

private theorem repr_eq {tag content : Bool} {packing : Packing} {vs : List Variant}
    (ha : Allowed (.enm tag content packing vs)) (hu : ¬UntaggedNames (.enm tag content packing vs)) :
    ∀ v ∈ vs, variantRepr tag content packing vs v = (match tagging tag content vs with
      | .empty => .name
      | .default => if packing = .untagged then .bare (bodyRepr v.body) else .external (bodyRepr v.body)
      | .internal => .internal (bodyRepr v.body)
      | .adjacent => .adjacent (bodyRepr v.body)) := by
  intro v hv
  unfold variantRepr tagging
  cases tag with
  | true => cases content <;> rfl
  | false =>
    simp only [Bool.false_eq_true, if_false]
    by_cases hf : ∀ v ∈ vs, v.body.kind.fieldless = true
    · rw [if_pos ((fieldless_all vs).2 hf)]
      have : packing ≠ .untagged := by
        rintro rfl
        exact hu ⟨fun h => (by rw [h] at hv; cases hv), hf⟩
      rw [if_neg this, if_pos hf]
    · rw [if_neg (fun h => hf ((fieldless_all vs).1 h)), if_neg hf]

/-- What is claimed: types which are accepted have the documented representation, in both directions, and the
code for decoding is complete. -/
def C125Full : Prop :=
  ∀ d, Wf d → ∀ c e, deriveEncode d = .ok c → deriveDecode d = .ok e → c = documented d ∧ e.code = documented d ∧ Complete d e

/-- **C125 (partial).** Of all types but `untagged` enums without fields, and but transparent variants with `with` of an
internally tagged enum. -/
theorem C125_representation_partial (d : Decl) (hw : Wf d) (hu : ¬UntaggedNames d) (hc : ¬CustomInternal d)
    (c : Code) (e : Decoding) (h1 : deriveEncode d = .ok c) (h2 : deriveDecode d = .ok e) : c = documented d ∧ e.code = documented d := by
  have hr : c = documented d := by
    have ha := (C125_accepted d).1.1 ⟨c, h1⟩
    obtain ⟨c', hc', hd⟩ := deriveEncode_eq ha
    rw [hd] at h1; cases h1
    cases d with
    | union => exact ha.elim
    | strct tag content b =>
      rw [encodeCode, encodeDefault_some ha.2.2] at hc'
      cases hc'
      rfl
    | enm tag content packing vs =>
      cases hc'
      refine congrArg Code.arms ?_
      rw [armsOf_all (encodeVariant_some ha hc)]
      exact List.map_congr_left fun p hp => by rw [repr_eq ha hu p.2 (number_mem hp)]
  exact ⟨hr, by rw [C125_agree d hw hc c e h1 h2, hr]⟩

/-! Completeness. -/

private theorem from_length (i : Nat) (fs : List Field) : (unskippedFrom i fs).length ≤ fs.length := by
  induction fs generalizing i with
  | nil => exact Nat.le_refl _
  | cons f fs ih =>
    cases h : f.skip <;> simp only [unskippedFrom, h, if_true, Bool.false_eq_true, if_false, List.length_cons]
    · exact Nat.succ_le_succ (ih _)
    · exact Nat.le_succ_of_le (ih _)

private theorem from_all (i : Nat) (fs : List Field) :
    unskippedFrom i fs = List.range' i fs.length ↔ ∀ f ∈ fs, f.skip = false := by
  induction fs generalizing i with
  | nil => simp [unskippedFrom]
  | cons f fs ih =>
    cases h : f.skip with
    | false => simp [unskippedFrom, h, List.range'_succ, ih]
    | true =>
      simp only [unskippedFrom, h, if_true, List.length_cons]
      constructor
      · intro e
        have := from_length (i + 1) fs
        rw [e, List.length_range'] at this
        omega
      · intro e
        have := e f (List.mem_cons_self ..)
        rw [h] at this; cases this

private theorem unskipped_all (b : Body) : b.unskipped = List.range b.fields.length ↔ ¬∃ f ∈ b.fields, f.skip = true := by
  rw [List.range_eq_range', show b.unskipped = unskippedFrom 0 b.fields from rfl, from_all]
  constructor
  · rintro h ⟨f, hf, hs⟩
    rw [h f hf] at hs; cases hs
  · intro h f hf
    cases hs : f.skip with
    | false => rfl
    | true => exact absurd ⟨f, hf, hs⟩ h

private theorem members_iff {b : Body} (ha : AllowedBody b) (hw : WfBody b) {x : BodyDec} (hx : decodeBody b = some x) :
    x.members = List.range b.fields.length ↔ ¬(b.packing = .packed ∧ ∃ f ∈ b.fields, f.skip = true) := by
  obtain ⟨m, hm, hc⟩ := decodeBody_some ha hw
  rw [hm] at hx
  cases hx
  rcases hc with rfl | ⟨hp, rfl⟩
  · refine ⟨fun _ h => ?_, fun _ => rfl⟩
    obtain ⟨hp, hs⟩ := h
    have : decodeBody b = some ⟨⟨.pack, b.unskipped⟩, b.unskipped⟩ := by unfold decodeBody; rw [hp]
    rw [hm] at this
    have := congrArg BodyDec.members (Option.some.inj this)
    exact (unskipped_all b).1 this.symm hs
  · rw [unskipped_all]
    exact ⟨fun h g => h g.2, fun h g => h ⟨hp, g⟩⟩

private theorem number_map_inj {α β : Type} {f g : α → β} {i : Nat} {l : List α} :
    (number i l).map (fun p => (p.1, f p.2)) = (number i l).map (fun p => (p.1, g p.2)) ↔ ∀ x ∈ l, f x = g x := by
  induction l generalizing i with
  | nil => simp [number]
  | cons x l ih => simp [number, ih]

private theorem members_all {vs : List Variant} (ha : ∀ v ∈ vs, AllowedBody v.body) (hw : ∀ v ∈ vs, WfBody v.body)
    {k : Variant → List Nat} (hk : ∀ v ∈ vs, ∀ x, decodeBody v.body = some x → k v = x.members) :
    ((number 0 vs).map fun p => (p.1, k p.2)) = ((number 0 vs).map fun p => (p.1, List.range p.2.body.fields.length)) ↔
      ¬∃ v ∈ vs, v.body.packing = .packed ∧ ∃ f ∈ v.body.fields, f.skip = true := by
  rw [number_map_inj (f := k) (g := fun v => List.range v.body.fields.length)]
  constructor
  · rintro h ⟨v, hv, hs⟩
    obtain ⟨x, hx⟩ := decodeBody_isSome (ha v hv)
    refine (members_iff (ha v hv) (hw v hv) hx).1 ?_ hs
    rw [← hk v hv x hx]
    exact h v hv
  · intro h v hv
    obtain ⟨x, hx⟩ := decodeBody_isSome (ha v hv)
    rw [hk v hv x hx]
    exact (members_iff (ha v hv) (hw v hv) hx).2 fun hs => h ⟨v, hv, hs⟩

/-- The members which are decoded. -/
private def membersOf (v : Variant) : List Nat := ((decodeBody v.body).map (·.members)).getD []

private theorem membersOf_eq (v : Variant) (x : BodyDec) (h : decodeBody v.body = some x) : membersOf v = x.members := by
  unfold membersOf; rw [h]; rfl

private theorem arms_members {w : BodyCode → VariantCode} {vs : List Variant} {u : Bool} (ha : ∀ v ∈ vs, AllowedBody v.body) :
    (decodeArms w vs u).members = (number 0 vs).map fun p => (p.1, membersOf p.2) := by
  refine filterMap_all fun p hp => ?_
  obtain ⟨x, hx⟩ := decodeBody_isSome (ha p.2 (number_mem hp))
  rw [membersOf_eq _ x hx, hx]
  rfl

/-- **C125.** The code for decoding is complete but for packed types with skipped fields, in which the skipped fields are
missing in the literal, and for tagged enums with a default variant, which use a variable that is not in scope. Such
types are accepted by the derives, and rejected by the compiler. -/
theorem C125_complete (d : Decl) (hw : Wf d) (e : Decoding) (h : deriveDecode d = .ok e) :
    Complete d e ↔ ¬PackedSkip d ∧ ¬FallbackTag d := by
  have ha := (C125_accepted d).2.1 ⟨e, h⟩
  obtain ⟨e', he', hd⟩ := deriveDecode_eq ha
  rw [hd] at h; cases h
  cases d with
  | union => exact ha.elim
  | strct tag content b =>
    obtain ⟨x, hx⟩ := decodeBody_isSome ha.2.2
    rw [decodeCode, hx] at he'
    cases he'
    show _ ∧ [(0, x.members)] = [(0, _)] ↔ ¬(_ ∧ _) ∧ ¬False
    rw [← members_iff ha.2.2 hw hx]
    simp
  | enm tag content packing vs =>
    have hall : ∀ v ∈ vs, AllowedBody v.body := fun v hv => (ha.2.1 v hv).1
    have key := members_all hall hw fun v _ x hx => membersOf_eq v x hx
    have hp : PackedSkip (.enm tag content packing vs) ↔
        ∃ v ∈ vs, v.body.packing = .packed ∧ ∃ f ∈ v.body.fields, f.skip = true := Iff.rfl
    have hfb : hasFallback vs = true ↔ ∃ v ∈ vs, v.fallback = true := by simp [hasFallback]
    have hff : hasFallback vs = false ↔ ¬∃ v ∈ vs, v.fallback = true := by
      rw [← hfb]; cases hasFallback vs <;> simp
    show _ ∧ e.members = _ ↔ _
    rw [hp]
    simp only [decodeCode] at he'
    unfold decodeEnum at he'
    split at he'
    · next hv =>
      rw [List.isEmpty_iff] at hv
      subst hv
      cases he'
      cases tag <;> simp [number, FallbackTag]
    · cases tag with
      | true =>
        have heq : e = decodeArms (if content then .adjacent else .internal) vs (hasFallback vs) := by
          unfold tagging at he'
          cases content <;> exact (Option.some.inj he').symm
        subst heq
        rw [arms_members hall, key]
        show hasFallback vs = false ∧ _ ↔ _ ∧ ¬∃ v ∈ vs, v.fallback = true
        rw [hff]
        exact and_comm
      | false =>
        have hnf : ¬FallbackTag (.enm false content packing vs) := fun h => h
        have goal : e.unbound = false ∧ e.members = (number 0 vs).map fun p => (p.1, membersOf p.2) := by
          unfold tagging at he'
          simp only [Bool.false_eq_true, if_false] at he'
          by_cases hf : ∀ v ∈ vs, v.body.kind.fieldless = true
          · rw [if_pos ((fieldless_all vs).2 hf)] at he'
            cases he'
            refine ⟨rfl, List.map_congr_left fun p hp => ?_⟩
            have hv := number_mem hp
            obtain ⟨m, hm, hc⟩ := decodeBody_some (hall _ hv) (hw _ hv)
            have hn : p.2.body.fields = [] := by
              have h1 := hf _ hv
              have h2 : WfBody p.2.body := hw _ hv
              unfold WfBody at h2
              cases hk : p.2.body.kind with
              | empty => rw [hk] at h2; exact h2
              | named => rw [hk] at h1; cases h1
              | indexed n =>
                rw [hk] at h1 h2
                simp only [Kind.fieldless, beq_iff_eq] at h1
                exact List.length_eq_zero_iff.1 (h2.trans h1)
            rw [membersOf_eq _ _ hm]
            rcases hc with rfl | ⟨-, rfl⟩
            · simp [Body.all, hn]
            · simp [Body.unskipped, hn, unskippedFrom]
          · rw [if_neg (fun h => hf ((fieldless_all vs).1 h))] at he'
            rcases ha.1 with rfl | ⟨rfl, -⟩
            · cases he'
              exact ⟨rfl, arms_members hall⟩
            · dsimp only at he'
              cases hr : allSome (fun v : Variant => decodeBody v.body) vs with
              | none => rw [hr] at he'; cases he'
              | some r =>
                rw [hr] at he'
                cases he'
                exact ⟨rfl, number_allSome (fun d : BodyDec => d.members) 0 hr membersOf
                  fun v _ y hy => (membersOf_eq v y hy).symm⟩
        rw [goal.1, goal.2, key]
        exact ⟨fun h => ⟨h.2, hnf⟩, fun h => ⟨rfl, h.1⟩⟩

/-- **C125.** `content` without `tag` is accepted, and has no effect. -/
theorem C125_content_ignored (vs : List Variant) :
    deriveEncode (.enm false true .tagged vs) = deriveEncode (.enm false false .tagged vs) ∧
    deriveDecode (.enm false true .tagged vs) = deriveDecode (.enm false false .tagged vs) :=
  ⟨rfl, rfl⟩

/-- **C125.** `untagged` has no effect on an enum without fields: names of variants are written and read. -/
theorem C125_violated_untagged (content : Bool) (vs : List Variant) (hv : vs ≠ [])
    (hf : ∀ v ∈ vs, v.body.kind.fieldless = true) (ha : Allowed (.enm false content .untagged vs)) :
    deriveEncode (.enm false content .untagged vs) = .ok (.arms ((number 0 vs).map fun p => (p.1, .name))) ∧
    ∃ e, deriveDecode (.enm false content .untagged vs) = .ok e ∧ e.code = .arms ((number 0 vs).map fun p => (p.1, .name)) := by
  have ht : tagging false content vs = .empty := by
    unfold tagging
    simp only [Bool.false_eq_true, if_false]
    rw [if_pos ((fieldless_all vs).2 hf)]
  constructor
  · obtain ⟨c, hc, hd⟩ := deriveEncode_eq ha
    rw [hd]
    rw [encodeCode, ht] at hc
    cases hc
    exact congrArg (fun a => Except.ok (Code.arms a)) (armsOf_all (g := fun _ => .name) fun _ _ => rfl)
  · obtain ⟨e, he, hd⟩ := deriveDecode_eq ha
    refine ⟨e, hd, ?_⟩
    rw [decodeCode, ht, decodeEnum, if_neg (by rw [List.isEmpty_iff]; exact hv)] at he
    cases he
    rfl

/-- **C125.** A transparent variant with `#[musli(with = ..)]` of an internally tagged enum: it is accepted, the value can be
decoded, but never encoded. -/
theorem C125_violated_custom (packing : Packing) (l r : List Variant) (v : Variant) (i : Nat) (f : Field)
    (ha : Allowed (.enm true false packing (l ++ v :: r))) (hw : Wf (.enm true false packing (l ++ v :: r)))
    (hp : v.body.packing = .transparent) (hi : kept v.body = [i]) (hf : v.body.fields[i]? = some f) (hc : f.custom = true) :
    (∃ arms, deriveEncode (.enm true false packing (l ++ v :: r)) = .ok (.arms arms) ∧ (l.length, .fails) ∈ arms) ∧
    ∃ e arms, deriveDecode (.enm true false packing (l ++ v :: r)) = .ok e ∧ e.code = .arms arms ∧
      (l.length, .internal ⟨.transparent, [i]⟩) ∈ arms := by
  have hm : ∀ (j : Nat) (l : List Variant), (j + l.length, v) ∈ number j (l ++ v :: r) := by
    intro j l
    induction l generalizing j with
    | nil => exact List.mem_cons_self ..
    | cons x l ih =>
      refine List.mem_cons_of_mem _ ?_
      have := ih (j + 1)
      rwa [Nat.add_assoc, Nat.add_comm 1] at this
  have hm := hm 0 l
  rw [Nat.zero_add] at hm
  constructor
  · obtain ⟨c, hc', hd⟩ := deriveEncode_eq ha
    cases hc'
    refine ⟨_, hd, List.mem_filterMap.2 ⟨_, hm, ?_⟩⟩
    have : encodeInternal v.body = some .fails := by
      unfold encodeInternal
      rw [hp]
      have ht : v.body.transparentField = some i := transparentField_some.2 (by rw [unskipped_kept]; exact hi)
      simp only [ht]
      exact if_pos (by rw [hf, ← hc]; rfl)
    show (encodeInternal v.body).map _ = _
    rw [this]; rfl
  · obtain ⟨e, he, hd⟩ := deriveDecode_eq ha
    refine ⟨e, _, hd, decode_code ha hw he, List.mem_map.2 ⟨_, hm, ?_⟩⟩
    have : bodyRepr v.body = ⟨.transparent, [i]⟩ := by unfold bodyRepr; rw [hp, hi]
    show (_, VariantCode.internal (bodyRepr v.body)) = _
    rw [this]

/-- **C125.** The claim does not hold of the code as it is. -/
theorem C125_full_statement_false : ¬C125Full := by
  intro h
  have := (h (.strct false false ⟨.indexed 2, .packed, [{ skip := true }, {}], false⟩) rfl _ _ rfl rfl).2.2
  exact absurd this.2 (by decide)

/-! ### Examples -/

/-- `struct S { a, #[musli(default, skip_encoding_if = ..)] b, #[musli(skip)] c }` -/
private def aStruct : Decl := .strct false false ⟨.named, .tagged, [{}, { dflt := true, skipIf := true }, { skip := true }], false⟩

example : deriveEncode aStruct = .ok (.body ⟨.map, [0, 1]⟩) ∧
    deriveDecode aStruct = .ok ⟨.body ⟨.map, [0, 1]⟩, [(0, [0, 1, 2])], false⟩ ∧ Wf aStruct ∧ ¬UntaggedNames aStruct ∧
    ¬CustomInternal aStruct ∧ ¬PackedSkip aStruct ∧ ¬FallbackTag aStruct :=
  ⟨rfl, rfl, trivial, id, id, fun h => (nomatch h.1), id⟩

/-- `enum E { A { x, y }, #[musli(transparent)] B(u8), #[musli(default)] C }` -/
private def variants : List Variant :=
  [⟨⟨.named, .tagged, [{}, {}], false⟩, false⟩, ⟨⟨.indexed 1, .transparent, [{}], false⟩, false⟩, ⟨⟨.empty, .tagged, [], false⟩, true⟩]

example : deriveEncode (.enm false false .tagged variants) =
      .ok (.arms [(0, .external ⟨.map, [0, 1]⟩), (1, .external ⟨.transparent, [0]⟩), (2, .external ⟨.map, []⟩)]) ∧
    deriveDecode (.enm false false .tagged variants) =
      .ok ⟨.arms [(0, .external ⟨.map, [0, 1]⟩), (1, .external ⟨.transparent, [0]⟩), (2, .external ⟨.map, []⟩)],
        [(0, [0, 1]), (1, [0]), (2, [])], false⟩ :=
  ⟨rfl, rfl⟩

/-- With `tag`, the default variant makes the code for decoding refer to a variable out of scope. -/
example : (deriveDecode (.enm true false .tagged variants)).map (·.unbound) = .ok true ∧
    (deriveDecode (.enm true true .tagged variants)).map (·.unbound) = .ok true ∧
    FallbackTag (.enm true false .tagged variants) :=
  ⟨rfl, rfl, _, List.mem_cons_of_mem _ (List.mem_cons_of_mem _ (List.mem_cons_self ..)), rfl⟩

/-- A transparent struct with two fields and a packed enum are reported. -/
example : deriveEncode (.strct false false ⟨.named, .transparent, [{}, {}], false⟩) = .error [.transparentFields] ∧
    deriveDecode (.enm false false .packed variants) = .error [.enumPacking] ∧
    deriveEncode (.enm true false .untagged variants) = .error [.untaggedTag] ∧
    deriveDecode (.strct false false ⟨.named, .packed, [{ dflt := true }, {}], true⟩) = .error [.packedDefault, .packedNames] :=
  ⟨rfl, rfl, rfl, rfl⟩

/-- `#[musli(untagged)] enum E { A, B }` -/
private def names : List Variant := [⟨⟨.empty, .tagged, [], false⟩, false⟩, ⟨⟨.empty, .tagged, [], false⟩, false⟩]

example : names ≠ [] ∧ (∀ v ∈ names, v.body.kind.fieldless = true) ∧ Allowed (.enm false false .untagged names) ∧
    documented (.enm false false .untagged names) = .arms [(0, .bare ⟨.map, []⟩), (1, .bare ⟨.map, []⟩)] :=
  ⟨by decide, by decide, (C125_accepted _).1.1 ⟨_, rfl⟩, by decide⟩

/-- `#[musli(tag = "t")] enum E { #[musli(transparent)] A(#[musli(with = m)] u8) }` -/
private def custom : Variant := ⟨⟨.indexed 1, .transparent, [{ custom := true }], false⟩, false⟩

example : Allowed (.enm true false .tagged ([] ++ custom :: [])) ∧ Wf (.enm true false .tagged ([] ++ custom :: [])) ∧
    kept custom.body = [0] :=
  ⟨(C125_accepted _).1.1 ⟨_, rfl⟩, fun v hv => (by cases hv with | head => rfl | tail _ h => cases h), rfl⟩

end Musli.Derive
