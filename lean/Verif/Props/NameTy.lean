import Verif.Spec.NameTy
/-!
# C109: fields and variants are named as documented, and names have the type of their container
-/
namespace Musli.Rename
open Spec
variable {T : Type}

/-- Whether a mode is the text mode. -/
abbrev isText (kind : ModeKind) : Bool := kind = .text

theorem split_rule (kind : ModeKind) (ty : Option (NTy T)) (all : Option NameAll) :
    (splitNameTy (some kind) ty all none).1 = ruleOf (isText kind) false ty all := by
  cases all with
  | some r => cases ty <;> rfl
  | none =>
    cases ty with
    | none => cases kind <;> rfl
    | some t => cases t <;> rfl

/-- The rule by which fields are named is the documented one: in every mode, for structs, tuple
structs and variants, with and without `name_all` and `name(type)`. -/
theorem C109_rule (kind : ModeKind) (st : StructKind) (ty : Option (NTy T)) (all : Option NameAll) :
    (fieldNaming (some kind) st ty all none).1 = ruleOf (isText kind) (st = .indexed) ty all := by
  unfold fieldNaming
  by_cases h : st = .indexed ∧ ty.isNone ∧ all.isNone ∧ (none : Option NameMethod).isNone
  · rw [if_pos h]
    obtain ⟨rfl, h1, h2, _⟩ := h
    cases ty with
    | some t => cases h1
    | none => cases all with
      | some r => cases h2
      | none => rfl
  · rw [if_neg h, split_rule]
    by_cases hs : st = .indexed
    · subst hs
      cases all with
      | some r => cases ty <;> rfl
      | none => cases ty with
        | some t => cases t <;> rfl
        | none => exact absurd ⟨rfl, rfl, rfl, rfl⟩ h
    · simp only [hs, decide_false]

/-- The same for the variants of an enum. -/
theorem C109_rule_variants (kind : ModeKind) (ty : Option (NTy T)) (all : Option NameAll) :
    (variantNaming (some kind) ty all none).1 = ruleOf (isText kind) false ty all :=
  split_rule kind ty all

/-- The type of the names is `name(type)`, or else `usize` for indexes and `str` for text; names are
decoded as this type is, unless a method is given. -/
theorem C109_type (kind : ModeKind) (st : StructKind) (ty : Option (NTy T)) (all : Option NameAll)
    (method : Option NameMethod) :
    (fieldNaming (some kind) st ty all method).2.1 =
      ty.getD (if (fieldNaming (some kind) st ty all method).1 = .index then .usize else .str) ∧
    (fieldNaming (some kind) st ty all method).2.2 =
      method.getD (methodOf (fieldNaming (some kind) st ty all method).2.1) := by
  unfold fieldNaming
  by_cases h : st = .indexed ∧ ty.isNone ∧ all.isNone ∧ method.isNone
  · rw [if_pos h]
    obtain ⟨rfl, h1, _, h2⟩ := h
    cases ty with
    | some t => cases h1
    | none => cases method with
      | some r => cases h2
      | none => exact ⟨rfl, rfl⟩
  · rw [if_neg h]
    cases ty with
    | none =>
      refine ⟨?_, ?_⟩
      · show (splitName (some kind) all).ty = if splitName (some kind) all = .index then .usize else .str
        cases splitName (some kind) all <;> rfl
      · show method.getD (splitName (some kind) all).nameMethod =
          method.getD (methodOf (T := T) (splitName (some kind) all).ty)
        cases splitName (some kind) all <;> rfl
    | some t =>
      refine ⟨rfl, ?_⟩
      cases method with
      | some m => rfl
      | none => cases t <;> rfl

/-- An explicit name is taken as it is, whatever the rule, and the others are indexes or the
identifier under the rule. -/
theorem C109_names {E : Type} (cc : CharCase) (r : NameAll) (fields : List (Option E × Option (List Char)))
    (i : Nat) (f : Option E × Option (List Char)) (h : fields[i]? = some f) :
    (fieldNames cc r fields)[i]? = some (match f.1, f.2 with
      | some e, _ => .expr e
      | none, none => .idx i
      | none, some ident => match r.apply cc (trimRaw ident) with
        | some s => .lit s
        | none => .idx i) := by
  unfold fieldNames
  rw [List.getElem?_mapIdx, h]
  obtain ⟨e, ident⟩ := f
  cases e with
  | some e => rfl
  | none => cases ident with
    | none => rfl
    | some ident => rfl

theorem apply_none (cc : CharCase) (r : NameAll) (s : List Char) : r.apply cc s = none ↔ r = .index := by
  cases r <;> simp [NameAll.apply]

/-- Exactly when the name which the derive makes up for a field has a type: it is an index and names
are `usize`, or it is text and names are `str`. -/
theorem C109_typed_iff {E : Type} (exprTy : E → NTy T) (cc : CharCase) (r : NameAll) (ident : Option (List Char))
    (i : Nat) (t : NTy T) :
    HasTy exprTy (expandName cc none r ident i) t ↔
      (r = .index ∨ ident = none) ∧ t = .usize ∨ r ≠ .index ∧ ident ≠ none ∧ t = .str := by
  have hi : ∀ n, HasTy exprTy (.idx n : NameExpr E) t ↔ t = .usize := by
    intro n
    constructor
    · intro h; cases h; rfl
    · rintro rfl; exact .idx n
  have hl : ∀ s, HasTy exprTy (.lit s : NameExpr E) t ↔ t = .str := by
    intro s
    constructor
    · intro h; cases h; rfl
    · rintro rfl; exact .lit s
  cases ident with
  | none =>
    show HasTy exprTy (.idx i : NameExpr E) t ↔ _
    rw [hi]
    simp
  | some s =>
    cases h : r.apply cc (trimRaw s) with
    | none =>
      have e : expandName (E := E) cc none r (some s) i = .idx i := by simp [expandName, h]
      rw [e, hi]
      simp [(apply_none cc r _).1 h]
    | some x =>
      have e : expandName (E := E) cc none r (some s) i = .lit x := by simp [expandName, h]
      have hr : r ≠ .index := by
        intro h'
        rw [(apply_none cc r _).2 h'] at h
        cases h
      rw [e, hl]
      simp [hr]

/-- The names which the derive makes up have the type of names of their container: for fields and
variants with identifiers, and for tuples without attributes, if there is no `name(type)`, or it is `usize` or
`str` without a rule. Missing: `name(type = [u8])`, see `C109_violated_bytes`, and tuples with a rule, see
`C109_violated_tuple`. -/
theorem C109_typed_partial {E : Type} (exprTy : E → NTy T) (cc : CharCase) (kind : ModeKind) (st : StructKind)
    (ty : Option (NTy T)) (all : Option NameAll) (ident : Option (List Char)) (i : Nat)
    (hid : ident = none ↔ st = .indexed)
    (hty : ty = none ∧ (st = .indexed → all = none) ∨ all = none ∧ (ty = some .usize ∨ ty = some .str ∧ st ≠ .indexed)) :
    HasTy exprTy (expandName cc none (fieldNaming (some kind) st ty all none).1 ident i)
      (fieldNaming (some kind) st ty all none).2.1 := by
  rw [C109_typed_iff, (C109_type kind st ty all none).1, C109_rule, hid]
  rcases hty with ⟨rfl, h⟩ | ⟨rfl, rfl | ⟨rfl, h⟩⟩
  · by_cases hs : st = .indexed
    · left
      rw [h hs]
      simp [hs, ruleOf]
    · by_cases hr : ruleOf (isText kind) (st = .indexed) (none : Option (NTy T)) all = .index
      · left; simp [hr]
      · right; exact ⟨hr, fun e => hs (hid.1 e), if_neg hr⟩
  · left
    exact ⟨.inl rfl, rfl⟩
  · right
    refine ⟨?_, fun e => h (hid.1 e), rfl⟩
    show NameAll.name ≠ .index
    decide

/-- Violation of "`[u8]` applies `name_all = "name"`": the names made up for fields are then never of the
type of names, so the derive only compiles if every field has a name of its own. -/
theorem C109_violated_bytes {E : Type} (exprTy : E → NTy T) (cc : CharCase) (kind : ModeKind) (st : StructKind)
    (all : Option NameAll) (ident : Option (List Char)) (i : Nat) :
    ¬ HasTy exprTy (expandName cc none (fieldNaming (T := T) (some kind) st (some .bytes) all none).1 ident i)
      (fieldNaming (some kind) st (some .bytes) all none).2.1 := by
  rw [C109_typed_iff, (C109_type kind st _ all none).1]
  rintro (⟨_, h⟩ | ⟨_, _, h⟩) <;> cases h

/-- Violation: a rule which is documented to rename every field does not compile for tuples, except for
`index`: the fields stay indexes and names are `str`. -/
theorem C109_violated_tuple {E : Type} (exprTy : E → NTy T) (cc : CharCase) (kind : ModeKind) (r : NameAll)
    (hr : r ≠ .index) (i : Nat) :
    (fieldNaming (T := T) (some kind) .indexed none (some r) none).2.1 = .str ∧
    ¬ HasTy exprTy (expandName cc none (fieldNaming (T := T) (some kind) .indexed none (some r) none).1 none i)
      (fieldNaming (some kind) .indexed none (some r) none).2.1 := by
  have e : (fieldNaming (T := T) (some kind) .indexed none (some r) none).2.1 = .str := by
    rw [(C109_type kind .indexed none (some r) none).1, C109_rule]
    show (if r = .index then NTy.usize else .str) = NTy.str
    rw [if_neg hr]
  refine ⟨e, ?_⟩
  rw [e, C109_typed_iff]
  rintro (⟨_, h⟩ | ⟨_, h, _⟩)
  · cases h
  · exact h rfl

/-- Violation of "tags can usually be inferred": a name that is not a `usize`, in a container without
attributes, is not of the type of names in the binary mode and custom ones; nor one that is not a `str` in the text mode. -/
theorem C109_violated_infer {E : Type} (exprTy : E → NTy T) (cc : CharCase) (kind : ModeKind) (e : E)
    (ident : List Char) (i : Nat) (h : exprTy e ≠ if isText kind then .str else .usize) :
    ¬ HasTy exprTy (expandName cc (some e) (fieldNaming (T := T) (some kind) .named none none none).1 (some ident) i)
      (fieldNaming (some kind) .named none none none).2.1 := by
  intro hh
  have e' : (fieldNaming (T := T) (some kind) .named none none none).2.1 = if isText kind then .str else .usize := by
    cases kind <;> rfl
  rw [e'] at hh
  generalize (if isText kind then NTy.str else .usize) = t at h hh
  change HasTy exprTy (.expr e) t at hh
  cases hh
  exact h rfl

example : fieldNaming (T := Unit) (some .text) .named none none none = (.name, .str, .unsizedDefault) := by decide
example : fieldNaming (T := Unit) (some .custom) .named none none none = (.index, .usize, .sized) := by decide
example : fieldNaming (T := Unit) (some .text) .indexed none none none = (.index, .usize, .sized) := by decide
example : fieldNaming (T := Unit) (some .binary) .named (some .bytes) none none = (.name, .bytes, .unsizedBytes) := by
  decide
example : fieldNaming (T := Unit) (some .binary) .named none (some .kebab) none = (.kebab, .str, .unsizedDefault) := by
  decide
example (cc : CharCase) : fieldNames (E := Nat) cc .name
    [(none, some "id".toList), (some 7, some "name".toList), (none, some "r#type".toList)] =
    [.lit "id".toList, .expr 7, .lit "type".toList] := rfl
example (cc : CharCase) := C109_typed_partial (T := Unit) (E := Unit) (fun _ => .str) cc .text .named none
  (some .kebab) (some "kind".toList) 3 (by simp) (.inl ⟨rfl, by simp⟩)
example (cc : CharCase) := C109_violated_tuple (T := Unit) (E := Unit) (fun _ => .str) cc .text .kebab (by decide) 0
example (cc : CharCase) := C109_violated_infer (T := Unit) (E := Unit) (fun _ => .str) cc .binary () "id".toList 0 (by decide)

end Musli.Rename
