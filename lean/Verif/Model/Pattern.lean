import Verif.Model.Tagged
import Verif.Model.Json.Tagged
/-!
# `#[musli(pattern = ..)]` on fields and variants

Encoding does not look at patterns (`musli-macros/src/en.rs` has none); decoding matches the name against the arms
of the fields or variants in the order of their declaration.
-/
namespace Musli

/-- A pattern on names, as `2..=4 | 10..=20`. -/
abbrev Pat := Name → Bool

/-- The patterns of the fields or variants by their index. -/
abbrev Pats := Nat → Option Pat

/-- The patterns of all fields but the first. -/
def Pats.tail (ps : Pats) : Pats := fun i => ps (i + 1)

/-- An arm of the `match` on the name: the pattern if there is one, otherwise the name, `sized_arm`,
`musli-macros/src/de.rs:1611-1639`, and `NameVariant::as_arm`, `de.rs:1530-1553`. -/
def armMatches (n : Name) (p : Option Pat) (name : Name) : Bool :=
  match p with
  | some p => p name
  | none => n = name

/-- The index of the first arm which matches, for variants without data, `musli-macros/src/de.rs:230-234`. -/
def findArm : (names : List Name) → Pats → Name → Option (Fin names.length)
  | [], _, _ => none
  | n :: names, ps, name =>
    if armMatches n (ps 0) name then some ⟨0, by simp⟩
    else (findArm names ps.tail name).map fun i => ⟨i.1 + 1, by simp⟩

section
variable [Host] (o : Options) (env : Env)

/-- One entry of a struct, `musli-macros/src/de.rs:1205-1286`: the first arm which matches. -/
def decEntryPat : (fs : Fields) → Pats → Mode → Name → fs.Partial → Dec fs.Partial
  | .nil, _, m, _, _ => (m.fmt o).skip
  | .cons n _ _ t fs, ps, m, name, p =>
    if armMatches n (ps 0) name then do
      let v ← decD o env t m
      pure (some v, p.2)
    else do
      let q ← decEntryPat fs ps.tail m name p.2
      pure (p.1, q)

/-- `decode_tagged`, `musli-macros/src/de.rs:1075-1372`, of a struct with patterns. -/
def decStructPat (nt : NameTy) (fs : Fields) (ps : Pats) (m : Mode) : Dec fs.Val := do
  let c ← (m.fmt o).decMap
  let p ← loopN (fun p => do
    let n ← decName (m.fmt o) nt
    decEntryPat o env fs ps m n p) c fs.none
  let v ← Dec.ofExcept (fs.finish env p)
  let _ ← (m.fmt o).endMap 0
  pure v

/-- The body of the first variant which matches, or the fallback with the body skipped,
`musli-macros/src/de.rs:388-449, 913-941`. -/
def decVariantsPat {α : Type} (fallback : Option α) : (vs : Variants) → Pats → Mode → Name → Dec (vs.Val ⊕ α)
  | .nil, _, m, _ =>
    match fallback with
    | some f => do
      let _ ← (m.fmt o).skip
      pure (.inr f)
    | none => Dec.fail .unknown
  | .cons n t vs, ps, m, name =>
    if armMatches n (ps 0) name then do
      let x ← decD o env t m
      pure (.inl (.inl x))
    else do
      let x ← decVariantsPat fallback vs ps.tail m name
      pure (match x with
        | .inl x => .inl (.inr x)
        | .inr f => .inr f)

/-- `decode_default_enum`, `musli-macros/src/de.rs:364-459`, of an enum with patterns; `fallback` is the variant with
`#[musli(default)]`. -/
def decEnumPat (nt : NameTy) (vs : Variants) (ps : Pats) (fallback : Option vs.Val) (m : Mode) : Dec vs.Val := do
  let _ ← (m.fmt o).decVariant
  let n ← decName (m.fmt o) nt
  let x ← decVariantsPat o env fallback vs ps m n
  pure (match x with
    | .inl v => v
    | .inr f => f)

/-- `decode_empty_enum`, `musli-macros/src/de.rs:210-271`, of an enum with patterns. -/
def decUnitPat (nt : NameTy) (names : List Name) (ps : Pats) (fallback : Option (Fin names.length)) (m : Mode) :
    Dec (Fin names.length) := do
  let n ← decName (m.fmt o) nt
  match findArm names ps n with
  | some i => pure i
  | none =>
    match fallback with
    | some f => pure f
    | none => Dec.fail .unknown

end

namespace Json
variable (full : Bool) (env : Env)

/-- One entry of a struct in JSON, `musli-macros/src/de.rs:1205-1286`. -/
def decEntryPatJ : (fs : Fields) → Pats → Name → fs.Partial → P fs.Partial
  | .nil, _, _, _ => skip
  | .cons n _ _ t fs, ps, name, p =>
    if armMatches n (ps 0) name then do
      let v ← decJ full env t
      pure (some v, p.2)
    else do
      let q ← decEntryPatJ fs ps.tail name p.2
      pure (p.1, q)

/-- `decode_tagged`, `musli-macros/src/de.rs:1075-1372`, of a struct with patterns in JSON. -/
def decStructPatJ (nt : NameTy) (fs : Fields) (ps : Pats) : P fs.Val := do
  let p ← object (fun p => do
    let n ← decNameK full nt
    expect .colon
    decEntryPatJ full env fs ps n p) fs.none
  P.ofExcept (fs.finish env p)

/-- The body of the first variant which matches in JSON, `musli-macros/src/de.rs:388-449, 913-941`. -/
def decVariantsPatJ {α : Type} (fallback : Option α) : (vs : Variants) → Pats → Name → P (vs.Val ⊕ α)
  | .nil, _, _ =>
    match fallback with
    | some f => do
      expect .colon
      skip
      pure (.inr f)
    | none => P.fail .unknown
  | .cons n t vs, ps, name =>
    if armMatches n (ps 0) name then do
      expect .colon
      let x ← decJ full env t
      pure (.inl (.inl x))
    else do
      let x ← decVariantsPatJ fallback vs ps.tail name
      pure (match x with
        | .inl x => .inl (.inr x)
        | .inr f => .inr f)

/-- `decode_default_enum`, `musli-macros/src/de.rs:364-459`, of an enum with patterns in JSON. -/
def decEnumPatJ (nt : NameTy) (vs : Variants) (ps : Pats) (fallback : Option vs.Val) : P vs.Val := do
  expect .openBrace
  let n ← decNameK full nt
  let x ← decVariantsPatJ full env fallback vs ps n
  expect .closeBrace
  pure (match x with
    | .inl v => v
    | .inr f => f)

/-- `decode_empty_enum`, `musli-macros/src/de.rs:210-271`, of an enum with patterns in JSON. -/
def decUnitPatJ (nt : NameTy) (names : List Name) (ps : Pats) (fallback : Option (Fin names.length)) :
    P (Fin names.length) := do
  let n ← decNameV full nt
  match findArm names ps n with
  | some i => pure i
  | none =>
    match fallback with
    | some f => pure f
    | none => P.fail .unknown

end Json
end Musli
