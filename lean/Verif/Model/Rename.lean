import Verif.Model.Ty
/-!
# Names of fields and variants

`#[musli(name_all = "..")]`: how the derives turn the identifier of a field or
of a variant into its name, `crates/musli-macros/src/internals/name.rs` and
`crates/musli-macros/src/expander.rs:395-424`.

Simplified: the tables of Unicode (`char::is_uppercase`, `char::to_uppercase`,
`char::to_lowercase`) are a parameter, and the counter of words (a `usize`) is a
natural number.
-/
namespace Musli.Rename

/-- `enum NameAll`, `musli-macros/src/internals/name.rs:8-20` -/
inductive NameAll where
  | index | name | pascal | camel | snake | screamingSnake | kebab | screamingKebab
deriving DecidableEq, Repr

/-- `char::is_uppercase`, `char::to_uppercase` and `char::to_lowercase` of the
standard library; the last two yield one or more characters. -/
structure CharCase where
  /-- `char::is_uppercase` -/
  isUpper : Char → Bool
  /-- `char::to_uppercase` -/
  upper : Char → List Char
  /-- `char::to_lowercase` -/
  lower : Char → List Char

/-- `NameAll::parse`, `musli-macros/src/internals/name.rs:48-60` -/
def NameAll.parse (input : String) : Option NameAll :=
  if input = "index" then some .index
  else if input = "name" then some .name
  else if input = "PascalCase" then some .pascal
  else if input = "camelCase" then some .camel
  else if input = "snake_case" then some .snake
  else if input = "SCREAMING_SNAKE_CASE" then some .screamingSnake
  else if input = "kebab-case" then some .kebab
  else if input = "SCREAMING-KEBAB-CASE" then some .screamingKebab
  else none

/-- The closures `feed` of `NameAll::apply`,
`musli-macros/src/internals/name.rs:64-93` -/
def NameAll.feed (cc : CharCase) (r : NameAll) (openGroup : Bool) (count : Nat) (c : Char) :
    List Char :=
  match r with
  | .pascal => if openGroup then cc.upper c else cc.lower c
  | .camel => if openGroup && decide (count > 0) then cc.upper c else cc.lower c
  | .snake | .kebab => cc.lower c
  | .screamingSnake | .screamingKebab => cc.upper c
  | .index | .name => [c]

/-- `prefix` of `NameAll::apply`, `musli-macros/src/internals/name.rs:95-101` -/
def NameAll.pre (r : NameAll) : List Char :=
  match r with
  | .snake | .screamingSnake => ['_']
  | .kebab | .screamingKebab => ['-']
  | _ => []

/-- The variables of the loop of `NameAll::apply`,
`musli-macros/src/internals/name.rs:103-105` -/
structure Loop where
  /-- `output` -/
  output : List Char
  /-- `count` -/
  count : Nat
  /-- `group` -/
  group : Bool

/-- The body of the loop of `NameAll::apply`,
`musli-macros/src/internals/name.rs:108-128` -/
def NameAll.step (cc : CharCase) (r : NameAll) (s : Loop) (c : Char) : Loop :=
  if c = '_' then
    { s with count := if s.group then s.count else s.count + 1, group := true }
  else
    let s := if cc.isUpper c && !s.group then { s with group := true, count := s.count + 1 } else s
    let out := if s.group && decide (s.count > 0) then s.output ++ r.pre else s.output
    { output := out ++ r.feed cc s.group s.count c, count := s.count, group := false }

/-- `NameAll::apply`, `musli-macros/src/internals/name.rs:63-132` -/
def NameAll.apply (cc : CharCase) (r : NameAll) (input : List Char) : Option (List Char) :=
  match r with
  | .index => none
  | .name => some input
  | r => some (input.foldl (r.step cc) { output := [], count := 0, group := true }).output

/-- `str::trim_start_matches("r#")`, used at `musli-macros/src/expander.rs:408` -/
def trimRaw : List Char → List Char
  | 'r' :: '#' :: rest => trimRaw rest
  | cs => cs

/-- A name that the derive writes into the generated code. -/
inductive NameExpr (E : Type) where
  /-- an expression taken from `#[musli(name = ..)]` -/
  | expr (e : E)
  /-- a string literal -/
  | lit (s : List Char)
  /-- a literal `usize` -/
  | idx (n : Nat)
deriving DecidableEq

/-- `expand_name`, `musli-macros/src/expander.rs:395-424`: the name of a field or
variant from its attribute `#[musli(name = ..)]`, its identifier (fields of tuple
structs have none) and its index. Spans are not modelled. -/
def expandName {E : Type} (cc : CharCase) (rename : Option E) (r : NameAll)
    (ident : Option (List Char)) (index : Nat) : NameExpr E :=
  match rename with
  | some e => .expr e
  | none =>
    match ident with
    | none => .idx index
    | some ident =>
      match r.apply cc (trimRaw ident) with
      | some name => .lit name
      | none => .idx index

/-- `enum ModeKind` and `ModeKind::default_name_all`,
`musli-macros/src/internals/attr.rs:18-33` -/
inductive ModeKind where | binary | text | custom
deriving DecidableEq

/-- `ModeKind::default_name_all`, `musli-macros/src/internals/attr.rs:26-32` -/
def ModeKind.defaultNameAll : ModeKind → Option NameAll
  | .binary => some .index
  | .text => some .name
  | .custom => none

/-- `split_name` for containers without `#[musli(name(type = ..))]`,
`musli-macros/src/internals/build.rs:731-735`: `all.or(kind_name_all).unwrap_or_default()`.
Of what it returns only the rule is modelled. -/
def splitName (kind : Option ModeKind) (all : Option NameAll) : NameAll :=
  match all with
  | some r => r
  | none =>
    match kind with
    | some k => match k.defaultNameAll with
      | some r => r
      | none => .index
    | none => .index

/-- The names of the fields of a struct or of the variants of an enum, in order
of declaration, `musli-macros/src/internals/build.rs:432-434, 490-492, 542, 611`: the index of
the n-th field is n. -/
def expandAll {E : Type} (cc : CharCase) (r : NameAll) (fields : List (Option E × List Char)) :
    List (NameExpr E) :=
  fields.mapIdx fun i f => expandName cc f.1 r (some f.2) i

end Musli.Rename
