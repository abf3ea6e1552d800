import Verif.Model.Rename
/-!
# Attributes of the derives, by mode and direction

`#[musli(..)]` on a type, a variant or a field, and which implementations the derives emit:
`crates/musli-macros/src/internals/{attr,ctxt,expansion}.rs`, `crates/musli-macros/src/expander.rs`.
Paths are relative to `crates/musli-macros/src`.

Simplified: the values of attributes (expressions, types, paths) are opaque; spans and the text of
errors are left out, errors are counted; a path is the list of its segments.
-/
namespace Musli.Attr

/-- `ModeKind`, `internals/attr.rs:18-23`. -/
inductive Kind where
  | binary | text | custom
deriving DecidableEq, Repr

/-- `syn::Path` without generic arguments. -/
abbrev Path := List String

/-- `ModeIdent`, `internals/attr.rs:35-39`. -/
structure ModeIdent where
  path : Path
  kind : Kind
deriving DecidableEq, Repr

/-- `Only`, `internals/attr.rs:41-45`. -/
inductive Only where
  | encode | decode
deriving DecidableEq, Repr

/-- One element of the list in `#[musli(..)]`, as the closures of `type_attrs`, `variant_attrs` and
`field_attrs` distinguish them, `internals/attr.rs:376-470, 653-727, 839-965`. Elements which set
several attributes, `tag(value = .., type = ..)`, are several elements here. -/
inductive Meta (K M V : Type) where
  /-- `mode = <path>` -/
  | mode (p : Path)
  | encodeOnly
  | decodeOnly
  /-- an attribute which can be given once, like `name_all = ".."` or `packed` -/
  | set (k : K) (v : V)
  /-- an attribute with several values, like `bound = {..}` -/
  | add (k : M) (v : V)
  /-- any other word: `Binary`, `Text`, or unsupported -/
  | word (s : String)
  /-- an attribute which does not parse -/
  | bad
deriving DecidableEq, Repr

/-- `parse_mode`, `internals/attr.rs:986-1002`. -/
def parseMode (p : Path) : ModeIdent :=
  match p with
  | [s] => if s = "Binary" then ⟨p, .binary⟩ else if s = "Text" then ⟨p, .text⟩ else ⟨p, .custom⟩
  | _ => ⟨p, .custom⟩

/-- `parse_path_mode`, `internals/attr.rs:1004-1023`. -/
def parsePathMode (s : String) : Option ModeIdent :=
  if s = "Binary" then some ⟨[s], .binary⟩ else if s = "Text" then some ⟨[s], .text⟩ else none

/-- The variables of a round of `type_attrs`, `internals/attr.rs:372-374`, and whether the result of
`parse_nested_meta` is an error. -/
structure Parsed (K M V : Type) where
  /-- `new`, the attributes which can be given once -/
  sets : List (K × V) := []
  /-- `new`, the others -/
  adds : List (M × V) := []
  mode : Option ModeIdent := none
  only : Option Only := none
  failed : Bool := false

/-- `parse_nested_meta` with the closure, `internals/attr.rs:376-470`: the first error ends it. -/
def parse {K M V : Type} : List (Meta K M V) → Parsed K M V → Parsed K M V
  | [], p => p
  | .mode q :: ms, p => parse ms { p with mode := some (parseMode q) }
  | .encodeOnly :: ms, p => parse ms { p with only := some .encode }
  | .decodeOnly :: ms, p => parse ms { p with only := some .decode }
  | .set k v :: ms, p => parse ms { p with sets := p.sets ++ [(k, v)] }
  | .add k v :: ms, p => parse ms { p with adds := p.adds ++ [(k, v)] }
  | .word s :: ms, p =>
    match parsePathMode s with
    | some m => parse ms { p with mode := some m }
    | none => { p with failed := true }
  | .bad :: _, p => { p with failed := true }

/-- `OneOf`, `internals/attr.rs:47-52`. -/
structure OneOf (α : Type) where
  encode : α
  decode : α
  any : α

/-- The part of a `OneOf` for what an attribute applies to, `internals/attr.rs:204-208, 226-236`. -/
def OneOf.get {α : Type} (x : OneOf α) : Option Only → α
  | none => x.any
  | some .decode => x.decode
  | some .encode => x.encode

/-- Assignment through the `&mut` of `internals/attr.rs:204-208, 226-236`. -/
def OneOf.set {α : Type} (x : OneOf α) (o : Option Only) (a : α) : OneOf α :=
  match o with
  | none => { x with any := a }
  | some .decode => { x with decode := a }
  | some .encode => { x with encode := a }

/-- `$layer`, `internals/attr.rs:190-197`. -/
structure Layer (K M V : Type) where
  single : K → OneOf (Option V) := fun _ => ⟨none, none, none⟩
  multiple : M → OneOf (List V) := fun _ => ⟨[], [], []⟩

/-- `$attr`, `internals/attr.rs:133-137`. A mode which is not in the map behaves like an empty
layer. -/
structure Attr (K M V : Type) where
  root : Layer K M V := {}
  modes : Kind → Layer K M V := fun _ => {}

section
variable {K M V : Type} [DecidableEq K] [DecidableEq M]

/-- One round of the loop over `new.$single` in `merge_with`, `internals/attr.rs:203-222`: the first
value stays, further ones are errors. -/
def mergeSingle (only : Option Only) (s : Layer K M V × Nat) (x : K × V) : Layer K M V × Nat :=
  match (s.1.single x.1).get only with
  | some _ => (s.1, s.2 + 1)
  | none => ({ s.1 with single := fun k =>
      if k = x.1 then (s.1.single k).set only (some x.2) else s.1.single k }, s.2)

/-- `list.extend` in `merge_with`, `internals/attr.rs:225-239`, for one value. -/
def mergeMultiple (only : Option Only) (l : Layer K M V) (x : M × V) : Layer K M V :=
  { l with multiple := fun k =>
      if k = x.1 then (l.multiple k).set only ((l.multiple k).get only ++ [x.2]) else l.multiple k }

/-- `merge_with`, `internals/attr.rs:200-240`. The code goes through the attributes by their kind;
the values of one kind are in the order given. -/
def merge (only : Option Only) (new : Parsed K M V) (s : Layer K M V × Nat) : Layer K M V × Nat :=
  let s := new.sets.foldl (mergeSingle only) s
  (new.adds.foldl (mergeMultiple only) s.1, s.2)

/-- `Ctxt`, `internals/ctxt.rs:9-17`: the modes, and the number of errors. -/
structure Ctxt where
  modes : Kind → Option ModeIdent := fun _ => none
  errors : Nat := 0

/-- `register_mode`, `internals/ctxt.rs:40-45`. -/
def Ctxt.register (cx : Ctxt) (m : ModeIdent) : Ctxt :=
  { cx with modes := fun k => if k = m.kind then some m else cx.modes k }

/-- One round of the loop of `type_attrs`, `internals/attr.rs:367-486`; `variant_attrs`, `644-743`
and `field_attrs`, `830-981`, are the same. -/
def attrStep (s : Ctxt × Attr K M V) (a : List (Meta K M V)) : Ctxt × Attr K M V :=
  let new := parse a {}
  let cx := if new.failed then { s.1 with errors := s.1.errors + 1 } else s.1
  match new.mode with
  | some mode =>
    let cx := cx.register mode
    let r := merge new.only new (s.2.modes mode.kind, cx.errors)
    ({ cx with errors := r.2 },
      { s.2 with modes := fun k => if k = mode.kind then r.1 else s.2.modes k })
  | none =>
    let r := merge new.only new (s.2.root, cx.errors)
    ({ cx with errors := r.2 }, { s.2 with root := r.1 })

/-- `type_attrs`, `variant_attrs`, `field_attrs`: all attributes of one item. -/
def itemAttrs (cx : Ctxt) (as : List (List (Meta K M V))) : Ctxt × Attr K M V :=
  as.foldl attrStep (cx, {})

/-- `Expander::new`, `expander.rs:148-230`: all items of a type, the type itself, its variants and
fields. -/
def expand : Ctxt → List (List (List (Meta K M V))) → Ctxt × List (Attr K M V)
  | cx, [] => (cx, [])
  | cx, as :: items =>
    let r := itemAttrs cx as
    let rest := expand r.1 items
    (rest.1, r.2 :: rest.2)

/-- `setup_builds`, `expander.rs:241-308`, with `default`, `expander.rs:205-220`: the modes for which
there is an implementation. The order of the first ones is that of a `HashMap`. -/
def builds (cx : Ctxt) : List ModeIdent :=
  let modes := [Kind.binary, .text, .custom].filterMap cx.modes
  let missing := [(⟨["Binary"], .binary⟩ : ModeIdent), ⟨["Text"], .text⟩].filter
    fun d => modes.all fun m => m.kind ≠ d.kind
  modes ++ missing

/-- The access to a layer of the methods named like attributes, `internals/attr.rs:152-163`. -/
def Layer.one (l : Layer K M V) (only : Only) (k : K) : Option V :=
  match only with
  | .encode => if (l.single k).encode.isSome then (l.single k).encode else (l.single k).any
  | .decode => if (l.single k).decode.isSome then (l.single k).decode else (l.single k).any

/-- The access to a layer of the methods for several values, `internals/attr.rs:165-178`. -/
def Layer.many (l : Layer K M V) (only : Only) (k : M) : Option (List V) :=
  let any := if (l.multiple k).any.isEmpty then none else some (l.multiple k).any
  match only with
  | .encode => if (l.multiple k).encode.isEmpty then any else some (l.multiple k).encode
  | .decode => if (l.multiple k).decode.isEmpty then any else some (l.multiple k).decode

/-- `by_mode`, `internals/attr.rs:140-150`. -/
def byMode {α : Type} (a : Attr K M V) (kind : Kind) (access : Layer K M V → Option α) : Option α :=
  match access (a.modes kind) with
  | some x => some x
  | none => access a.root

/-- An attribute which can be given once, in a mode and direction, `internals/attr.rs:152-163`. -/
def Attr.one (a : Attr K M V) (kind : Kind) (only : Only) (k : K) : Option V :=
  byMode a kind fun l => l.one only k

/-- An attribute with several values, in a mode and direction, `internals/attr.rs:165-178`. -/
def Attr.many (a : Attr K M V) (kind : Kind) (only : Only) (k : M) : List V :=
  (byMode a kind fun l => l.many only k).getD []

end
end Musli.Attr
