import Verif.Model.Json.Tagged
import Verif.Spec.Evolution
import Verif.Spec.Json.Doc
/-!
# Documents for tagged enums

What an adjacently tagged enum looks like as a list of entries, independent of the code which
writes and reads it.
-/
namespace Musli

/-- The type and the value of the body of a variant. -/
def Variants.payload : (vs : Variants) → vs.Val → (t : Ty) × t.Val
  | .nil, v => nomatch v
  | .cons _ t vs, v =>
    match v with
    | .inl x => ⟨t, x⟩
    | .inr x => vs.payload x

/-- An entry before the content: the tag, with the name of a variant, or something else. -/
abbrev Heading (β : Type _) := Name ⊕ β

/-- The tag that arrived last. -/
def lastTag {β : Type _} (es : List (Heading β)) : Option Name := (es.filterMap Sum.getLeft?).getLast?

/-- An entry under some name. -/
def encUnknown [Host] (o : Options) (env : Env) (m : Mode) (u : Unknown) : Enc :=
  encName (m.fmt o) u.name +> encode o env m u.ty u.val

/-- The bytes of an entry before the content. -/
def encHeading [Host] (o : Options) (env : Env) (m : Mode) (tag : Name) : Heading Unknown → Enc
  | .inl n => encName (m.fmt o) tag +> encName (m.fmt o) n
  | .inr u => encUnknown o env m u

/-- A document: entries, the content, and more entries. -/
def encAdjDoc [Host] (o : Options) (env : Env) (m : Mode) (tag content : Name)
    (es : List (Heading Unknown)) (t : Ty) (x : t.Val) (post : List Unknown) : Enc :=
  (m.fmt o).encMap (es.length + 1 + post.length) +> Enc.all (encHeading o env m tag) es +>
    encUnknown o env m ⟨content, t, x⟩ +> Enc.all (encUnknown o env m) post

/-- The format can skip a `usize`, or there is none in the entry; and the numbers of entries in it are right. -/
def Unknown.Skippable (o : Options) (m : Mode) (u : Unknown) : Prop :=
  u.ty.counted = true ∧ (m = .descriptive ∨ Opt.length o = .variable ∨ (u.name.ty = .str ∧ u.ty.noUsize = true))

/-- `usize` names are written by `encoder.encode(..)`, which copies the bytes in memory if the format does that:
the configured byte order must be that of the machine. -/
def TagOrder [Host] (o : Options) (m : Mode) (tag : Name) (nt : NameTy) : Prop :=
  m.fast (Opt.isNativeFixed o) = true → hostOrder o = true ∨ (tag.ty = .str ∧ nt = .str)

/-- The types of the bodies of the variants before that of a value. -/
def Variants.earlier : (vs : Variants) → vs.Val → List Ty
  | .nil, v => nomatch v
  | .cons _ t vs, v =>
    match v with
    | .inl _ => []
    | .inr x => t :: vs.earlier x

/-- Is it the last variant? -/
def Variants.isLast : (vs : Variants) → vs.Val → Bool
  | .nil, v => nomatch v
  | .cons _ _ vs, v =>
    match v with
    | .inl _ => vs.isNil
    | .inr x => vs.isLast x

/-- A variant with any name and any body. -/
def encAnyVariant [Host] (o : Options) (env : Env) (m : Mode) (n : Name) (t : Ty) (x : t.Val) : Enc :=
  (m.fmt o).encVariant +> encName (m.fmt o) n +> encode o env m t x

namespace Json.Spec

/-- A member before the content. -/
def headText (tag : Name) : Heading Name → Bytes → Prop
  | .inl n => Member (NameKey tag) (NameText n)
  | .inr n => Member (NameKey n) IsValue

/-- A member of which only the shape is known. -/
def anyMember : Bytes → Prop := Member (fun k => ∃ cs, StrText cs k) IsValue

/-- A document: members, the content, and more members. -/
def AdjText (env : Env) (tag content : Name) (es : List (Heading Name)) (t : Ty) (x : t.Val)
    (n : Nat) : Bytes → Prop :=
  Obj (es.map (headText tag) ++ MemberL (NameKey content) (Lead t) (Denotes env t x) :: List.replicate n anyMember)

end Json.Spec
end Musli

namespace Musli

/-! ## Internally tagged -/

/-- The tag that arrived first. -/
def firstTag {β : Type _} (es : List (Heading β)) : Option Name := (es.filterMap Sum.getLeft?).head?

/-- An entry of a document for an internally tagged enum: the tag, or an entry of the struct which is the body of
the variant. -/
def encInternalEntry [Host] (o : Options) (env : Env) (m : Mode) (tag : Name) (fs : Fields) :
    Heading fs.Entry → Enc
  | .inl n => encName (m.fmt o) tag +> encName (m.fmt o) n
  | .inr e => fs.encAny o env m e

/-- A document for an internally tagged enum: any entries in any order. -/
def encInternalDoc [Host] (o : Options) (env : Env) (m : Mode) (tag : Name) (fs : Fields)
    (es : List (Heading fs.Entry)) : Enc :=
  (m.fmt o).encMap es.length +> Enc.all (encInternalEntry o env m tag fs) es

/-- The body of a variant is a struct, with fields that are named like the tag but not the same: the
names are both numbers or both strings. -/
def Ty.record (tag : Name) : Ty → Bool
  | .strct nt fs => decide (nt = tag.ty) && decide (tag ∉ fs.names)
  | .unitStruct => true
  | .transparent t => t.record tag
  | .boxed t => t.record tag
  | .wrapping t => t.record tag
  | _ => false

/-- All bodies are structs. -/
def Variants.records (tag : Name) : Variants → Bool
  | .nil => true
  | .cons _ t vs => t.record tag && vs.records tag

end Musli

namespace Musli.Json.Spec

/-- The key of a member is a name like the tag, but another one. -/
def OtherKey (tag : Name) (k : Str) : Prop := ∃ n, NameKeyDoc n k ∧ n.ty = tag.ty ∧ n ≠ tag

/-- The bodies can be decoded through a buffer. -/
def _root_.Musli.Variants.bodiesBufferable : Variants → Bool
  | .nil => true
  | .cons _ t vs => t.bufferable && vs.bodiesBufferable

end Musli.Json.Spec
