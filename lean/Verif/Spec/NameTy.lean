import Verif.Model.NameTy
/-!
# How fields and variants are named, from `help/derives.md`
-/
namespace Musli.Rename.Spec
open Musli.Rename

/-- `derives.md:156-172, 379-388`: a rule that is given; otherwise the name for `str` and `[u8]` and the
index for other types; otherwise the index for tuples, the name in the text mode and the index in
the others. -/
def ruleOf {T : Type} (text tuple : Bool) (ty : Option (NTy T)) (all : Option NameAll) : NameAll :=
  match all, ty with
  | some r, _ => r
  | none, some .str => .name
  | none, some .bytes => .name
  | none, some _ => .index
  | none, none => if tuple then .index else if text then .name else .index

/-- The literal is of the type. -/
inductive HasTy {E T : Type} (exprTy : E → NTy T) : NameExpr E → NTy T → Prop where
  | lit (s : List Char) : HasTy exprTy (.lit s) .str
  | idx (n : Nat) : HasTy exprTy (.idx n) .usize
  | expr (e : E) : HasTy exprTy (.expr e) (exprTy e)

/-- How values of a type are decoded: sized types by value, others through a visitor. -/
def methodOf {T : Type} : NTy T → NameMethod
  | .usize => .sized
  | .str => .unsizedDefault
  | .bytes => .unsizedBytes
  | .other _ => .sized

end Musli.Rename.Spec
