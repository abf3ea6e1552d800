import Verif.Model.Zero.SwapAttr
/-!
# How variants are paired
-/
namespace Musli.Zero.Spec
open Musli

/-- The name in the attribute, or else the name of the variant without the underscores around it, if it has any. -/
def Named (v : VarDecl) : Option Bytes → Prop
  | some n => v.attrs = [n] ∨
      (v.attrs = [] ∧ n ≠ v.ident ∧ ∃ k l, v.ident = List.replicate k 0x5F#8 ++ n ++ List.replicate l 0x5F#8 ∧
        n.head? ≠ some 0x5F#8 ∧ n.getLast? ≠ some 0x5F#8)
  | none => v.attrs = [] ∧ v.ident.head? ≠ some 0x5F#8 ∧ v.ident.getLast? ≠ some 0x5F#8

/-- What is accepted: with the number of variants even, every variant has a name and no two the same; a variant is paired to the
one which it names, or else to the one which names it. `syn` has to take the names without underscores for names. -/
structure Accepted (legal : Bytes → Bool) (vs : List VarDecl) (names : List (Option Bytes)) (ps : List Nat) : Prop where
  even : 2 ∣ vs.length
  length : ps.length = vs.length
  names_length : names.length = vs.length
  named : ∀ (i : Nat) (v : VarDecl) (n : Option Bytes), vs[i]? = some v → names[i]? = some n →
    Named v n ∧ (v.attrs = [] → ∀ m, n = some m → legal m = true)
  once : ∀ (i j : Nat) (m : Bytes), names[i]? = some (some m) → names[j]? = some (some m) → i = j
  names_it : ∀ (i p : Nat) (m : Bytes), names[i]? = some (some m) → ps[i]? = some p → ∃ w, vs[p]? = some w ∧ w.ident = m
  is_named : ∀ (i p : Nat) (v : VarDecl), vs[i]? = some v → names[i]? = some none → ps[i]? = some p →
    names[p]? = some (some v.ident)

end Musli.Zero.Spec
