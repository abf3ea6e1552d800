import Verif.Spec.ZeroHistory
import Verif.Spec.ZeroLayoutOk
/-!
# Values in a buffer as variables

References to values which do not overlap are names of variables: assigning to one of them changes it and no
other one.
-/
namespace Musli.Zero
open Musli

/-- Memory is overwritten at an offset, and nothing else changes. -/
def Overwritten (data : Memory) (off : Nat) (new data' : Memory) : Prop :=
  off + new.length ≤ data.length ∧ data'.length = data.length ∧
    ∀ i, data'[i]? = if off ≤ i ∧ i < off + new.length then new[i - off]? else data[i]?

/-- A variable: a type and where its value is. -/
structure Place where
  t : ZTy
  off : Nat

/-- What is done with variables, which are numbered. -/
inductive Act where
  /-- `*buf.load_mut(r)? = value` -/
  | assign (k : Nat) (value : Memory)
  /-- `buf.load_uninit_mut(r).write(&value)` -/
  | write (k : Nat) (value : Memory)
  /-- `buf.swap(r, s)?` -/
  | exchange (j k : Nat)

/-- The values of the variables after something has been done. -/
def Act.effect (values : List Memory) : Act → List Memory
  | .assign k value => values.set k value
  | .write k value => values.set k value
  | .exchange j k =>
    match values[j]?, values[k]? with
    | some x, some y => (values.set j y).set k x
    | _, _ => values

/-- The values of the variables in the end. -/
def outcome (values : List Memory) (acts : List Act) : List Memory := acts.foldl Act.effect values

/-- What is assigned or written is of the type of the variable, and only variables of the same type are exchanged. The
padding of what is assigned, if there is any, is initialised; what is written may have padding which is not. -/
def Act.Typed [Host] (places : List Place) : Act → Prop
  | .assign k value => ∃ p, places[k]? = some p ∧ Mem p.t value ∧ none ∉ value
  | .write k value => ∃ p, places[k]? = some p ∧ Mem p.t value
  | .exchange j k => ∃ p q, places[j]? = some p ∧ places[k]? = some q ∧ p.t = q.t

/-- The variables are in the buffer, aligned, do not overlap, and are of types of which the fields and the padding are
found (C51, C52). -/
def Layable (base len : Nat) (places : List Place) : Prop :=
  len < 2 ^ 63 ∧
  (∀ p ∈ places, p.t.WF ∧ p.t.LoadOk ∧ p.t.StoreOk ∧ p.off + p.t.size ≤ len ∧ (base + p.off) % 2 ^ p.t.lg = 0) ∧
  ∀ (j k : Nat) (p q : Place), j ≠ k → places[j]? = some p → places[k]? = some q →
    p.off + p.t.size ≤ q.off ∨ q.off + q.t.size ≤ p.off

/-- A position which belongs to no variable. -/
def Elsewhere (places : List Place) (i : Nat) : Prop := ∀ p ∈ places, ¬ (p.off ≤ i ∧ i < p.off + p.t.size)

end Musli.Zero
