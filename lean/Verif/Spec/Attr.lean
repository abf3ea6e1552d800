import Verif.Model.Attr
/-!
# What attributes mean

The attributes of an item are a list, each of which is a list of elements. An attribute applies to a
mode or to all of them, and to a direction or to both, wherever in the list this is said.
-/
namespace Musli.Attr

/-- Modes as a user knows them. -/
inductive Mode where
  | binary | text | custom (p : Path)
deriving DecidableEq, Repr

/-- The mode with a name. -/
def Mode.named : Path → Mode
  | ["Binary"] => .binary
  | ["Text"] => .text
  | p => .custom p

/-- The mode an implementation is for, `internals/expansion.rs:27-32`. -/
def ModeIdent.mode (m : ModeIdent) : Mode :=
  match m.kind with
  | .binary => .binary
  | .text => .text
  | .custom => .custom m.path

/-- Of which kind a mode is. -/
def Mode.kind : Mode → Kind
  | .binary => .binary
  | .text => .text
  | .custom _ => .custom

namespace Meta
variable {K M V : Type}

/-- The mode an element names. -/
def mode? : Meta K M V → Option Mode
  | .mode p => some (.named p)
  | .word s => some (.named [s])
  | _ => none

/-- The direction an element names. -/
def only? : Meta K M V → Option Only
  | .encodeOnly => some .encode
  | .decodeOnly => some .decode
  | _ => none

/-- Elements which are not attributes. -/
def wrong : Meta K M V → Prop
  | .bad => True
  | .word s => s ≠ "Binary" ∧ s ≠ "Text"
  | _ => False

/-- The value an element gives to `k`. -/
def one? [DecidableEq K] (k : K) : Meta K M V → Option V
  | .set k' v => if k' = k then some v else none
  | _ => none

/-- The value an element adds to `k`. -/
def many? [DecidableEq M] (k : M) : Meta K M V → Option V
  | .add k' v => if k' = k then some v else none
  | _ => none

end Meta

section
variable {K M V : Type} [DecidableEq K] [DecidableEq M]

/-- The mode an attribute is for, if it is for one. -/
def modeOf (a : List (Meta K M V)) : Option Mode := (a.filterMap Meta.mode?).getLast?

/-- The direction an attribute is for, if it is for one. -/
def onlyOf (a : List (Meta K M V)) : Option Only := (a.filterMap Meta.only?).getLast?

/-- The values of `k` given for exactly this mode and direction. -/
def given (as : List (List (Meta K M V))) (mode : Option Mode) (only : Option Only) (k : K) : List V :=
  as.flatMap fun a =>
    if modeOf a = mode ∧ onlyOf a = only then a.filterMap (Meta.one? k) else []

/-- The values added to `k` for exactly this mode and direction. -/
def added (as : List (List (Meta K M V))) (mode : Option Mode) (only : Option Only) (k : M) : List V :=
  as.flatMap fun a =>
    if modeOf a = mode ∧ onlyOf a = only then a.filterMap (Meta.many? k) else []

/-- The first list which is not empty. -/
def firstOf {α : Type} : List (List α) → List α
  | [] => []
  | l :: ls => if l.isEmpty then firstOf ls else l

/-- From the most to the least specific: for the mode and direction, for the mode, for the direction,
for everything. -/
def effective {α : Type} (f : Option Mode → Option Only → List α) (mode : Mode) (only : Only) : List α :=
  firstOf [f (some mode) (some only), f (some mode) none, f none (some only), f none none]

/-- All custom modes named are the same one. -/
def OneCustom (as : List (List (Meta K M V))) : Prop :=
  ∀ a ∈ as, ∀ b ∈ as, ∀ p q, modeOf a = some (.custom p) → modeOf b = some (.custom q) → p = q

/-- The mode is named in one of the attributes. -/
def Named (as : List (List (Meta K M V))) (mode : Mode) : Prop := ∃ a ∈ as, modeOf a = some mode

/-- The attributes are valid: no element is wrong, no value is given twice for the same. -/
def Valid (as : List (List (Meta K M V))) : Prop :=
  (∀ a ∈ as, ∀ m ∈ a, ¬ m.wrong) ∧ ∀ mode only k, (given as mode only k).length ≤ 1

end
end Musli.Attr
