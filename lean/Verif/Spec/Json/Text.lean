import Verif.Spec.Json.Strings
import Verif.Spec.Json.Numbers
/-!
# JSON texts, after RFC 8259 sections 2 to 7

The grammar of JSON, independent of the parser.
-/
namespace Musli.Json.Spec
open Musli

/-- A number: `[ minus ] int [ frac ] [ exp ]`. -/
inductive Number : Bytes → Prop
  | mk (neg : Bool) {int frac exp : Bytes} : Numeral int →
      (frac = [] ∨ ∃ ds, Digits ds ∧ ds ≠ [] ∧ frac = 0x2E#8 :: ds) →
      (exp = [] ∨ ∃ e sg ds, (e = 0x65#8 ∨ e = 0x45#8) ∧
        (sg = [] ∨ sg = [0x2B#8] ∨ sg = [0x2D#8]) ∧ Digits ds ∧ ds ≠ [] ∧ exp = e :: (sg ++ ds)) →
      Number (sign neg ++ (int ++ (frac ++ exp)))

/-- The parts of the grammar: a value, the values between brackets, the members
between braces. -/
inductive Part where | value | elements | members

/-- Texts. Whitespace is allowed around every value and every key. -/
inductive Text : Part → Bytes → Prop
  | null : Text .value [0x6E#8, 0x75#8, 0x6C#8, 0x6C#8]
  | tru : Text .value [0x74#8, 0x72#8, 0x75#8, 0x65#8]
  | fals : Text .value [0x66#8, 0x61#8, 0x6C#8, 0x73#8, 0x65#8]
  | number {l : Bytes} : Number l → Text .value l
  | string {l : Bytes} {cs : List Char} : Lit l cs → Text .value (0x22#8 :: l ++ [0x22#8])
  | emptyArray {ws : Bytes} : Ws ws → Text .value (0x5B#8 :: ws ++ [0x5D#8])
  | array {e : Bytes} : Text .elements e → Text .value (0x5B#8 :: e ++ [0x5D#8])
  | emptyObject {ws : Bytes} : Ws ws → Text .value (0x7B#8 :: ws ++ [0x7D#8])
  | object {e : Bytes} : Text .members e → Text .value (0x7B#8 :: e ++ [0x7D#8])
  | element {a v b : Bytes} : Ws a → Text .value v → Ws b → Text .elements (a ++ (v ++ b))
  | elements {a v b e : Bytes} : Ws a → Text .value v → Ws b → Text .elements e →
      Text .elements (a ++ (v ++ (b ++ 0x2C#8 :: e)))
  | member {a b c v d l : Bytes} {cs : List Char} : Ws a → Lit l cs → Ws b → Ws c →
      Text .value v → Ws d →
      Text .members (a ++ (0x22#8 :: l ++ [0x22#8]) ++ (b ++ 0x3A#8 :: (c ++ (v ++ d))))
  | members {a b c v d l e : Bytes} {cs : List Char} : Ws a → Lit l cs → Ws b → Ws c →
      Text .value v → Ws d → Text .members e →
      Text .members (a ++ (0x22#8 :: l ++ [0x22#8]) ++
        (b ++ 0x3A#8 :: (c ++ (v ++ (d ++ 0x2C#8 :: e)))))

/-- A JSON value. -/
def IsValue (s : Bytes) : Prop := Text .value s

end Musli.Json.Spec
