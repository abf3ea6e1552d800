import Verif.Model.Rename
/-!
# Specification: words and cases
-/
namespace Musli.Rename.Spec

/-- Cut a list before every element that satisfies `p`. -/
def cutBefore {α : Type} (p : α → Bool) : List α → List (List α)
  | [] => []
  | [a] => [[a]]
  | a :: b :: l =>
    if p b then [a] :: cutBefore p (b :: l)
    else match cutBefore p (b :: l) with
      | w :: ws => (a :: w) :: ws
      | [] => [[a]]

/-- The parts of a list between the elements `sep`. -/
def parts {α : Type} [DecidableEq α] (sep : α) : List α → List (List α)
  | [] => [[]]
  | a :: l =>
    if a = sep then [] :: parts sep l
    else match parts sep l with
      | w :: ws => (a :: w) :: ws
      | [] => [[a]]

/-- The words of an identifier: the parts between underscores, each cut before
every upper case letter. Empty parts have no words. -/
def words (cc : CharCase) (ident : List Char) : List (List Char) :=
  (parts '_' ident).flatMap (cutBefore cc.isUpper)

/-- A word in lower case. -/
def lowerWord (cc : CharCase) (w : List Char) : List Char := w.flatMap cc.lower

/-- A word in upper case. -/
def upperWord (cc : CharCase) (w : List Char) : List Char := w.flatMap cc.upper

/-- A capitalised word. -/
def capWord (cc : CharCase) : List Char → List Char
  | [] => []
  | c :: w => cc.upper c ++ lowerWord cc w

/-- The words of a name in the case that a rule stands for. -/
def inCase (cc : CharCase) (r : NameAll) (ws : List (List Char)) : List Char :=
  match r with
  | .index => []
  | .name => []
  | .pascal => (ws.map (capWord cc)).flatten
  | .camel =>
    match ws with
    | [] => []
    | w :: ws => lowerWord cc w ++ (ws.map (capWord cc)).flatten
  | .snake => ['_'].intercalate (ws.map (lowerWord cc))
  | .screamingSnake => ['_'].intercalate (ws.map (upperWord cc))
  | .kebab => ['-'].intercalate (ws.map (lowerWord cc))
  | .screamingKebab => ['-'].intercalate (ws.map (upperWord cc))

/-- The upper case letters of ASCII. -/
def AsciiUpper (c : Char) : Prop := 'A' ≤ c ∧ c ≤ 'Z'

/-- The lower case letters of ASCII. -/
def AsciiLower (c : Char) : Prop := 'a' ≤ c ∧ c ≤ 'z'

/-- The digits of ASCII. -/
def AsciiDigit (c : Char) : Prop := '0' ≤ c ∧ c ≤ '9'

/-- The tables are those of ASCII on ASCII letters, digits and the underscore
(what they say about other characters does not matter). -/
structure Ascii (cc : CharCase) : Prop where
  isUpper_upper : ∀ c, AsciiUpper c → cc.isUpper c = true
  isUpper_lower : ∀ c, AsciiLower c → cc.isUpper c = false
  isUpper_digit : ∀ c, AsciiDigit c → cc.isUpper c = false
  lower_upper : ∀ c, AsciiUpper c → cc.lower c = [Char.ofNat (c.toNat + 32)]
  lower_lower : ∀ c, AsciiLower c → cc.lower c = [c]
  lower_digit : ∀ c, AsciiDigit c → cc.lower c = [c]
  upper_upper : ∀ c, AsciiUpper c → cc.upper c = [c]
  upper_lower : ∀ c, AsciiLower c → cc.upper c = [Char.ofNat (c.toNat - 32)]
  upper_digit : ∀ c, AsciiDigit c → cc.upper c = [c]

/-- An identifier of ASCII letters, digits and underscores. -/
def AsciiIdent (s : List Char) : Prop :=
  ∀ c ∈ s, AsciiUpper c ∨ AsciiLower c ∨ AsciiDigit c ∨ c = '_'

/-- A word as conventions have it: a letter followed by lower case letters and
digits. -/
def ConvWord (w : List Char) : Prop :=
  ∃ c l, w = c :: l ∧ (AsciiUpper c ∨ AsciiLower c) ∧ ∀ d ∈ l, AsciiLower d ∨ AsciiDigit d

/-- Two words are equal but for the case of the letters. -/
def SameWord (cc : CharCase) (v w : List Char) : Prop := lowerWord cc v = lowerWord cc w

/-- A conventional name of a field: words in lower case, each beginning with a
letter, with one underscore between them. -/
def SnakeIdent (s : List Char) : Prop :=
  ∃ ws : List (List Char), ws ≠ [] ∧ s = ['_'].intercalate ws ∧
    ∀ w ∈ ws, ∃ c l, w = c :: l ∧ AsciiLower c ∧ ∀ d ∈ l, AsciiLower d ∨ AsciiDigit d

/-- A conventional name of a variant: capitalised words, each beginning with a
letter. -/
def PascalIdent (s : List Char) : Prop :=
  ∃ ws : List (List Char), ws ≠ [] ∧ s = ws.flatten ∧
    ∀ w ∈ ws, ∃ c l, w = c :: l ∧ AsciiUpper c ∧ ∀ d ∈ l, AsciiLower d ∨ AsciiDigit d

end Musli.Rename.Spec
