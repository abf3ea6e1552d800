import Verif.Model.Utf8
/-!
# How tries show their keys, `crates/musli-zerocopy/src/lossy_str.rs`

Texts are lists of characters. Which characters `core` shows as they are is the function `shown`, which is not
`is_grapheme_extended` and `is_printable`.
-/
namespace Musli.Zero.Lossy
open Musli Musli.Utf8

/-- The next character, if the bytes begin with one: `core::str::validations`, as documented, and `next_code_point`. -/
def next : Bytes → Option (Char × Bytes)
  | [] => none
  | a :: s =>
    if a < 0x80#8 then some (Char.ofNat a.toNat, s)
    else match s with
      | [] => none
      | b :: s =>
        if ok2 a b then some (Char.ofNat (a.toNat % 32 * 64 + b.toNat % 64), s)
        else match s with
          | [] => none
          | c :: s =>
            if ok3 a b c then some (Char.ofNat (a.toNat % 16 * 4096 + b.toNat % 64 * 64 + c.toNat % 64), s)
            else match s with
              | [] => none
              | d :: s =>
                if ok4 a b c d then
                  some (Char.ofNat (a.toNat % 8 * 262144 + b.toNat % 64 * 4096 + c.toNat % 64 * 64 + d.toNat % 64), s)
                else none

theorem next_length : ∀ (s : Bytes) (c : Char) (r : Bytes), next s = some (c, r) → r.length < s.length := by
  intro s c r h
  unfold next at h
  split at h
  · cases h
  · split at h
    · cases h; simp
    · split at h
      · cases h
      · split at h
        · cases h; simp; omega
        · split at h
          · cases h
          · split at h
            · cases h; simp; omega
            · split at h
              · cases h
              · split at h
                · cases h; simp; omega
                · cases h

/-- `str::from_utf8`, `Utf8Error::valid_up_to` and `chars`: the characters before the first byte which is not UTF-8, and the bytes from it
on. -/
def validPrefix (s : Bytes) : List Char × Bytes :=
  match h : next s with
  | none => ([], s)
  | some (c, r) =>
    have := next_length s c r h
    ((c :: (validPrefix r).1), (validPrefix r).2)
termination_by s.length

theorem validPrefix_length (s : Bytes) : (validPrefix s).2.length ≤ s.length := by
  induction hn : s.length using Nat.strongRecOn generalizing s with
  | ind n ih =>
    unfold validPrefix
    split
    · simp [hn]
    · next c r h =>
      have := next_length s c r h
      have := ih r.length (by omega) r rfl
      simp only; omega

/-- A digit of `{:x}`. -/
def hexDigit (n : Nat) : Char := if n < 10 then Char.ofNat (0x30 + n) else Char.ofNat (0x61 + (n - 10))

/-- `{:x}`, and the digits of `char::escape_unicode`. -/
def hex (n : Nat) : List Char := if n < 16 then [hexDigit n] else hex (n / 16) ++ [hexDigit (n % 16)]
termination_by n

/-- `char::escape_debug` of `core`. -/
def escapeDebug (shown : Char → Bool) (c : Char) : List Char :=
  if c = '\x00' then ['\\', '0']
  else if c = '\t' then ['\\', 't']
  else if c = '\r' then ['\\', 'r']
  else if c = '\n' then ['\\', 'n']
  else if c = '"' then ['\\', '"']
  else if c = '\'' then ['\\', '\'']
  else if c = '\\' then ['\\', '\\']
  else if shown c then [c]
  else '\\' :: 'u' :: '{' :: (hex c.toNat ++ ['}'])

/-- One character, `lossy_str.rs:37-45`. -/
def showChar (shown : Char → Bool) (c : Char) : List Char :=
  if c = '\x00' then ['\\', '0']
  else if (0x01 ≤ c.toNat ∧ c.toNat ≤ 0x08) ∨ c.toNat = 0x0b ∨ c.toNat = 0x0c ∨ (0x0e ≤ c.toNat ∧ c.toNat ≤ 0x19) ∨ c.toNat = 0x7f then
    -- `{:02x}`
    '\\' :: 'x' :: (if (hex c.toNat).length < 2 then '0' :: hex c.toNat else hex c.toNat)
  else escapeDebug shown c

/-- The loop, `lossy_str.rs:25-53`. -/
def body (shown : Char → Bool) (s : Bytes) : List Char :=
  (validPrefix s).1.flatMap (showChar shown) ++
    match h : (validPrefix s).2 with
    | [] => []
    | _ :: rest =>
      have : rest.length < s.length := by
        have := validPrefix_length s
        rw [h] at this
        simpa [Nat.lt_iff_add_one_le] using this
      '\uFFFD' :: body shown rest
termination_by s.length

/-- `<LossyStr as Debug>::fmt`, `lossy_str.rs:18-58`. -/
def debug (shown : Char → Bool) (s : Bytes) : List Char := '"' :: (body shown s ++ ['"'])

/-- `Debug` of `trie::Debug`, `trie/mod.rs:1014-1031`, with `DebugMap` of `core` (without `#`): entries with the texts of their values. -/
def debugMap (shown : Char → Bool) (entries : List (Bytes × List Char)) : List Char :=
  '{' :: ((List.intersperse [',', ' '] (entries.map fun e => debug shown e.1 ++ [':', ' '] ++ e.2)).flatten ++ ['}'])

end Musli.Zero.Lossy
