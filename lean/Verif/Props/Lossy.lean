import Verif.Proofs.Zero.Lossy
import Verif.Props.Samples
/-!
# C132
-/
namespace Musli.Props
open Musli Musli.Zero.Lossy

/-- Bytes are in exactly one way a text with bytes in between which are not part of it. -/
theorem C132_parts (s : Bytes) : ∃ l, Spec.Parts s l ∧ ∀ l', Spec.Parts s l' → l' = l := by
  obtain ⟨l, h⟩ := parts_total s
  exact ⟨l, h, fun l' h' => parts_unique h' h⟩

/-- A key is shown as a literal of Rust for the key, with U+FFFD for every byte which is not part of a text. -/
theorem C132_literal (shown : Char → Bool) (s : Bytes) (l : List (Char ⊕ Byte)) (h : Spec.Parts s l) :
    ∃ t, debug shown s = '"' :: (t ++ ['"']) ∧ Spec.Literal t (l.map Spec.replaced) :=
  ⟨body shown s, rfl, literal_body shown h⟩

/-- A key which is a text is shown as a literal for it. -/
theorem C132_text (shown : Char → Bool) (cs : List Char) :
    ∃ t, debug shown (Utf8.encode cs) = '"' :: (t ++ ['"']) ∧ Spec.Literal t cs := by
  obtain ⟨t, h1, h2⟩ := C132_literal shown _ _ (parts_encode cs)
  rw [List.map_map] at h2
  exact ⟨t, h1, by simpa [Function.comp_def, Spec.replaced] using h2⟩

/-- A literal stands for one text. -/
theorem C132_denotes (t cs cs' : List Char) (h : Spec.Literal t cs) (h' : Spec.Literal t cs') : cs = cs' :=
  (literal_cut (x := []) (y := []) h h' rfl).2.1

/-- Keys which are texts and look the same are the same. -/
theorem C132_keys_partial (shown : Char → Bool) (s s' : Bytes) (h : Utf8.valid s = true) (h' : Utf8.valid s' = true)
    (e : debug shown s = debug shown s') : s = s' :=
  (debug_cut shown (x := []) (y := []) h h' (by rw [e])).1

/-- Tries which look the same have the same entries, if their keys are texts, and the values are shown without commas and braces (numbers,
for example). -/
theorem C132_map_partial (shown : Char → Bool) (l l' : List (Bytes × List Char))
    (h : ∀ e ∈ l, Utf8.valid e.1 = true ∧ ',' ∉ e.2 ∧ '}' ∉ e.2) (h' : ∀ e ∈ l', Utf8.valid e.1 = true ∧ ',' ∉ e.2 ∧ '}' ∉ e.2)
    (e : debugMap shown l = debugMap shown l') : l = l' := by
  have conv : ∀ {l : List (Bytes × List Char)}, (∀ e ∈ l, Utf8.valid e.1 = true ∧ ',' ∉ e.2 ∧ '}' ∉ e.2) →
      ∀ e ∈ l, Utf8.valid e.1 = true ∧ ∀ c ∈ e.2, plain c = true := by
    intro l h e he
    obtain ⟨h1, h2, h3⟩ := h e he
    refine ⟨h1, fun c hc => ?_⟩
    simp only [plain, Bool.and_eq_true, bne_iff_ne, ne_eq]
    exact ⟨fun e => h2 (e ▸ hc), fun e => h3 (e ▸ hc)⟩
  unfold debugMap at e
  exact joined_cut shown (x := []) (y := []) (conv h) (conv h') (by simpa [joined] using e)

/-- Other keys cannot be told apart. -/
theorem C132_violated_bytes : ∀ shown : Char → Bool, debug shown [0x80] = debug shown [0x81] := by
  intro shown
  simp only [debug]
  rw [body_none shown (by decide +kernel), body_none shown (by decide +kernel)]

/-- Nor from a text with the character in it. -/
theorem C132_violated_replacement : ∀ shown : Char → Bool, shown '\uFFFD' = true →
    debug shown [0xFF] = debug shown (Utf8.encode ['\uFFFD']) := by
  intro shown h
  simp only [debug]
  have e : Utf8.encode ['\uFFFD'] = Utf8.encodeChar '\uFFFD' ++ [] := by simp [Utf8.encode]
  rw [body_none shown (by decide +kernel), e, body_some shown (next_encode '\uFFFD' []), body_nil]
  simp [showChar, escapeDebug, h]

/-! ### Cases -/

private abbrev ascii (c : Char) : Bool := 0x20 ≤ c.toNat && c.toNat < 0x7f

-- `wörk\x01\x1a"`, a cut off character, a tab
example : debug ascii (utf8% "wörk\x01\x1a\"" ++ [0xE2, 0x82] ++ utf8% "\t") =
    "\"w\\u{f6}rk\\x01\\u{1a}\\\"\uFFFD\uFFFD\\t\"".toList := by decide +kernel

example : debugMap ascii [(utf8% "work", ['1']), (utf8% "workin", ['2', '2'])] = "{\"work\": 1, \"workin\": 22}".toList := by
  decide +kernel

example : Spec.Parts [0x61, 0xFF, 0xC3, 0xB6] [.inl 'a', .inr 0xFF, .inl 'ö'] :=
  .char 'a' _ _ (.byte _ _ _ (next_none (by decide +kernel)) (.char 'ö' [] _ .nil))

end Musli.Props
