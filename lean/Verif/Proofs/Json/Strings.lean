import Verif.Spec.Json.Strings
import Verif.Proofs.Utf8
import Verif.Model.Json.Parser
/-!
# JSON strings: the parser accepts exactly the literals of the specification
-/
namespace Musli.Json
open Musli Spec

/-! ## Whitespace and tokens -/

theorem dropWs_ws {ws : Bytes} (h : Ws ws) (s : Bytes) : dropWs (ws ++ s) = dropWs s := by
  induction ws with
  | nil => rfl
  | cons b ws ih =>
    have hb : isWs b = true := by
      rcases h b (by simp) with h | h | h | h <;> subst h <;> decide
    simp only [List.cons_append, dropWs, hb, if_true]
    exact ih (fun x hx => h x (by simp [hx]))

theorem dropWs_of_not {b : Byte} (h : isWs b = false) (s : Bytes) : dropWs (b :: s) = b :: s := by
  simp [dropWs, h]

theorem isWs_cases {b : Byte} (h : isWs b = true) :
    b = 0x20#8 ∨ b = 0x09#8 ∨ b = 0x0A#8 ∨ b = 0x0D#8 := by
  revert h; revert b; decide

theorem dropWs_spec (s : Bytes) : ∃ ws, Ws ws ∧ s = ws ++ dropWs s := by
  induction s with
  | nil => exact ⟨[], by simp [Ws], rfl⟩
  | cons b s ih =>
    by_cases h : isWs b = true
    · obtain ⟨ws, hw, hs⟩ := ih
      refine ⟨b :: ws, ?_, ?_⟩
      · intro x hx
        simp only [List.mem_cons] at hx
        rcases hx with rfl | hx
        · exact isWs_cases h
        · exact hw x hx
      · simp only [dropWs, h, if_true, List.cons_append, ← hs]
    · refine ⟨[], by simp [Ws], ?_⟩
      simp only [dropWs, h, if_false, List.nil_append]
      rfl

theorem dropWs_length (s : Bytes) : (dropWs s).length ≤ s.length := by
  obtain ⟨ws, _, h⟩ := dropWs_spec s
  have := congrArg List.length h
  simp at this
  omega

theorem ofByte_string {b : Byte} : Token.ofByte b = .string ↔ b = 0x22#8 := by
  revert b; decide +revert

/-- The byte of a token with one byte. -/
def Token.byte : Token → Option Byte
  | .openBrace => some 0x7B#8
  | .closeBrace => some 0x7D#8
  | .openBracket => some 0x5B#8
  | .closeBracket => some 0x5D#8
  | .comma => some 0x2C#8
  | .colon => some 0x3A#8
  | .string => some 0x22#8
  | _ => none

theorem ofByte_eq {t : Token} {b : Byte} (h : t.byte = some b) (x : Byte) :
    Token.ofByte x = t ↔ x = b := by
  cases t <;> simp only [Token.byte, Option.some.injEq, reduceCtorEq] at h <;> subst h <;>
    (revert x; decide)

theorem byte_not_ws {t : Token} {b : Byte} (h : t.byte = some b) : isWs b = false := by
  cases t <;> simp only [Token.byte, Option.some.injEq, reduceCtorEq] at h <;> subst h <;> decide

theorem expect_ok {t : Token} {b : Byte} (h : t.byte = some b) {ws : Bytes} (hw : Ws ws)
    (s : Bytes) : expect t (ws ++ b :: s) = .ok ((), s) := by
  have h1 : dropWs (ws ++ b :: s) = b :: s := by
    rw [dropWs_ws hw, dropWs_of_not (byte_not_ws h)]
  unfold expect
  rw [P.bind_ok (a := t) (s' := b :: s)]
  · rw [if_pos rfl]; simp [P.skip]
  · show Except.ok (tokenAt (dropWs (ws ++ b :: s)), dropWs (ws ++ b :: s)) = _
    rw [h1]
    simp only [tokenAt, (ofByte_eq h b).2 rfl]

theorem expect_ok' {t : Token} {b : Byte} (h : t.byte = some b) (s : Bytes) :
    expect t (b :: s) = .ok ((), s) := expect_ok h (ws := []) (by simp [Ws]) s

theorem expect_inv {t : Token} {b : Byte} (h : t.byte = some b) {s s' : Bytes}
    (hs : expect t s = .ok ((), s')) : ∃ ws, Ws ws ∧ s = ws ++ b :: s' := by
  unfold expect at hs
  obtain ⟨tok, r, h1, h2⟩ := P.bind_eq_ok.1 hs
  have h1' : Except.ok (tokenAt (dropWs s), dropWs s) = Except.ok (tok, r) := h1
  cases h1'
  by_cases ht : tokenAt (dropWs s) = t
  · simp only [ht, if_true] at h2
    obtain ⟨ws, hw, hd⟩ := dropWs_spec s
    refine ⟨ws, hw, ?_⟩
    cases hds : dropWs s with
    | nil =>
      rw [hds] at ht
      simp only [tokenAt] at ht
      subst ht; cases h
    | cons x r =>
      rw [hds] at ht h2 hd
      have hx := (ofByte_eq h x).1 ht
      subst hx
      simp [P.skip] at h2
      rw [hd, h2]
  · simp only [ht, if_false] at h2
    cases h2

/-! ## Hexadecimal escapes -/

theorem hexVal_iff (b : Byte) (n : Nat) : hexVal b = some n ↔ HexDigit b n := by
  unfold hexVal HexDigit
  have := b.isLt
  simp only [Bool.and_eq_true, decide_eq_true_eq, BitVec.le_def]
  simp only [BitVec.reduceToNat]
  generalize b.toNat = m at *
  constructor
  · intro h
    split at h
    · cases h; left; omega
    split at h
    · cases h; right; omega
    split at h
    · cases h; right; omega
    · cases h
  · rintro (⟨h1, h2⟩ | ⟨h1, h2, h3 | h3⟩)
    · rw [if_pos (by omega)]; congr 1; omega
    · rw [if_neg (by omega), if_pos (by omega)]; congr 1; omega
    · rw [if_neg (by omega), if_neg (by omega), if_pos (by omega)]; congr 1; omega

theorem hexEscape_ok {h : Bytes} {n : Nat} (hx : Hex4 h n) (s : Bytes) :
    hexEscape (h ++ s) = .ok (n, s) := by
  obtain ⟨a, b, c, d, i, j, k, m, rfl, ha, hb, hc, hd, rfl⟩ := hx
  rw [← hexVal_iff] at ha hb hc hd
  simp only [hexEscape, List.cons_append, List.nil_append, ha, hb, hc, hd]
  congr 2
  omega

theorem hexEscape_inv {s s' : Bytes} {n : Nat} (h : hexEscape s = .ok (n, s')) :
    ∃ x, Hex4 x n ∧ s = x ++ s' := by
  unfold hexEscape at h
  split at h
  · rename_i a b c d r
    split at h
    · rename_i i j k m ha hb hc hd
      rw [hexVal_iff] at ha hb hc hd
      cases h
      exact ⟨[a, b, c, d], ⟨a, b, c, d, i, j, k, m, rfl, ha, hb, hc, hd, by omega⟩, rfl⟩
    · cases h
  · cases h

theorem utf8Of_ok (c : Char) : utf8Of c.toNat = .ok (Utf8.encodeChar c) := by
  unfold utf8Of
  have hv : Nat.isValidChar c.toNat := c.valid
  rw [dif_pos hv]
  congr 2

theorem utf8Of_inv {n : Nat} {b : Bytes} (h : utf8Of n = .ok b) :
    ∃ c : Char, c.toNat = n ∧ b = Utf8.encodeChar c := by
  unfold utf8Of at h
  split at h
  · rename_i hv
    cases h
    exact ⟨_, by simp [Char.ofNatAux, Char.toNat], rfl⟩
  · cases h

theorem surrogatePair_eq {a b : Nat} (ha : 0xD800 ≤ a) (_ha' : a ≤ 0xDBFF) (hb : 0xDC00 ≤ b)
    (hb' : b ≤ 0xDFFF) :
    surrogatePair a b = 0x10000 + (a - 0xD800) * 0x400 + (b - 0xDC00) := by
  unfold surrogatePair
  rw [Nat.shiftLeft_eq, Nat.mul_comm, ← Nat.two_pow_add_eq_or_of_lt (i := 10) (by omega)]
  omega

/-- Shape of `parseEscape` on an escape without number. -/
theorem parseEscape_short {b : Byte} {x : Bytes}
    (h : (b, x) ∈ [((0x22#8 : Byte), [(0x22#8 : Byte)]), (0x5C#8, [0x5C#8]), (0x2F#8, [0x2F#8]),
      (0x62#8, [0x08#8]), (0x66#8, [0x0C#8]), (0x6E#8, [0x0A#8]), (0x72#8, [0x0D#8]),
      (0x74#8, [0x09#8])]) (s : Bytes) : parseEscape (b :: s) = .ok (x, s) := by
  simp only [List.mem_cons, Prod.mk.injEq, List.not_mem_nil, or_false] at h
  rcases h with ⟨rfl, rfl⟩ | ⟨rfl, rfl⟩ | ⟨rfl, rfl⟩ | ⟨rfl, rfl⟩ | ⟨rfl, rfl⟩ | ⟨rfl, rfl⟩ |
    ⟨rfl, rfl⟩ | ⟨rfl, rfl⟩ <;> rfl

/-- What `parseEscape` does after the letter `u`. -/
def parseU : P Bytes := do
  let n ← hexEscape
  if 0xDC00 ≤ n ∧ n ≤ 0xDFFF then P.fail .invalid
  else if 0xD800 ≤ n ∧ n ≤ 0xDBFF then do
    let x ← P.readByte
    if x != 0x5C#8 then P.fail .invalid
    else do
      let y ← P.readByte
      if y != 0x75#8 then P.fail .invalid
      else do
        let n2 ← hexEscape
        if 0xDC00 ≤ n2 ∧ n2 ≤ 0xDFFF then P.ofExcept (utf8Of (surrogatePair n n2))
        else P.fail .invalid
  else P.ofExcept (utf8Of n)

theorem parseEscape_u (s : Bytes) : parseEscape (0x75#8 :: s) = parseU s := rfl

theorem parseU_unicode {h : Bytes} {c : Char} (hx : Hex4 h c.toNat) (s : Bytes) :
    parseU (h ++ s) = .ok (Utf8.encodeChar c, s) := by
  have hr := Utf8.char_range c
  unfold parseU
  rw [P.bind_ok (hexEscape_ok hx s), if_neg (by omega), if_neg (by omega), utf8Of_ok]
  rfl

theorem parseU_pair {h h' : Bytes} {hi lo : Nat} {c : Char} (hx : Hex4 h hi) (hx' : Hex4 h' lo)
    (h1 : 0xD800 ≤ hi) (h2 : hi ≤ 0xDBFF) (h3 : 0xDC00 ≤ lo) (h4 : lo ≤ 0xDFFF)
    (hc : c.toNat = 0x10000 + (hi - 0xD800) * 0x400 + (lo - 0xDC00)) (s : Bytes) :
    parseU (h ++ 0x5C#8 :: 0x75#8 :: (h' ++ s)) = .ok (Utf8.encodeChar c, s) := by
  unfold parseU
  rw [P.bind_ok (hexEscape_ok hx _), if_neg (by omega), if_pos ⟨h1, h2⟩]
  rw [P.bind_ok (a := 0x5C#8) (s' := 0x75#8 :: (h' ++ s)) rfl, if_neg (by decide)]
  rw [P.bind_ok (a := 0x75#8) (s' := h' ++ s) rfl, if_neg (by decide)]
  rw [P.bind_ok (hexEscape_ok hx' s), if_pos ⟨h3, h4⟩, surrogatePair_eq h1 h2 h3 h4, ← hc,
    utf8Of_ok]
  rfl

theorem parseEscape_ok {e : Bytes} {c : Char} (h : Escape e c) (s : Bytes) :
    parseEscape (e ++ s) = .ok (Utf8.encodeChar c, s) := by
  cases h with
  | unicode hx =>
    rw [List.cons_append, parseEscape_u]
    exact parseU_unicode hx s
  | pair hx hx' h1 h2 h3 h4 hc =>
    rw [List.cons_append, List.cons_append, parseEscape_u]
    have := parseU_pair hx hx' h1 h2 h3 h4 hc s
    rw [List.append_assoc]
    exact this
  | _ => exact parseEscape_short (by decide) s

theorem readByte_inv {s s' : Bytes} {b : Byte} (h : P.readByte s = .ok (b, s')) : s = b :: s' := by
  cases s with
  | nil => cases h
  | cons x s => cases h; rfl

theorem ofExcept_inv {α} {x : Except Err α} {a : α} {s s' : Bytes}
    (h : P.ofExcept x s = .ok (a, s')) : x = .ok a ∧ s = s' := by
  unfold P.ofExcept at h
  split at h
  · cases h; exact ⟨rfl, rfl⟩
  · cases h

theorem parseU_inv {s s' : Bytes} {x : Bytes} (h : parseU s = .ok (x, s')) :
    ∃ e c, s = e ++ s' ∧ x = Utf8.encodeChar c ∧ Escape (0x75#8 :: e) c := by
  unfold parseU at h
  obtain ⟨n, s1, h1, hA⟩ := P.bind_eq_ok.1 h
  clear h
  obtain ⟨e1, he1, rfl⟩ := hexEscape_inv h1
  split at hA
  · cases hA
  split at hA
  · rename_i hhi
    obtain ⟨y, s2, h2, hB⟩ := P.bind_eq_ok.1 hA
    clear hA
    have := readByte_inv h2; subst this
    split at hB
    · cases hB
    rename_i hy
    obtain ⟨z, s3, h3, hC⟩ := P.bind_eq_ok.1 hB
    clear hB
    have := readByte_inv h3; subst this
    split at hC
    · cases hC
    rename_i hz
    obtain ⟨n2, s4, h4, hD⟩ := P.bind_eq_ok.1 hC
    clear hC
    obtain ⟨e2, he2, rfl⟩ := hexEscape_inv h4
    split at hD
    · rename_i hlo
      obtain ⟨hu, rfl⟩ := ofExcept_inv hD
      obtain ⟨c, hc, rfl⟩ := utf8Of_inv hu
      have hy' : y = 0x5C#8 := by simpa using hy
      have hz' : z = 0x75#8 := by simpa using hz
      subst hy' hz'
      refine ⟨e1 ++ 0x5C#8 :: 0x75#8 :: e2, c, by simp, rfl, ?_⟩
      rw [surrogatePair_eq hhi.1 hhi.2 hlo.1 hlo.2] at hc
      exact Escape.pair he1 he2 hhi.1 hhi.2 hlo.1 hlo.2 hc
    · cases hD
  · obtain ⟨hu, rfl⟩ := ofExcept_inv hA
    obtain ⟨c, hc, rfl⟩ := utf8Of_inv hu
    subst hc
    exact ⟨e1, c, rfl, rfl, Escape.unicode he1⟩

theorem parseEscape_inv {s s' : Bytes} {x : Bytes} (h : parseEscape s = .ok (x, s')) :
    ∃ e c, s = e ++ s' ∧ x = Utf8.encodeChar c ∧ Escape e c := by
  have h' := h
  unfold parseEscape at h'
  obtain ⟨b, s1, h1, h2⟩ := P.bind_eq_ok.1 h'
  have := readByte_inv h1; subst this
  by_cases hu : b = 0x75#8
  · subst hu
    rw [parseEscape_u] at h
    obtain ⟨e, c, rfl, hx, he⟩ := parseU_inv h
    exact ⟨_ :: e, c, rfl, hx, he⟩
  · clear h h'
    by_cases h_ : b = 0x22#8
    · subst h_; cases h2; exact ⟨_, _, rfl, rfl, .quote⟩
    rw [if_neg (by simpa using h_)] at h2
    by_cases h_ : b = 0x5C#8
    · subst h_; cases h2; exact ⟨_, _, rfl, rfl, .backslash⟩
    rw [if_neg (by simpa using h_)] at h2
    by_cases h_ : b = 0x2F#8
    · subst h_; cases h2; exact ⟨_, _, rfl, rfl, .slash⟩
    rw [if_neg (by simpa using h_)] at h2
    by_cases h_ : b = 0x62#8
    · subst h_; cases h2; exact ⟨_, _, rfl, rfl, .backspace⟩
    rw [if_neg (by simpa using h_)] at h2
    by_cases h_ : b = 0x66#8
    · subst h_; cases h2; exact ⟨_, _, rfl, rfl, .formfeed⟩
    rw [if_neg (by simpa using h_)] at h2
    by_cases h_ : b = 0x6E#8
    · subst h_; cases h2; exact ⟨_, _, rfl, rfl, .newline⟩
    rw [if_neg (by simpa using h_)] at h2
    by_cases h_ : b = 0x72#8
    · subst h_; cases h2; exact ⟨_, _, rfl, rfl, .ret⟩
    rw [if_neg (by simpa using h_)] at h2
    by_cases h_ : b = 0x74#8
    · subst h_; cases h2; exact ⟨_, _, rfl, rfl, .tab⟩
    rw [if_neg (by simpa using h_), if_neg (by simpa using hu)] at h2
    cases h2

/-! ## String bodies -/

/-- Bytes which need no attention. -/
def AllPlain (l : Bytes) : Prop := ∀ b ∈ l, needsEscape b = false

theorem spanPlain_append {p : Bytes} (h : AllPlain p) (s : Bytes) :
    spanPlain (p ++ s) = (p ++ (spanPlain s).1, (spanPlain s).2) := by
  induction p with
  | nil => rfl
  | cons b p ih =>
    have hb := h b (by simp)
    have ih := ih (fun x hx => h x (by simp [hx]))
    simp only [List.cons_append, spanPlain, hb, ih]
    rfl

theorem spanPlain_stop {b : Byte} (h : needsEscape b = true) (s : Bytes) :
    spanPlain (b :: s) = ([], b :: s) := by simp [spanPlain, h]

theorem spanPlain_spec (s : Bytes) :
    s = (spanPlain s).1 ++ (spanPlain s).2 ∧ AllPlain (spanPlain s).1 ∧
      (∀ b r, (spanPlain s).2 = b :: r → needsEscape b = true) := by
  induction s with
  | nil => exact ⟨rfl, by simp [AllPlain, spanPlain], by simp [spanPlain]⟩
  | cons b s ih =>
    by_cases h : needsEscape b = true
    · rw [spanPlain_stop h]
      refine ⟨rfl, by simp [AllPlain], ?_⟩
      intro b' r h'; cases h'; exact h
    · have h' : needsEscape b = false := by simpa using h
      have : spanPlain (b :: s) = (b :: (spanPlain s).1, (spanPlain s).2) := by
        simp [spanPlain, h']
      rw [this]
      obtain ⟨h1, h2, h3⟩ := ih
      refine ⟨by simp [← h1], ?_, h3⟩
      intro x hx
      simp only [List.mem_cons] at hx
      rcases hx with rfl | hx
      · exact h'
      · exact h2 x hx

theorem needsEscape_iff (b : Byte) :
    needsEscape b = true ↔ b.toNat < 0x20 ∨ b.toNat = 0x22 ∨ b.toNat = 0x5C := by
  unfold needsEscape
  simp only [Bool.or_eq_true, decide_eq_true_eq, BitVec.le_def, beq_iff_eq, BitVec.toNat_eq]
  simp only [BitVec.reduceToNat]
  omega

theorem encodeChar_ascii {c : Char} (h : c.toNat < 128) :
    Utf8.encodeChar c = [BitVec.ofNat 8 c.toNat] := by
  unfold Utf8.encodeChar
  dsimp only
  rw [if_pos h]

theorem encodeChar_high {c : Char} (h : 128 ≤ c.toNat) :
    ∀ b ∈ Utf8.encodeChar c, 128 ≤ b.toNat := by
  have hr := Utf8.char_range c
  unfold Utf8.encodeChar
  generalize c.toNat = m at *
  dsimp only
  split
  · omega
  split
  · simp; omega
  split
  · simp; omega
  · simp; omega

theorem char_ne_of {c d : Char} : c ≠ d ↔ c.toNat ≠ d.toNat := by
  constructor
  · intro h h'
    exact h (Char.ext (UInt32.toNat_inj.1 h'))
  · intro h h'; exact h (by rw [h'])

/-- A character is plain when its bytes are. -/
theorem allPlain_encodeChar (c : Char) :
    AllPlain (Utf8.encodeChar c) ↔ (0x20 ≤ c.toNat ∧ c ≠ '"' ∧ c ≠ '\\') := by
  rw [char_ne_of, char_ne_of]
  have q : '"'.toNat = 0x22 := rfl
  have b : '\\'.toNat = 0x5C := rfl
  rw [q, b]
  by_cases h : c.toNat < 128
  · rw [encodeChar_ascii h]
    have : AllPlain [BitVec.ofNat 8 c.toNat] ↔ ¬ needsEscape (BitVec.ofNat 8 c.toNat) = true := by
      simp [AllPlain]
    rw [this, needsEscape_iff, BitVec.toNat_ofNat, Nat.mod_eq_of_lt (by omega)]
    omega
  · constructor
    · intro _; omega
    · intro _ x hx
      have := encodeChar_high (by omega) x hx
      cases hn : needsEscape x with
      | false => rfl
      | true => rw [needsEscape_iff] at hn; omega

theorem lit_plain {cs : List Char} (h : AllPlain (Utf8.encode cs)) {l : Bytes} {ds : List Char}
    (hl : Lit l ds) : Lit (Utf8.encode cs ++ l) (cs ++ ds) := by
  induction cs with
  | nil => exact hl
  | cons c cs ih =>
    rw [Utf8.encode_cons] at h ⊢
    have h1 : AllPlain (Utf8.encodeChar c) := fun x hx => h x (by simp [hx])
    have h2 : AllPlain (Utf8.encode cs) := fun x hx => h x (by simp [hx])
    obtain ⟨ha, hb, hc⟩ := (allPlain_encodeChar c).1 h1
    rw [List.append_assoc]
    exact Lit.plain ha hb hc (ih h2)

theorem strLoop_plain {p : Bytes} (hp : AllPlain p) (hv : Utf8.valid p = true) (fuel : Nat)
    (sc s : Bytes) (r : Bytes × Bytes) :
    strLoop (fuel + 1) sc (p ++ s) = .ok r ↔ strLoop (fuel + 1) (sc ++ p) s = .ok r := by
  unfold strLoop
  rw [spanPlain_append hp s]
  dsimp only
  cases (spanPlain s).2 with
  | nil => simp
  | cons b s' =>
    simp only [checkUtf8, Utf8.valid_append hv]
    cases hb : (b == 0x22#8) with
    | true =>
      simp only [if_true]
      cases Utf8.valid (spanPlain s).1 <;> simp [List.append_assoc]
    | false =>
      simp only [Bool.false_eq_true, if_false]
      cases hb' : (b == 0x5C#8) with
      | true =>
        simp only [if_true]
        cases Utf8.valid (spanPlain s).1 <;> simp [List.append_assoc]
      | false => simp

theorem strLoop_quote (fuel : Nat) (sc s : Bytes) :
    strLoop (fuel + 1) sc (0x22#8 :: s) = .ok (sc, s) := by
  unfold strLoop
  rw [spanPlain_stop (by decide)]
  simp [checkUtf8, Utf8.valid]

theorem strLoop_escape (fuel : Nat) (sc s : Bytes) :
    strLoop (fuel + 1) sc (0x5C#8 :: s) = (do
      let x ← parseEscape
      strLoop fuel (sc ++ x)) s := by
  conv => lhs; unfold strLoop
  rw [spanPlain_stop (by decide)]
  simp [checkUtf8, Utf8.valid]

/-- Every literal of the specification is accepted and denotes what it should. -/
theorem strLoop_complete {l : Bytes} {cs : List Char} (h : Lit l cs) :
    ∀ fuel, l.length < fuel → ∀ sc s,
      strLoop fuel sc (l ++ 0x22#8 :: s) = .ok (sc ++ Utf8.encode cs, s) := by
  induction h with
  | nil =>
    intro fuel hf sc s
    obtain ⟨f, rfl⟩ : ∃ f, fuel = f + 1 := ⟨fuel - 1, by simp at hf; omega⟩
    rw [List.nil_append, strLoop_quote]
    simp [Utf8.encode]
  | @plain c l cs h1 h2 h3 _ ih =>
    intro fuel hf sc s
    obtain ⟨f, rfl⟩ : ∃ f, fuel = f + 1 := ⟨fuel - 1, by omega⟩
    have hp := (allPlain_encodeChar c).2 ⟨h1, h2, h3⟩
    rw [List.append_assoc, strLoop_plain hp (by
      have := Utf8.valid_encodeChar_append c []; rw [List.append_nil] at this; exact this)]
    rw [ih (f + 1) (by simp at hf; omega) (sc ++ Utf8.encodeChar c) s, Utf8.encode_cons,
      List.append_assoc]
  | @escape e c l cs he _ ih =>
    intro fuel hf sc s
    obtain ⟨f, rfl⟩ : ∃ f, fuel = f + 1 := ⟨fuel - 1, by omega⟩
    rw [List.cons_append, List.cons_append, strLoop_escape, List.append_assoc,
      P.bind_ok (parseEscape_ok he _), ih f (by simp at hf; omega), Utf8.encode_cons,
      List.append_assoc]

/-- Whatever is accepted is a literal of the specification. -/
theorem strLoop_sound : ∀ (fuel : Nat) (sc s out s' : Bytes),
    strLoop fuel sc s = .ok (out, s') →
    ∃ l cs, s = l ++ 0x22#8 :: s' ∧ Lit l cs ∧ out = sc ++ Utf8.encode cs := by
  intro fuel
  induction fuel with
  | zero => intro sc s out s' h; cases h
  | succ fuel ih =>
    intro sc s out s' h
    unfold strLoop at h
    obtain ⟨hs, hp, hn⟩ := spanPlain_spec s
    generalize (spanPlain s).1 = seg at *
    generalize (spanPlain s).2 = r at *
    dsimp only at h
    cases r with
    | nil => cases h
    | cons b r =>
      dsimp only at h
      have hvalid : ∀ {e}, checkUtf8 seg = e → (e = .ok () → ∃ cs, seg = Utf8.encode cs) := by
        intro e he hok
        subst hok
        unfold checkUtf8 at he
        split at he
        · rename_i hv; exact (Utf8.valid_iff seg).1 hv
        · cases he
      by_cases hb : (b == 0x22#8) = true
      · simp only [hb, if_true] at h
        split at h
        · cases h
        · rename_i hc
          obtain ⟨cs, rfl⟩ := hvalid hc rfl
          have hb' : b = 0x22#8 := by simpa using hb
          cases h
          refine ⟨Utf8.encode cs, cs, by rw [hs, hb'], ?_, rfl⟩
          have := lit_plain hp Lit.nil
          simpa using this
      · simp only [hb, Bool.false_eq_true, if_false] at h
        by_cases hb2 : (b == 0x5C#8) = true
        · simp only [hb2, if_true] at h
          have hb' : b = 0x5C#8 := by simpa using hb2
          split at h
          · simp at h
          · rename_i hc
            obtain ⟨cs, rfl⟩ := hvalid hc rfl
            obtain ⟨x, s1, h1, h2⟩ := P.bind_eq_ok.1 h
            obtain ⟨e, c, rfl, rfl, he⟩ := parseEscape_inv h1
            obtain ⟨l, ds, rfl, hl, rfl⟩ := ih _ _ _ _ h2
            refine ⟨Utf8.encode cs ++ (0x5C#8 :: e ++ l), cs ++ (c :: ds), ?_,
              lit_plain hp (Lit.escape he hl), ?_⟩
            · rw [hs, hb']; simp
            · rw [Utf8.encode_append, Utf8.encode_cons]; simp
        · simp [hb2] at h

/-- The parser of strings accepts exactly the string literals. -/
theorem parseString_iff (s out s' : Bytes) :
    parseString s = .ok (out, s') ↔
      ∃ ws l cs, Ws ws ∧ Lit l cs ∧ s = ws ++ 0x22#8 :: l ++ 0x22#8 :: s' ∧
        out = Utf8.encode cs := by
  constructor
  · intro h
    unfold parseString at h
    obtain ⟨_, s1, h1, h2⟩ := P.bind_eq_ok.1 h
    obtain ⟨ws, hw, rfl⟩ := expect_inv (b := 0x22#8) rfl h1
    obtain ⟨l, cs, rfl, hl, rfl⟩ := strLoop_sound _ _ _ _ _ h2
    exact ⟨ws, l, cs, hw, hl, by simp, by simp⟩
  · rintro ⟨ws, l, cs, hw, hl, rfl, rfl⟩
    have h1 : ws ++ 0x22#8 :: l ++ 0x22#8 :: s' = ws ++ 0x22#8 :: (l ++ 0x22#8 :: s') := by simp
    unfold parseString
    rw [h1, P.bind_ok (expect_ok (t := .string) (b := 0x22#8) rfl hw _)]
    show strLoop _ _ _ = _
    rw [strLoop_complete hl _ (by simp; omega)]
    simp

/-! ## Encoding -/

/-- How one byte is written. -/
def escByte (b : Byte) : Bytes := if needsEscape b then writeEscape b else [b]

theorem encStrLoop_eq (p s : Bytes) : encStrLoop p s = p ++ s.flatMap escByte := by
  induction s generalizing p with
  | nil => simp [encStrLoop]
  | cons b s ih =>
    unfold encStrLoop
    split
    · rename_i h; rw [ih]; simp [escByte, h]
    · rename_i h; rw [ih]; simp [escByte, h]

theorem flatMap_plain {l : Bytes} (h : AllPlain l) : l.flatMap escByte = l := by
  induction l with
  | nil => rfl
  | cons b l ih =>
    rw [List.flatMap_cons, ih (fun x hx => h x (by simp [hx]))]
    simp [escByte, h b (by simp)]

theorem hexDigit_spec {n : Nat} (h : n < 16) : HexDigit (hexDigit n) n := by
  unfold hexDigit HexDigit
  split
  · simp; omega
  · simp; omega

/-- An escape that is written denotes the character that was escaped. -/
theorem writeEscape_spec {n : Nat} (h : n < 0x20 ∨ n = 0x22 ∨ n = 0x5C) :
    ∃ e, writeEscape (BitVec.ofNat 8 n) = 0x5C#8 :: e ∧ Escape e (Char.ofNat n) := by
  have hn : n < 256 := by omega
  unfold writeEscape
  simp only [beq_iff_eq, BitVec.toNat_eq, BitVec.toNat_ofNat, Nat.mod_eq_of_lt hn]
  by_cases hx : n = 8
  · subst hx; exact ⟨_, rfl, Escape.backspace⟩
  rw [if_neg hx]
  by_cases hx : n = 9
  · subst hx; exact ⟨_, rfl, Escape.tab⟩
  rw [if_neg hx]
  by_cases hx : n = 10
  · subst hx; exact ⟨_, rfl, Escape.newline⟩
  rw [if_neg hx]
  by_cases hx : n = 12
  · subst hx; exact ⟨_, rfl, Escape.formfeed⟩
  rw [if_neg hx]
  by_cases hx : n = 13
  · subst hx; exact ⟨_, rfl, Escape.ret⟩
  rw [if_neg hx]
  by_cases hx : n = 34
  · subst hx; exact ⟨_, rfl, Escape.quote⟩
  rw [if_neg hx]
  by_cases hx : n = 92
  · subst hx; exact ⟨_, rfl, Escape.backslash⟩
  rw [if_neg hx]
  have hlt : n < 0x20 := by omega
  refine ⟨_, rfl, Escape.unicode ?_⟩
  refine ⟨_, _, _, _, 0, 0, n / 16, n % 16, rfl, ?_, ?_, hexDigit_spec (by omega),
    hexDigit_spec (by omega), ?_⟩
  · left; decide
  · left; decide
  · have : (Char.ofNat n).toNat = n := by
      unfold Char.ofNat
      rw [dif_pos (show n.isValidChar by unfold Nat.isValidChar; omega)]
      rfl
    rw [this]; omega

/-- What is written for a string is a literal for it. -/
theorem lit_encode (cs : List Char) : Lit ((Utf8.encode cs).flatMap escByte) cs := by
  induction cs with
  | nil => exact Lit.nil
  | cons c cs ih =>
    rw [Utf8.encode_cons, List.flatMap_append]
    by_cases hp : AllPlain (Utf8.encodeChar c)
    · rw [flatMap_plain hp]
      obtain ⟨h1, h2, h3⟩ := (allPlain_encodeChar c).1 hp
      exact Lit.plain h1 h2 h3 ih
    · have hc : c.toNat < 0x20 ∨ c.toNat = 0x22 ∨ c.toNat = 0x5C := by
        rw [allPlain_encodeChar, char_ne_of, char_ne_of] at hp
        have q : '"'.toNat = 0x22 := rfl
        have b : '\\'.toNat = 0x5C := rfl
        rw [q, b] at hp
        omega
      rw [encodeChar_ascii (by omega)]
      obtain ⟨e, he, hE⟩ := writeEscape_spec hc
      have hn : needsEscape (BitVec.ofNat 8 c.toNat) = true := by
        rw [needsEscape_iff, BitVec.toNat_ofNat, Nat.mod_eq_of_lt (by omega)]; exact hc
      have : Char.ofNat c.toNat = c := Char.ofNat_toNat c
      rw [this] at hE
      simp only [List.flatMap_cons, List.flatMap_nil, List.append_nil, escByte, hn, if_true, he]
      exact Lit.escape hE ih

theorem encodeString_eq (cs : List Char) :
    ∃ l, Lit l cs ∧ encodeString (Utf8.encode cs) = 0x22#8 :: l ++ [0x22#8] := by
  refine ⟨_, lit_encode cs, ?_⟩
  unfold encodeString
  rw [encStrLoop_eq]
  rfl

theorem parseString_encode (b : Bytes) (h : Utf8.valid b = true) (s : Bytes) :
    parseString (encodeString b ++ s) = .ok (b, s) := by
  obtain ⟨cs, rfl⟩ := (Utf8.valid_iff b).1 h
  obtain ⟨l, hl, he⟩ := encodeString_eq cs
  rw [parseString_iff]
  exact ⟨[], l, cs, by simp [Ws], hl, by rw [he]; simp, rfl⟩

/-! ## Skipping -/

/-- What `skipEscape` does after the letter `u`. -/
def skipU : P Unit := do
  let n ← hexEscape
  if 0xDC00 ≤ n ∧ n ≤ 0xDFFF then P.fail .invalid
  else if 0xD800 ≤ n ∧ n ≤ 0xDBFF then do
    let x ← P.readByte
    if x != 0x5C#8 then P.fail .invalid
    else do
      let y ← P.readByte
      if y != 0x75#8 then P.fail .invalid
      else do
        let n2 ← hexEscape
        if 0xDC00 ≤ n2 ∧ n2 ≤ 0xDFFF then do
          let _ ← P.ofExcept (utf8Of (surrogatePair n n2))
          pure ()
        else P.fail .invalid
  else pure ()

theorem skipEscape_u (s : Bytes) : skipEscape (0x75#8 :: s) = skipU s := rfl

theorem skipEscape_ok {e : Bytes} {c : Char} (h : Escape e c) (s : Bytes) :
    skipEscape (e ++ s) = .ok ((), s) := by
  cases h with
  | unicode hx =>
    have hr := Utf8.char_range c
    rw [List.cons_append, skipEscape_u]
    unfold skipU
    rw [P.bind_ok (hexEscape_ok hx s), if_neg (by omega), if_neg (by omega)]
    rfl
  | @pair h h' hi lo _ hx hx' h1 h2 h3 h4 hc =>
    have happ : (0x75#8 :: h ++ 0x5C#8 :: 0x75#8 :: h') ++ s =
      0x75#8 :: (h ++ 0x5C#8 :: 0x75#8 :: (h' ++ s)) := by simp
    rw [happ, skipEscape_u]
    unfold skipU
    rw [P.bind_ok (hexEscape_ok hx _), if_neg (by omega), if_pos ⟨h1, h2⟩]
    rw [P.bind_ok (a := 0x5C#8) (s' := 0x75#8 :: (h' ++ s)) rfl, if_neg (by decide)]
    rw [P.bind_ok (a := 0x75#8) (s' := h' ++ s) rfl, if_neg (by decide)]
    rw [P.bind_ok (hexEscape_ok hx' s), if_pos ⟨h3, h4⟩, surrogatePair_eq h1 h2 h3 h4, ← hc,
      utf8Of_ok]
    rfl
  | _ => rfl

theorem skipStrLoop_plain {p : Bytes} (hp : AllPlain p) (fuel : Nat) (s : Bytes) :
    skipStrLoop (fuel + 1) (p ++ s) = skipStrLoop (fuel + 1) s := by
  unfold skipStrLoop
  rw [spanPlain_append hp s]

theorem skipStrLoop_lit {l : Bytes} {cs : List Char} (h : Lit l cs) :
    ∀ fuel, l.length < fuel → ∀ s, skipStrLoop fuel (l ++ 0x22#8 :: s) = .ok ((), s) := by
  induction h with
  | nil =>
    intro fuel hf s
    obtain ⟨f, rfl⟩ : ∃ f, fuel = f + 1 := ⟨fuel - 1, by simp at hf; omega⟩
    unfold skipStrLoop
    rw [List.nil_append, spanPlain_stop (by decide)]
    rfl
  | @plain c l cs h1 h2 h3 _ ih =>
    intro fuel hf s
    obtain ⟨f, rfl⟩ : ∃ f, fuel = f + 1 := ⟨fuel - 1, by omega⟩
    rw [List.append_assoc, skipStrLoop_plain ((allPlain_encodeChar c).2 ⟨h1, h2, h3⟩)]
    exact ih _ (by simp at hf; omega) s
  | @escape e c l cs he _ ih =>
    intro fuel hf s
    obtain ⟨f, rfl⟩ : ∃ f, fuel = f + 1 := ⟨fuel - 1, by omega⟩
    have : skipStrLoop (f + 1) (0x5C#8 :: (e ++ (l ++ 0x22#8 :: s))) =
        (do skipEscape; skipStrLoop f) (e ++ (l ++ 0x22#8 :: s)) := by
      conv => lhs; unfold skipStrLoop
      rw [spanPlain_stop (by decide)]
      rfl
    rw [List.cons_append, List.cons_append, List.append_assoc, this,
      P.bind_ok (skipEscape_ok he _), ih f (by simp at hf; omega)]

theorem skipString_lit {l : Bytes} {cs : List Char} (h : Lit l cs) (s : Bytes) :
    skipString (l ++ 0x22#8 :: s) = .ok ((), s) := by
  unfold skipString
  exact skipStrLoop_lit h _ (by simp; omega) s

end Musli.Json
