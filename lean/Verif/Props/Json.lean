import Verif.Proofs.Json.Api
import Verif.Proofs.Json.Encode
import Verif.Props.Samples
/-!
# C25–C31, C33, C37–C39: JSON

`full` is the feature `parse-full`; all statements hold with and without it unless
they say otherwise. The grammar and the meaning of texts are in `Spec/Json/*.lean`.
-/
namespace Musli.Json
open Musli Spec

/-! ## C25, C26: strings -/

/-- **C25.** The encoding of any string is a string literal of RFC 8259 which denotes it,
without raw control characters, and decoding it in front of anything returns the
string and leaves the rest. -/
theorem C25_string_round_trip (full : Bool) (env : Env) (v : Str) :
    ∃ l cs, encode env .string v = .ok (0x22#8 :: l ++ [0x22#8]) ∧
      Lit l cs ∧ v.bytes = Utf8.encode cs ∧ (∀ b ∈ l, 0x20 ≤ b.toNat) ∧
      ∀ rest, decode full env .string (0x22#8 :: l ++ [0x22#8] ++ rest) = .ok (v, rest) := by
  obtain ⟨cs, hcs⟩ := (Utf8.valid_iff v.bytes).1 v.valid
  obtain ⟨l, hl, he⟩ := encodeString_eq cs
  refine ⟨l, cs, ?_, hl, hcs, lit_ge hl, fun rest => ?_⟩
  · simp only [encode, encJ]; rw [hcs, he]
  · simp only [decode, decJ]
    exact (decStr_iff _ _ _).2 ⟨[], l, cs, (fun _ h => nomatch h), hl, by simp, hcs⟩

/-- **C26.** Decoding a string succeeds exactly on the string literals of RFC 8259 (after
whitespace), and the result are the denoted scalar values. -/
theorem C26_string_iff (full : Bool) (env : Env) (s rest : Bytes) (v : Str) :
    decode full env .string s = .ok (v, rest) ↔
      ∃ ws l cs, Ws ws ∧ Lit l cs ∧ s = ws ++ 0x22#8 :: l ++ 0x22#8 :: rest ∧
        v.bytes = Utf8.encode cs := by
  simp only [decode, decJ]
  exact decStr_iff s rest v

example : encode Sample.env .string ⟨utf8% "a\"€\n\x01", by decide⟩ =
    .ok (utf8% "\"a\\\"€\\n\\u0001\"") := by decide
/-- `"\uD83D\uDE00\/"` -/
example : decode true Sample.env .string (utf8% " \"\\uD83D\\ude00\\/\",") =
    .ok (⟨utf8% "😀/", by decide⟩, utf8% ",") := by decide
/-- a lone surrogate -/
example : (decode true Sample.env .string (utf8% "\"\\uD83D\"")).isOk = false := by decide
/-- a raw control character -/
example : (decode true Sample.env .string (utf8% "\"\t\"")).isOk = false := by decide

/-! ## C27, C28: integers -/

/-- **C27**: the full statement. A numeral decodes to the number that it denotes, or
fails when it is out of range. -/
def C27Full : Prop := ∀ (full : Bool) (env : Env) (w : IW) (num rest : Bytes),
  Numeral num → NoNumber rest →
    (value num < 2 ^ w.bits → ∃ v : BitVec w.bits, v.toNat = value num ∧
      decode full env (.prim (.uint w)) (num ++ rest) = .ok (v, rest)) ∧
    (2 ^ w.bits ≤ value num → ∃ e, decode full env (.prim (.uint w)) (num ++ rest) = .error e)

/-- **C27** is false: `256` is a valid `u8` and denotes 0. (In debug mode, the
addition panics instead.) -/
theorem C27_full_statement_false : ¬ C27Full := by
  intro h
  have := (h false Sample.env .w8 (utf8% "256") []
    (.inr ⟨_, _, rfl, by decide, by decide, by unfold Digits Digit; decide⟩) (fun _ _ h => nomatch h)).2
    (by decide)
  obtain ⟨e, he⟩ := this
  have h2 : decode false Sample.env (.prim (.uint .w8)) (utf8% "256" ++ []) = .ok (0#8, []) := by decide
  rw [h2] at he
  cases he

/-- **C27 (partial).** A numeral in range of an unsigned type decodes to the number
that it denotes. -/
theorem C27_unsigned_in_range_partial (full : Bool) (env : Env) (w : IW) (ws num rest : Bytes)
    (hw : Ws ws) (hn : Numeral num) (hr : NoNumber rest) (hv : value num < 2 ^ w.bits) :
    ∃ v : BitVec w.bits, v.toNat = value num ∧
      decode full env (.prim (.uint w)) (ws ++ (num ++ rest)) = .ok (v, rest) :=
  ⟨BitVec.ofNat w.bits (value num), by rw [BitVec.toNat_ofNat, Nat.mod_eq_of_lt hv], by
    simp only [decode, decJ]; exact parseUnsigned_ok full hw hn hr hv⟩

/-- **C27 (partial).** A numeral, possibly after a minus sign, in range of a signed type
decodes to the number that it denotes. -/
theorem C27_signed_in_range_partial (full : Bool) (env : Env) (w : IW) (neg : Bool)
    (ws num rest : Bytes) (hw : Ws ws) (hn : Numeral num) (hr : NoNumber rest)
    (hv : if neg then value num ≤ 2 ^ (w.bits - 1) else value num < 2 ^ (w.bits - 1)) :
    ∃ v : BitVec w.bits, v.toInt = (if neg then -(value num : Int) else value num) ∧
      decode full env (.prim (.sint w)) (ws ++ (sign neg ++ (num ++ rest))) = .ok (v, rest) := by
  obtain ⟨v, h1, h2⟩ := parseSigned_ok full (w := w.bits) (by cases w <;> decide) hw hn hr hv
  exact ⟨v, h2, by simp only [decode, decJ]; exact h1⟩

theorem IW.two_pow_mod (w : IW) : 2 ^ w.bits % 10 = 6 := by cases w <;> decide
theorem IW.four_le (w : IW) : 4 ≤ w.bits := by cases w <;> decide

/-- **C27 (partial).** A numeral out of range of an unsigned type is rejected. Missing: numerals
which have a prefix that is one of the four numbers `2^w, .., 2^w + 3`, for which
it is false. -/
theorem C27_unsigned_out_of_range_partial (full : Bool) (env : Env) (w : IW) (ws num rest : Bytes)
    (hw : Ws ws) (hn : Numeral num) (hv : 2 ^ w.bits ≤ value num)
    (hp : ∀ p r, num = p ++ r → ¬ (2 ^ w.bits ≤ value p ∧ value p < 2 ^ w.bits + 4)) :
    ∃ r, decode full env (.prim (.uint w)) (ws ++ (num ++ rest)) = .error (.overflow, r) := by
  simp only [decode, decJ]
  exact parseUnsigned_overflow full (IW.four_le w) (IW.two_pow_mod w) hw hn rest hv hp

/-- **C27 (partial).** The same for signed types. -/
theorem C27_signed_out_of_range_partial (full : Bool) (env : Env) (w : IW) (neg : Bool)
    (ws num rest : Bytes) (hw : Ws ws) (hn : Numeral num) (hr : NoNumber rest)
    (hv : ¬ if neg then value num ≤ 2 ^ (w.bits - 1) else value num < 2 ^ (w.bits - 1))
    (hp : ∀ p r, num = p ++ r → ¬ (2 ^ w.bits ≤ value p ∧ value p < 2 ^ w.bits + 4)) :
    ∃ r, decode full env (.prim (.sint w)) (ws ++ (sign neg ++ (num ++ rest))) =
      .error (.overflow, r) := by
  simp only [decode, decJ]
  exact parseSigned_overflow full (IW.four_le w) (IW.two_pow_mod w) hw hn hr hv hp

/-- **C27 (partial).** Without `parse-full`, whatever is accepted as an unsigned integer is
a numeral, and the result is its number modulo `2^w`. -/
theorem C27_unsigned_modulo_partial (env : Env) (w : IW) (s rest : Bytes) (v : BitVec w.bits)
    (h : decode false env (.prim (.uint w)) s = .ok (v, rest)) :
    ∃ ws num, Ws ws ∧ Numeral num ∧ s = ws ++ (num ++ rest) ∧
      v.toNat = value num % 2 ^ w.bits :=
  parseUnsigned_inv (IW.four_le w) h

example : Numeral (utf8% "1000") ∧ 2 ^ IW.w8.bits ≤ value (utf8% "1000") ∧
    decode true Sample.env (.prim (.uint .w8)) (utf8% " 1000") = .error (.overflow, utf8% "0") :=
  ⟨.inr ⟨_, _, rfl, by decide, by decide, by unfold Digits Digit; decide⟩, by decide, by decide⟩
example : decode true Sample.env (.prim (.sint .w8)) (utf8% "-128,") = .ok (0x80#8, utf8% ",") := by
  decide
example : decode true Sample.env (.prim (.sint .w8)) (utf8% "128") = .error (.overflow, []) := by
  decide

/-- **C28.** Encoding any integer and decoding it at the same type returns the integer and
leaves the rest, which must not start with a character that continues a number. -/
theorem C28_integers_round_trip (full : Bool) (env : Env) (w : IW) (v : BitVec w.bits) (rest : Bytes)
    (hr : NoNumber rest) :
    (∃ bs, encode env (.prim (.uint w)) v = .ok bs ∧ Numeral bs ∧ value bs = v.toNat ∧
      decode full env (.prim (.uint w)) (bs ++ rest) = .ok (v, rest)) ∧
    (∃ bs neg num, encode env (.prim (.sint w)) v = .ok bs ∧ bs = sign neg ++ num ∧ Numeral num ∧
      (if neg then -(value num : Int) else value num) = v.toInt ∧
      decode full env (.prim (.sint w)) (bs ++ rest) = .ok (v, rest)) := by
  constructor
  · refine ⟨fmtUnsigned v, by simp only [encode, encJ]; rfl, decimal_numeral _, value_decimal _, ?_⟩
    simp only [decode, decJ]; exact parse_fmtUnsigned full v hr
  · refine ⟨fmtSigned v, decide (v.toInt < 0), decimal v.toInt.natAbs, by simp only [encode, encJ]; rfl, ?_,
      decimal_numeral _, ?_, ?_⟩
    · unfold fmtSigned
      by_cases h : v.toInt < 0 <;> simp [h, sign]
    · rw [value_decimal]
      by_cases h : v.toInt < 0 <;> simp only [h, decide_true, decide_false, if_true, Bool.false_eq_true, if_false] <;> omega
    · simp only [decode, decJ]; exact parse_fmtSigned full (by cases w <;> decide) v hr

example : encode Sample.env (.prim (.sint .w64)) (0x8000000000000000#64) =
    .ok (utf8% "-9223372036854775808") := by decide +kernel
example : NoNumber (utf8% ",1") := by
  rintro b r ⟨⟩; unfold Digit; decide

/-! ## C29: skipping -/

/-- **C29.** Skipping consumes exactly one JSON value, whichever it is. -/
theorem C29_skip_any_value (ws x rest : Bytes) (hw : Ws ws) (hx : IsValue x) (hr : NoNumber rest) :
    skip (ws ++ (x ++ rest)) = .ok ((), rest) := skip_isValue hw hx hr

/-- **C29.** Skipping consumes exactly what the encoder produced, for every value of
every type. -/
theorem C29_skip_encoded (env : Env) (t : Ty) (v : t.Val) (bs rest : Bytes)
    (he : encode env t v = .ok bs) (hr : NoNumber rest) : skip (bs ++ rest) = .ok ((), rest) :=
  skip_isValue (ws := []) (fun _ h => nomatch h) (encJ_isValue env t v bs he) hr

example : skip (utf8% " {\"a\" : [1.5e-3, \"\\uD83D\\ude00\", {}], \"b\":null},1") = .ok ((), utf8% ",1") := by
  decide

/-! ## C30, C37, C38: documents -/

/-- **C30.** Decoding the encoding of a value of a supported type returns the value and
leaves the rest. -/
theorem C30_round_trip (full : Bool) (env : Env) (t : Ty) (hok : t.jsonOk = true)
    (hn : t.jsonNames = true) (henv : t.envOk env) (v : t.Val) (bs rest : Bytes)
    (he : encode env t v = .ok bs) (hr : NoNumber rest) :
    decode full env t (bs ++ rest) = .ok (v, rest) :=
  decJ_denotes full env t hn v bs (encJ_denotes env t hok hn henv v bs he) [] lead_nil
    rest hr

/-- **C30**: two values with the same encoding are equal. -/
theorem C30_injective (env : Env) (t : Ty) (hok : t.jsonOk = true) (hn : t.jsonNames = true)
    (henv : t.envOk env) (v v' : t.Val) (bs : Bytes) (he : encode env t v = .ok bs)
    (he' : encode env t v' = .ok bs) : v = v' := by
  have h := C30_round_trip true env t hok hn henv v bs [] he (fun _ _ h => nomatch h)
  have h' := C30_round_trip true env t hok hn henv v' bs [] he' (fun _ _ h => nomatch h)
  rw [h] at h'
  cases h'
  rfl

/-- `Option<Option<bool>>` does not satisfy `jsonOk`, and indeed `Some(None)` becomes
`None`. -/
example : encode Sample.env (.option (.option (.prim .bool))) (some none) = .ok (utf8% "null") ∧
    decode true Sample.env (.option (.option (.prim .bool))) (utf8% "null") = .ok (none, []) := by
  decide

/-- **C37.** Whatever the encoder produces is a JSON value, and it is UTF-8. -/
theorem C37_output_is_json (env : Env) (t : Ty) (v : t.Val) (bs : Bytes)
    (he : encode env t v = .ok bs) : IsValue bs ∧ Utf8.valid bs = true :=
  ⟨encJ_isValue env t v bs he, valid_text (encJ_isValue env t v bs he)⟩

/-- **C38.** Every text that represents a value decodes to it: whitespace, escapes, the
order of members and members for unknown fields make no difference. (In front of a float, after
a colon and at the top, there is no whitespace: `Lead`, C86.) -/
theorem C38_decode_any_representation (full : Bool) (env : Env) (t : Ty) (hn : t.jsonNames = true)
    (v : t.Val) (ws x rest : Bytes) (hw : Lead t ws) (hx : Denotes env t v x) (hr : NoNumber rest) :
    decode full env t (ws ++ (x ++ rest)) = .ok (v, rest) :=
  decJ_denotes full env t hn v x hx ws hw rest hr

/-- **C38**: so a text represents at most one value of a type. -/
theorem C38_unambiguous (env : Env) (t : Ty) (hn : t.jsonNames = true) (v v' : t.Val) (x : Bytes)
    (h : Denotes env t v x) (h' : Denotes env t v' x) : v = v' := by
  have a := C38_decode_any_representation true env t hn v [] x [] lead_nil h
    (fun _ _ h => nomatch h)
  have b := C38_decode_any_representation true env t hn v' [] x [] lead_nil h'
    (fun _ _ h => nomatch h)
  rw [a] at b
  cases b
  rfl

/-- **C38**: the encoder produces a text which represents the value. -/
theorem C38_encoder (env : Env) (t : Ty) (hok : t.jsonOk = true) (hn : t.jsonNames = true)
    (henv : t.envOk env) (v : t.Val) (bs : Bytes) (he : encode env t v = .ok bs) :
    Denotes env t v bs := encJ_denotes env t hok hn henv v bs he

section
open Sample

example : account.jsonOk = true ∧ account.jsonNames = true ∧ account.envOk env ∧
    encode env account ann = .ok
      (utf8% "{\"name\":\"é\\n\",\"tags\":[[-2,true]],\"map\":{\"a\":{\"Low\":{}},\"b\":{\"High\":{\"x\":300}}}}") :=
  ⟨by decide, by decide, account_envOk, by decide +kernel⟩
set_option maxRecDepth 8000 in
/-- Another representation: reordered, with spaces, escapes, a duplicate and unknown fields. -/
example : decode false env account
    (utf8% " {\"tags\" : [ [-2,true, null] ],\"z\":[{}],\"map\":{\"a\":{\"Low\":{\"q\":1}},\"\\u0062\":{\"High\":{\"x\":300}}},\"name\":\"no\",\"name\":\"é\\u000a\"}]")
    = .ok (ann, utf8% "]") := rfl

/-- The text `{ "x" : 5 , "y" : null }` represents the struct with `x = 5`. -/
example : Denotes env (.strct .str (.cons (str (utf8% "x")) none none (.prim (.uint .w8)) .nil))
    (5#8, ()) (utf8% "{ \"x\" : 5 , \"y\" : null }") := by
  simp only [Denotes]
  refine ⟨[.inl (.inl 5#8), .inr (str (utf8% "y"))], ?_, rfl, utf8% " \"x\" : 5 , \"y\" : null ", ?_, rfl⟩
  · intro n hn
    simp only [List.mem_cons, reduceCtorEq, Sum.inr.injEq, false_or, List.not_mem_nil, or_false] at hn
    subst hn
    decide
  · have ws : Ws (utf8% " ") := by unfold Ws; decide
    have litx : Lit (utf8% "x") ['x'] := Lit.plain (c := 'x') (by decide) (by decide) (by decide) .nil
    have lity : Lit (utf8% "y") ['y'] := Lit.plain (c := 'y') (by decide) (by decide) (by decide) .nil
    refine ⟨utf8% " ", utf8% "\"x\" : 5", utf8% " , \"y\" : null ", ws, ?_, ?_, rfl⟩
    · exact ⟨utf8% "\"x\"", utf8% " ", utf8% " ", utf8% "5", ⟨['x'], by decide, _, litx, rfl⟩, ws, lead_of (t := .prim (.uint .w8)) rfl ws,
        ⟨.inr ⟨_, _, rfl, by decide, by decide, by unfold Digits Digit; decide⟩, by decide⟩, rfl⟩
    · exact ⟨utf8% " ", utf8% " ", utf8% "\"y\" : null", utf8% " ", ws, ws,
        ⟨utf8% "\"y\"", utf8% " ", utf8% " ", utf8% "null", ⟨['y'], by decide, _, lity, rfl⟩, ws, ws,
          Text.null, rfl⟩, ws, rfl⟩

end

/-! ## C31: byte arrays -/

/-- **C31**: the full statement. An array of numbers decodes as `[u8; N]` if it has `N`
elements and is an error otherwise. -/
def C31Full : Prop := ∀ (full : Bool) (env : Env) (n : Nat) (l x rest : Bytes),
  Arr (l.map (fun b => NatText b.toNat)) x → NoNumber rest →
    (∀ h : l.length = n, decode full env (.byteArray n) (x ++ rest) = .ok (⟨l, h⟩, rest)) ∧
    (l.length ≠ n → ∃ e r, decode full env (.byteArray n) (x ++ rest) = .error (e, r) ∧ e ≠ .panic)

/-- **C31** is false: one element too many is stored out of bounds, which panics. -/
theorem C31_full_statement_false : ¬ C31Full := by
  intro h
  have one : NatText (1#8).toNat (utf8% "1") :=
    ⟨.inr ⟨_, _, rfl, by decide, by decide, by unfold Digits Digit; decide⟩, by decide⟩
  obtain ⟨e, r, he, hp⟩ := (h true Sample.env 0 [1#8] (utf8% "[1]") []
    ⟨utf8% "1", ⟨[], utf8% "1", [], (fun _ h => nomatch h), one, (fun _ h => nomatch h), rfl⟩, rfl⟩
    (fun _ _ h => nomatch h)).2 (by decide)
  have h2 : decode true Sample.env (.byteArray 0) (utf8% "[1]" ++ []) = .error (.panic, utf8% "]") := by
    decide
  rw [h2] at he
  cases he
  exact hp rfl

/-- **C31 (partial).** Exactly `N` elements are accepted, fewer are an error. Missing: more
elements, which always panic (second part of `C31_more_panics`). -/
theorem C31_byte_array_partial (full : Bool) (env : Env) (n : Nat) (l x ws rest : Bytes)
    (hx : Arr (l.map (fun b => NatText b.toNat)) x) (hw : Ws ws) (hr : NoNumber rest) :
    (∀ h : l.length = n, decode full env (.byteArray n) (ws ++ (x ++ rest)) = .ok (⟨l, h⟩, rest)) ∧
    (l.length < n → ∃ r, decode full env (.byteArray n) (ws ++ (x ++ rest)) = .error (.length, r)) := by
  simp only [decode, decJ]
  exact ⟨fun h => decArray_text full n ⟨l, h⟩ x hx ws hw rest hr, (decArray_wrong full n l hx hw rest).1⟩

/-- **C31** is false of every array that is too long. -/
theorem C31_more_panics (full : Bool) (env : Env) (n : Nat) (l x ws rest : Bytes)
    (hx : Arr (l.map (fun b => NatText b.toNat)) x) (hw : Ws ws) (hl : n < l.length) :
    ∃ r, decode full env (.byteArray n) (ws ++ (x ++ rest)) = .error (.panic, r) := by
  simp only [decode, decJ]
  exact (decArray_wrong full n l hx hw rest).2 hl

example : decode true Sample.env (.byteArray 2) (utf8% "[ 7,255 ] ") = .ok (⟨[7#8, 255#8], rfl⟩, utf8% " ") := by
  decide

/-! ## C33: what is left of a `&mut &str` -/

/-- **C33**: the full statement. After decoding from a string slice, successfully or not, what is left of the slice
is UTF-8. -/
def C33Full : Prop := ∀ (full : Bool) (env : Env) (t : Ty) (s : Bytes), Utf8.valid s = true →
  match decode full env t s with
  | .ok (_, rest) => Utf8.valid rest = true
  | .error (_, rest) => Utf8.valid rest = true

/-- **C33** is false: decoding `true` from `"tru€"` fails after having consumed a part
of the last character, so that safe code is left with a `&str` that is not UTF-8. -/
theorem C33_full_statement_false : ¬ C33Full := by
  intro h
  have h1 := h true Sample.env (.prim .bool) (utf8% "tru€") (by decide)
  have h2 : decode true Sample.env (.prim .bool) (utf8% "tru€") = .error (.invalid, [0x82#8, 0xAC#8]) := by
    decide
  rw [h2] at h1
  revert h1
  decide

/-- **C33 (partial).** After successfully decoding a value of any type, or skipping one, what
is left is UTF-8, and it is a part of the input. Missing: after failing, for which it is
false. -/
theorem C33_rest_is_utf8_partial (full : Bool) (env : Env) (t : Ty) (s rest : Bytes)
    (hs : Utf8.valid s = true) :
    (∀ v, decode full env t s = .ok (v, rest) → Utf8.valid rest = true ∧ ∃ x, s = x ++ rest) ∧
    (skip s = .ok ((), rest) → Utf8.valid rest = true ∧ ∃ x, s = x ++ rest) := by
  constructor
  · intro v h
    have := (good_decJ (pn := true) full env t (.inl rfl) s).ok v rest h
    exact ⟨this.valid hs, this.suffix⟩
  · intro h
    have := (good_skipJ (pn := true) s).ok () rest h
    exact ⟨this.valid hs, this.suffix⟩

example : decode true Sample.env (.prim .bool) (utf8% "true€") = .ok (true, utf8% "€") := by decide

/-! ## C39: arbitrary input -/

/-- **C39.** Whatever the input is, decoding at a type without `[u8; N]` never panics (and never runs
out of the fuel of the model, so that it terminates), consumes at least one byte
when it succeeds, and leaves a suffix of the input in any case. -/
theorem C39_decode_arbitrary (full : Bool) (env : Env) (t : Ty) (ht : t.noByteArray = true)
    (s : Bytes) :
    match decode full env t s with
    | .ok (_, rest) => ∃ x, x ≠ [] ∧ s = x ++ rest
    | .error (e, rest) => e ≠ .panic ∧ e ≠ .fuel ∧ ∃ x, s = x ++ rest := by
  have h := good_decJ (pn := false) full env t (.inr ht) s
  cases hd : decode full env t s with
  | ok r =>
    obtain ⟨v, rest⟩ := r
    obtain ⟨y, b, e, _⟩ := h.ok v rest hd
    exact ⟨y ++ [b], by simp, by rw [e]; simp⟩
  | error r =>
    obtain ⟨er, rest⟩ := r
    obtain ⟨⟨h1, h2⟩, x, e⟩ := h.err er rest hd
    exact ⟨h2 rfl, h1, x, e⟩

/-- **C39.** The same for skipping. -/
theorem C39_skip_arbitrary (s : Bytes) :
    match skip s with
    | .ok (_, rest) => ∃ x, x ≠ [] ∧ s = x ++ rest
    | .error (e, rest) => e ≠ .panic ∧ e ≠ .fuel ∧ ∃ x, s = x ++ rest := by
  have h := good_skipJ (pn := false) s
  cases hd : skip s with
  | ok r =>
    obtain ⟨v, rest⟩ := r
    obtain ⟨y, b, e, _⟩ := h.ok v rest hd
    exact ⟨y ++ [b], by simp, by rw [e]; simp⟩
  | error r =>
    obtain ⟨er, rest⟩ := r
    obtain ⟨⟨h1, h2⟩, x, e⟩ := h.err er rest hd
    exact ⟨h2 rfl, h1, x, e⟩

example : Sample.account.noByteArray = true ∧
    (decode true Sample.env Sample.account (utf8% "{\"name\":[")).isOk = false := by
  constructor
  · decide
  · rfl

end Musli.Json
