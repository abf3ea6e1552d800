import Verif.Proofs.Json.Text
import Verif.Proofs.Evolution
import Verif.Proofs.Json.Floats
import Verif.Spec.Json.Supported
/-!
# Decoding any text that denotes a value
-/
set_option linter.unusedSectionVars false
namespace Musli.Json
open Musli Spec

/-- The decoder yields `a` for every text in `p`. `lead` says what can be in front of the text. -/
def DecodesL {α} (lead : Bytes → Prop) (d : P α) (a : α) (p : Bytes → Prop) : Prop :=
  ∀ x, p x → ∀ ws, lead ws → ∀ s, NoNumber s → d (ws ++ (x ++ s)) = .ok (a, s)

/-- The decoder yields `a` for every text in `p`, after any whitespace. -/
def Decodes {α} (d : P α) (a : α) (p : Bytes → Prop) : Prop := DecodesL Ws d a p

theorem Decodes.lead {α} {d : P α} {a : α} {p : Bytes → Prop} (h : Decodes d a p) {l : Bytes → Prop}
    (hl : ∀ s, l s → Ws s) : DecodesL l d a p := fun x hx ws hw s hs => h x hx ws (hl ws hw) s hs

/-- What is read without whitespace in front of it. -/
theorem DecodesL.tight {α} {d : P α} {a : α} {l p : Bytes → Prop} (h : DecodesL l d a p) (hl : l []) :
    ∀ x, p x → ∀ s, NoNumber s → d (x ++ s) = .ok (a, s) := fun x hx s hs => h x hx [] hl s hs

/-! ## Primitives -/

theorem parseUnsigned_text (full : Bool) {w : Nat} (v : BitVec w) :
    Decodes (parseUnsigned full w) v (NatText v.toNat) := by
  intro x hx ws hw s hs
  have := parseUnsigned_ok full (w := w) hw hx.1 hs (by rw [hx.2]; exact v.isLt)
  rw [this, hx.2, BitVec.ofNat_toNat, BitVec.setWidth_eq]

theorem parseSigned_text (full : Bool) {w : Nat} (hw0 : 0 < w) (v : BitVec w) :
    Decodes (parseSigned full w) v (IntText v.toInt) := by
  rintro x ⟨neg, num, hn, hv, rfl⟩ ws hw s hs
  have h1 := BitVec.two_mul_toInt_lt (x := v)
  have h2 := BitVec.le_two_mul_toInt (x := v)
  obtain ⟨v', h3, h4⟩ := parseSigned_ok full (w := w) hw0 (neg := neg) hw hn hs (by
    obtain ⟨k, rfl⟩ : ∃ k, w = k + 1 := ⟨w - 1, by omega⟩
    simp only [Nat.add_sub_cancel]
    have e : ((2 : Int) ^ (k + 1)) = 2 * ((2 ^ k : Nat) : Int) := by
      rw [Int.pow_succ]; push_cast; omega
    rw [e] at h1 h2
    generalize ((2 ^ k : Nat)) = K at *
    cases neg with
    | true =>
      simp only [signedValue, if_true] at hv ⊢
      omega
    | false =>
      simp only [signedValue, Bool.false_eq_true, if_false] at hv ⊢
      omega)
  rw [List.append_assoc, h3]
  rw [hv] at h4
  rw [BitVec.eq_of_toInt_eq h4]

theorem parseString_text {cs : List Char} : Decodes parseString (Utf8.encode cs) (StrText cs) := by
  rintro x ⟨l, hl, rfl⟩ ws hw s hs
  rw [parseString_iff]
  exact ⟨ws, l, cs, hw, hl, by simp, rfl⟩

theorem firstChar_encode (c : Char) (s : Bytes) :
    firstChar (Utf8.encodeChar c ++ s) = some (c.toNat, s) := by
  have hr := Utf8.char_range c
  unfold Utf8.encodeChar
  dsimp only
  generalize c.toNat = n at *
  split
  · rename_i h
    simp only [List.cons_append, List.nil_append, firstChar, BitVec.lt_def, BitVec.toNat_ofNat]
    rw [if_pos (by omega), Nat.mod_eq_of_lt (by omega)]
  · split
    · simp only [List.cons_append, List.nil_append, firstChar, BitVec.lt_def, BitVec.toNat_ofNat]
      rw [if_neg (by omega), if_pos (by omega)]
      congr 2
      omega
    · split
      · simp only [List.cons_append, List.nil_append, firstChar, BitVec.lt_def, BitVec.toNat_ofNat]
        rw [if_neg (by omega), if_neg (by omega), if_pos (by omega)]
        congr 2
        omega
      · simp only [List.cons_append, List.nil_append, firstChar, BitVec.lt_def, BitVec.toNat_ofNat]
        rw [if_neg (by omega), if_neg (by omega), if_neg (by omega)]
        congr 2
        omega

theorem singleChar_encode (c : Char) : singleChar (Utf8.encode [c]) = .ok c := by
  have h : Utf8.encode [c] = Utf8.encodeChar c ++ [] := by
    rw [Utf8.encode_cons]; rfl
  unfold singleChar
  rw [h, firstChar_encode]
  have hv : Nat.isValidChar c.toNat := c.valid
  simp only [hv, dif_pos]
  rfl

theorem floatEnds_of_noNumber (l : Musli.Spec.Float.Literal) {s : Bytes} (h : NoNumber s) : l.Ends s := by
  intro c hc
  cases s with
  | nil => cases hc
  | cons b r =>
    cases hc
    obtain ⟨h1, h2, h3, h4⟩ := h c r rfl
    exact ⟨h1, fun _ => ⟨h3, h4⟩, fun _ _ => h2⟩

theorem decF32_text (v : BitVec 32) {x s : Bytes} (hx : FloatText Musli.Spec.Float.f32 v.toNat x) (hs : NoNumber s) :
    decF32 (x ++ s) = .ok (v, s) := by
  obtain ⟨-, l, rfl, he, b, h1, h2⟩ := hx
  obtain ⟨c, h3, h4⟩ := (Dec2Flt.C86_json_float_partial l s (floatEnds_of_noNumber _ hs) he).2
  rw [Dec2Flt.C83_result_unique _ _ c b h3 h1] at h4
  unfold decF32
  rw [P.bind_ok h4]
  have : Dec2Flt.signed Musli.Spec.Float.f32 l.sign b = v.toNat := h2.symm
  rw [this, BitVec.ofNat_toNat, BitVec.setWidth_eq]
  rfl

theorem decF64_text (v : BitVec 64) {x s : Bytes} (hx : FloatText Musli.Spec.Float.f64 v.toNat x) (hs : NoNumber s) :
    decF64 (x ++ s) = .ok (v, s) := by
  obtain ⟨-, l, rfl, he, b, h1, h2⟩ := hx
  obtain ⟨c, h3, h4⟩ := (Dec2Flt.C86_json_float_partial l s (floatEnds_of_noNumber _ hs) he).1
  rw [Dec2Flt.C83_result_unique _ _ c b h3 h1] at h4
  unfold decF64
  rw [P.bind_ok h4]
  have : Dec2Flt.signed Musli.Spec.Float.f64 l.sign b = v.toNat := h2.symm
  rw [this, BitVec.ofNat_toNat, BitVec.setWidth_eq]
  rfl

theorem decPrim_text (full : Bool) (p : Prim) (v : p.Val) :
    DecodesL (Lead (.prim p)) (decPrim full p) v (PrimText p v) := by
  cases p with
  | bool =>
    intro x hx ws ⟨hw, _⟩ s hs
    have hv := primText_isValue hx
    have hx : x = if v = true then _ else _ := hx
    show decBool _ = _
    unfold decBool
    rw [lex_bind, dropWs_isValue hw hv, hx]
    cases v with
    | true => exact P.bind_ok (parseExact_ok strTrue s)
    | false => exact P.bind_ok (parseExact_ok strFalse s)
  | char =>
    intro x hx ws ⟨hw, _⟩ s hs
    show decChar _ = _
    unfold decChar
    rw [P.bind_ok (parseString_text x hx ws hw s hs), singleChar_encode]
    rfl
  | uint w => exact (parseUnsigned_text full (w := w.bits) v).lead fun _ => lead_ws
  | sint w => exact (parseSigned_text full (w := w.bits) (by cases w <;> decide) v).lead fun _ => lead_ws
  | usize => exact (parseUnsigned_text full (w := 64) v).lead fun _ => lead_ws
  | isize => exact (parseSigned_text full (w := 64) (by decide) v).lead fun _ => lead_ws
  | f32 =>
    intro x hx ws hw s hs
    rw [hw.2 rfl]
    exact decF32_text v hx hs
  | f64 =>
    intro x hx ws hw s hs
    rw [hw.2 rfl]
    exact decF64_text v hx hs

theorem noNumber_nil : NoNumber [] := by intro b r h; cases h

theorem decPrimKey_int (full : Bool) (p : Prim) (v : p.Val) {w} (hw : intWidth p = some w)
    (hp : ∀ s, parseInt full p s = decPrim full p s) {cs : List Char}
    (hc : PrimText p v (Utf8.encode cs)) : Decodes (decPrimKey full p) v (StrText cs) := by
  intro x hx ws hws s hs
  have h2 : parseInt full p (Utf8.encode cs) = .ok (v, []) := by
    have := decPrim_text full p v (Utf8.encode cs) hc [] lead_nil [] noNumber_nil
    rw [hp]
    simpa using this
  unfold decPrimKey
  rw [hw]
  show (parseString >>= _) _ = _
  rw [P.bind_ok (parseString_text x hx ws hws s hs)]
  unfold onBuffer
  rw [h2]
  rfl

theorem decPrimKey_text (full : Bool) (p : Prim) (v : p.Val) :
    Decodes (decPrimKey full p) v (PrimKey p v) := by
  cases p with
  | bool => intro x hx; exact absurd hx id
  | char => intro x hx; exact absurd hx id
  | f32 => intro x hx; exact absurd hx id
  | f64 => intro x hx; exact absurd hx id
  | uint w => rintro x ⟨cs, hc, hx⟩; exact decPrimKey_int full (.uint w) v rfl (fun _ => rfl) hc x hx
  | sint w => rintro x ⟨cs, hc, hx⟩; exact decPrimKey_int full (.sint w) v rfl (fun _ => rfl) hc x hx
  | usize => rintro x ⟨cs, hc, hx⟩; exact decPrimKey_int full .usize v rfl (fun _ => rfl) hc x hx
  | isize => rintro x ⟨cs, hc, hx⟩; exact decPrimKey_int full .isize v rfl (fun _ => rfl) hc x hx

theorem decStr_text (v : Str) :
    Decodes decStr v (fun s => ∃ cs, v.bytes = Utf8.encode cs ∧ StrText cs s) := by
  rintro x ⟨cs, hc, hx⟩ ws hw s hs
  unfold decStr
  rw [P.bind_ok (parseString_text x hx ws hw s hs), ← hc]
  unfold toStr
  rw [dif_pos v.valid]
  rfl

theorem decNameV_text (full : Bool) (n : Name) : Decodes (decNameV full n.ty) n (NameText n) := by
  intro x hx ws hw s hs
  cases n with
  | idx n => exact P.bind_ok (decPrim_text full .usize n x hx ws (lead_of rfl hw) s hs)
  | str n => exact P.bind_ok (decStr_text n x hx ws hw s hs)

theorem decNameK_text (full : Bool) (n : Name) : Decodes (decNameK full n.ty) n (NameKey n) := by
  intro x hx ws hw s hs
  cases n with
  | idx n => exact P.bind_ok (decPrimKey_text full .usize n x hx ws hw s hs)
  | str n => exact P.bind_ok (decStr_text n x hx ws hw s hs)

theorem toNonZero_ok {w : IW} (v : NonZeroVal w) : toNonZero w v.1 = .ok v := by
  unfold toNonZero
  rw [dif_pos v.2]

theorem unraw_raw (s : Bool) (w : IW) (v : BitVec w.bits) :
    nonZeroUnraw s w (nonZeroRaw s w v) = v := by
  cases s <;> rfl

theorem DecodesL.bind {α β} {d : P α} {a : α} {l p : Bytes → Prop} (h : DecodesL l d a p) {f : α → P β}
    {b : β} (hf : ∀ s, f a s = .ok (b, s)) : DecodesL l (d >>= f) b p := by
  intro x hx ws hw s hs
  rw [P.bind_ok (h x hx ws hw s hs)]
  exact hf s

theorem Decodes.bind {α β} {d : P α} {a : α} {p : Bytes → Prop} (h : Decodes d a p) {f : α → P β}
    {b : β} (hf : ∀ s, f a s = .ok (b, s)) : Decodes (d >>= f) b p := DecodesL.bind h hf

theorem decKey_text (full : Bool) : ∀ (t : Ty), t.jsonNames = true → ∀ v : t.Val,
    Decodes (decKey full t) v (KeyText t v)
  | .prim p, _, v => decPrimKey_text full p v
  | .nonZero sg w, _, v => by
    refine Decodes.bind (decPrimKey_text full _ _) ?_
    intro s
    rw [unraw_raw, toNonZero_ok]
    rfl
  | .string, _, v => decStr_text v
  | .boxed t, h, v => decKey_text full t (by simpa only [Ty.jsonNames] using h) v
  | .wrapping t, h, v => decKey_text full t (by simpa only [Ty.jsonNames] using h) v
  | .transparent t, h, v => decKey_text full t (by simpa only [Ty.jsonNames] using h) v
  | .unitEnum nt names, h, v => by
    simp only [Ty.jsonNames] at h
    obtain ⟨h1, h2⟩ := namesOk_iff h
    have h3 := h2 names[v] (List.getElem_mem _)
    have := decNameK_text full names[v]
    rw [h3] at this
    refine Decodes.bind this ?_
    intro s
    rw [findName_get names h1 v]
    rfl
  | .unit, _, _ => fun _ h => absurd h id
  | .bytes, _, _ => fun _ h => absurd h id
  | .byteArray _, _, _ => fun _ h => absurd h id
  | .option _, _, _ => fun _ h => absurd h id
  | .array _ _, _, _ => fun _ h => absurd h id
  | .vec _, _, _ => fun _ h => absurd h id
  | .set _, _, _ => fun _ h => absurd h id
  | .map _ _, _, _ => fun _ h => absurd h id
  | .tuple _, _, _ => fun _ h => absurd h id
  | .result _ _ _, _, _ => fun _ h => absurd h id
  | .unitStruct, _, _ => fun _ h => absurd h id
  | .strct _ _, _, _ => fun _ h => absurd h id
  | .packed _ _, _, _ => fun _ h => absurd h id
  | .enm _ _, _, _ => fun _ h => absurd h id

/-! ## Sequences and objects -/

theorem more_noNumber {ps : List (Bytes → Prop)} {r : Bytes} (h : More ps r) {c : Byte}
    (hc : NoNumber [c]) (s : Bytes) : NoNumber (r ++ c :: s) := by
  cases ps with
  | nil => exact noNumber_ws_cons h hc s
  | cons p ps =>
    obtain ⟨a, b, x, q, ha, hb, hx, hq, rfl⟩ := h
    rw [List.append_assoc]
    exact noNumber_ws_cons ha noNumber_comma _

/-- What is left of a list of elements: after the first one, elements are preceded by commas. -/
def After (first : Bool) (ps : List (Bytes → Prop)) (s : Bytes) : Prop :=
  if first then Separated ps s else More ps s

/-- An element is next. -/
theorem after_cons {first : Bool} {p : Bytes → Prop} {ps : List (Bytes → Prop)} {e : Bytes}
    (h : After first (p :: ps) e) : ∃ x r, p x ∧ More ps r ∧
      (IsValue x → ∀ s, nextValue first (e ++ s) = .ok (true, x ++ (r ++ s))) ∧
      ((∃ y, x = 0x22#8 :: y) → ∀ s, nextKey first (e ++ s) = .ok (true, x ++ (r ++ s))) := by
  cases first with
  | true =>
    obtain ⟨b, x, r, hb, hx, hr, rfl⟩ := h
    refine ⟨x, r, hx, hr, ?_, ?_⟩
    · intro hv s
      rw [List.append_assoc, nextValue_ws hb, List.append_assoc, nextValue_isValue hv]
    · rintro ⟨y, rfl⟩ s
      rw [List.append_assoc, nextKey_ws hb, List.append_assoc, List.cons_append, nextKey_quote]
  | false =>
    obtain ⟨a, b, x, r, ha, hb, hx, hr, rfl⟩ := h
    refine ⟨x, r, hx, hr, ?_, ?_⟩
    · intro hv s
      rw [List.append_assoc, nextValue_ws ha, List.cons_append, nextValue_comma, List.append_assoc,
        nextValue_ws hb, List.append_assoc, nextValue_isValue hv]
    · rintro ⟨y, rfl⟩ s
      rw [List.append_assoc, nextKey_ws ha, List.cons_append, nextKey_comma, List.append_assoc,
        nextKey_ws hb, List.append_assoc, List.cons_append, nextKey_quote]

theorem after_nil {first : Bool} {e : Bytes} (h : After first [] e) : Ws e := by
  cases first <;> exact h

theorem elems_after {α} {d : P α} (p : α → Bytes → Prop) (s : Bytes) :
    ∀ (l : List α), (∀ a ∈ l, ∀ x, p a x → IsValue x) →
    (∀ a ∈ l, ∀ x, p a x → ∀ s, NoNumber s → d (x ++ s) = .ok (a, s)) →
    ∀ (first : Bool) (e : Bytes), After first (l.map p) e → ∀ fuel, l.length < fuel →
      elems d fuel first (e ++ 0x5D#8 :: s) = .ok (l, 0x5D#8 :: s) := by
  intro l
  induction l with
  | nil =>
    intro _ _ first e he fuel hf
    obtain ⟨f, rfl⟩ : ∃ f, fuel = f + 1 := ⟨fuel - 1, by simp at hf; omega⟩
    unfold elems
    rw [P.bind_apply, nextValue_ws (after_nil he), nextValue_close]
    rfl
  | cons a l ih =>
    intro hv hd first e he fuel hf
    obtain ⟨f, rfl⟩ : ∃ f, fuel = f + 1 := ⟨fuel - 1, by simp at hf; omega⟩
    obtain ⟨x, r, hx, hr, h1, _⟩ := after_cons he
    unfold elems
    rw [P.bind_ok (h1 (hv a (by simp) x hx) _)]
    have h2 := hd a (by simp) x hx _ (more_noNumber hr noNumber_bracket s)
    show (d >>= _) _ = _
    rw [P.bind_ok h2]
    rw [P.bind_ok (ih (fun b hb => hv b (by simp [hb])) (fun b hb => hd b (by simp [hb])) false r hr f
      (by simp at hf; omega))]
    rfl

theorem more_length : ∀ (ps : List (Bytes → Prop)) (r : Bytes), More ps r → ps.length ≤ r.length
  | [], _, _ => by simp
  | p :: ps, r, h => by
    obtain ⟨a, b, x, q, ha, hb, hx, hq, rfl⟩ := h
    have := more_length ps q hq
    simp; omega

theorem separated_length {ps : List (Bytes → Prop)} {e : Bytes} (h : Separated ps e)
    (hne : ∀ p ∈ ps, ∀ x, p x → x ≠ []) : ps.length ≤ e.length := by
  cases ps with
  | nil => simp
  | cons p ps =>
    obtain ⟨b, x, r, hb, hx, hr, rfl⟩ := h
    have h1 := more_length ps r hr
    have h2 : 0 < x.length := List.length_pos_iff.2 (hne p (by simp) x hx)
    simp; omega

theorem isValue_ne_nil {x : Bytes} (h : IsValue x) : x ≠ [] := by
  obtain ⟨b, r, rfl, _⟩ := isValue_cons h
  simp

/-- Leaving a sequence in which there are more values. -/
theorem endSeq_after {first : Bool} {n : Nat} {e : Bytes}
    (h : After first (List.replicate n IsValue) e) (s : Bytes) :
    endSeq first (e ++ 0x5D#8 :: s) = .ok ((), s) := by
  unfold endSeq skipFuel
  have hf : 2 * (e ++ 0x5D#8 :: s).length + 2 = (2 * (e ++ 0x5D#8 :: s).length + 1) + 1 := rfl
  cases n with
  | zero =>
    rw [hf]
    exact skipElems_close _ first (after_nil h) s
  | succ n =>
    have hall : ∀ p ∈ List.replicate n IsValue, ∀ x, p x → IsValue x := by
      intro p hp x hx
      rw [(List.mem_replicate.1 hp).2] at hx; exact hx
    cases first with
    | true =>
      obtain ⟨b, x, r, hb, hx, hr, rfl⟩ := h
      exact skips (more_elements hall hb hx hr) _ (by simp; omega) true s
    | false =>
      obtain ⟨a, b, x, r, ha, hb, hx, hr, rfl⟩ := h
      rw [hf]
      have e2 : a ++ 0x2C#8 :: (b ++ (x ++ r)) ++ 0x5D#8 :: s =
        a ++ 0x2C#8 :: ((b ++ (x ++ r)) ++ 0x5D#8 :: s) := by simp
      rw [e2, skipElems_comma _ ha]
      exact skips (more_elements hall hb hx hr) _ (by simp; omega) false s

theorem endSeq_close (first : Bool) (s : Bytes) : endSeq first (0x5D#8 :: s) = .ok ((), s) :=
  endSeq_after (n := 0) (e := []) (by cases first <;> exact ws_nil) s

theorem endMap_close (first : Bool) (s : Bytes) : endMap first (0x7D#8 :: s) = .ok ((), s) :=
  skipEntries_close _ first ws_nil s

theorem arr_ws {ps : List (Bytes → Prop)} {x ws s : Bytes} (h : Arr ps x) (hw : Ws ws) :
    ∃ e, Separated ps e ∧ expect .openBracket (ws ++ (x ++ s)) = .ok ((), e ++ 0x5D#8 :: s) := by
  obtain ⟨e, he, rfl⟩ := h
  refine ⟨e, he, ?_⟩
  have := expect_ok (t := .openBracket) rfl hw (e ++ 0x5D#8 :: s)
  simpa using this

theorem obj_ws {ps : List (Bytes → Prop)} {x ws s : Bytes} (h : Obj ps x) (hw : Ws ws) :
    ∃ e, Separated ps e ∧ expect .openBrace (ws ++ (x ++ s)) = .ok ((), e ++ 0x7D#8 :: s) := by
  obtain ⟨e, he, rfl⟩ := h
  refine ⟨e, he, ?_⟩
  have := expect_ok (t := .openBrace) rfl hw (e ++ 0x7D#8 :: s)
  simpa using this

/-- All elements of an array. -/
theorem elems_arr {α} {d : P α} {p : α → Bytes → Prop} {l : List α}
    (hv : ∀ a ∈ l, ∀ x, p a x → IsValue x) (hd : ∀ a ∈ l, ∀ x, p a x → ∀ s, NoNumber s → d (x ++ s) = .ok (a, s))
    {e : Bytes} (he : Separated (l.map p) e) (s : Bytes) :
    allElems d (e ++ 0x5D#8 :: s) = .ok (l, 0x5D#8 :: s) := by
  refine elems_after p s l hv hd true e he _ ?_
  have := separated_length he (by
    intro q hq x hx
    obtain ⟨a, ha, rfl⟩ := List.mem_map.1 hq
    exact isValue_ne_nil (hv a ha x hx))
  simp at this ⊢
  omega

theorem sequence_text {α} {d : P α} {p : α → Bytes → Prop} {l : List α}
    (hv : ∀ a ∈ l, ∀ x, p a x → IsValue x) (hd : ∀ a ∈ l, ∀ x, p a x → ∀ s, NoNumber s → d (x ++ s) = .ok (a, s)) :
    Decodes (sequence d) l (Arr (l.map p)) := by
  intro x hx ws hw s hs
  obtain ⟨e, he, h1⟩ := arr_ws hx hw (s := s)
  unfold sequence
  rw [P.bind_ok h1, P.bind_ok (elems_arr hv hd he s), P.bind_ok (endSeq_close false s)]
  rfl

theorem entries_after {σ ε} {body : σ → P σ} (step : σ → ε → σ) (p : ε → Bytes → Prop) (s : Bytes) :
    ∀ (es : List ε), (∀ a ∈ es, ∀ x, p a x → ∃ y, x = 0x22#8 :: y) →
    (∀ a ∈ es, ∀ st x, p a x → ∀ s, NoNumber s → body st (x ++ s) = .ok (step st a, s)) →
    ∀ (first : Bool) (st : σ) (e : Bytes), After first (es.map p) e → ∀ fuel, es.length < fuel →
      entries body fuel first st (e ++ 0x7D#8 :: s) = .ok ((es.foldl step st, false), 0x7D#8 :: s) := by
  intro es
  induction es with
  | nil =>
    intro _ _ first st e he fuel hf
    obtain ⟨f, rfl⟩ : ∃ f, fuel = f + 1 := ⟨fuel - 1, by simp at hf; omega⟩
    unfold entries
    rw [P.bind_apply, nextKey_ws (after_nil he), nextKey_close]
    rfl
  | cons a l ih =>
    intro hv hd first st e he fuel hf
    obtain ⟨f, rfl⟩ : ∃ f, fuel = f + 1 := ⟨fuel - 1, by simp at hf; omega⟩
    obtain ⟨x, r, hx, hr, _, h1⟩ := after_cons he
    unfold entries
    rw [P.bind_ok (h1 (hv a (by simp) x hx) _)]
    show (body st >>= _) _ = _
    rw [P.bind_ok (hd a (by simp) st x hx _ (more_noNumber hr noNumber_brace s))]
    exact ih (fun b hb => hv b (by simp [hb])) (fun b hb => hd b (by simp [hb])) false _ r hr f
      (by simp at hf; omega)

theorem object_text {σ ε} {body : σ → P σ} (step : σ → ε → σ) (p : ε → Bytes → Prop) {es : List ε}
    (hv : ∀ a ∈ es, ∀ x, p a x → ∃ y, x = 0x22#8 :: y)
    (hb : ∀ a ∈ es, ∀ st x, p a x → ∀ s, NoNumber s → body st (x ++ s) = .ok (step st a, s))
    (st : σ) : Decodes (object body st) (es.foldl step st) (Obj (es.map p)) := by
  intro x hx ws hw s hs
  obtain ⟨e, he, h1⟩ := obj_ws hx hw (s := s)
  have hl := separated_length he (by
    intro q hq x hx
    obtain ⟨a, ha, rfl⟩ := List.mem_map.1 hq
    obtain ⟨y, rfl⟩ := hv a ha x hx
    simp)
  have h2 : allEntries body st (e ++ 0x7D#8 :: s) = _ :=
    entries_after step p s es hv hb true st e he _ (by simp at hl ⊢; omega)
  unfold object
  rw [P.bind_ok h1, P.bind_ok h2]
  show (endMap false >>= _) _ = _
  rw [P.bind_ok (endMap_close false s)]
  rfl

/-- A member: its key and its value. -/
theorem member_textL {α} {k : Bytes → Prop} {dk : P α} {a : α} {l p : Bytes → Prop}
    (hk : Decodes dk a k) {β} (f : α → P β) {b : β}
    (hd : DecodesL l (f a) b p) : ∀ x, MemberL k l p x → ∀ ws, Ws ws → ∀ s, NoNumber s →
      (do let a ← dk; expect .colon; f a) (ws ++ (x ++ s)) = .ok (b, s) := by
  rintro x ⟨kx, c, e, v, hkx, hc, he, hv, rfl⟩ ws hw s hs
  have h1 := hk kx hkx ws hw (c ++ 0x3A#8 :: (e ++ (v ++ s))) (noNumber_ws_cons hc (by
    intro b r h; cases h; unfold Digit; decide) _)
  have e1 : ws ++ (kx ++ (c ++ 0x3A#8 :: (e ++ v)) ++ s) =
    ws ++ (kx ++ (c ++ 0x3A#8 :: (e ++ (v ++ s)))) := by simp
  rw [e1, P.bind_ok h1, P.bind_ok (expect_ok (t := .colon) rfl hc _)]
  exact hd v hv e he s hs

theorem member_text {α} {k : Bytes → Prop} {dk : P α} {a : α} {p : Bytes → Prop}
    (hk : Decodes dk a k) {β} (f : α → P β) {b : β}
    (hd : Decodes (f a) b p) : ∀ x, Member k p x → ∀ ws, Ws ws → ∀ s, NoNumber s →
      (do let a ← dk; expect .colon; f a) (ws ++ (x ++ s)) = .ok (b, s) := member_textL hk f hd

theorem memberL_quote {k l p : Bytes → Prop} (hk : ∀ s, k s → ∃ cs, StrText cs s) {x : Bytes}
    (h : MemberL k l p x) : ∃ y, x = 0x22#8 :: y := by
  obtain ⟨kx, a, b, v, hkx, _, _, _, rfl⟩ := h
  obtain ⟨cs, l, _, rfl⟩ := hk kx hkx
  exact ⟨_, rfl⟩

theorem member_quote {k p : Bytes → Prop} (hk : ∀ s, k s → ∃ cs, StrText cs s) {x : Bytes}
    (h : Member k p x) : ∃ y, x = 0x22#8 :: y := by
  obtain ⟨kx, a, b, v, hkx, _, _, _, rfl⟩ := h
  obtain ⟨cs, l, _, rfl⟩ := hk kx hkx
  exact ⟨_, rfl⟩

end Musli.Json
