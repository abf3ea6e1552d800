import Verif.Proofs.Json.DecodeTy
/-!
# Encoding yields a text that denotes the value
-/
set_option linter.unusedSectionVars false
namespace Musli.Json
open Musli Spec

theorem natText_fmt {w : Nat} (v : BitVec w) : NatText v.toNat (fmtUnsigned v) :=
  ⟨decimal_numeral _, value_decimal _⟩

theorem intText_fmt {w : Nat} (v : BitVec w) : IntText v.toInt (fmtSigned v) := by
  rw [fmtSigned_eq]
  refine ⟨_, _, decimal_numeral _, ?_, rfl⟩
  rw [value_decimal]
  unfold signedValue
  by_cases h : v.toInt < 0
  · rw [if_pos (by simpa using h)]; omega
  · rw [if_neg (by simpa using h)]; omega

theorem strText_encode (cs : List Char) : StrText cs (encodeString (Utf8.encode cs)) := by
  obtain ⟨l, hl, he⟩ := encodeString_eq cs
  exact ⟨l, hl, he⟩

theorem strText_str (v : Str) :
    ∃ cs, v.bytes = Utf8.encode cs ∧ StrText cs (encodeString v.bytes) := by
  obtain ⟨cs, h⟩ := (Utf8.valid_iff v.bytes).1 v.valid
  exact ⟨cs, h, by rw [h]; exact strText_encode cs⟩

theorem fmtInt_text {p : Prim} {v : p.Val} {s : Bytes} (h : fmtInt p v = .ok s) : PrimText p v s := by
  cases p with
  | uint w => cases h; exact natText_fmt (w := w.bits) v
  | sint w => cases h; exact intText_fmt (w := w.bits) v
  | usize => cases h; exact natText_fmt (w := 64) v
  | isize => cases h; exact intText_fmt (w := 64) v
  | bool => cases h
  | char => cases h
  | f32 => cases h
  | f64 => cases h

theorem encPrim_text {p : Prim} {v : p.Val} {s : Bytes} (h : encPrim p v = .ok s) : PrimText p v s := by
  cases p with
  | bool => cases h; rfl
  | char =>
    cases h
    have := strText_encode [v]
    rw [Utf8.encode_cons] at this
    exact (List.append_nil (Utf8.encodeChar v) ▸ this : StrText [v] _)
  | uint w => exact fmtInt_text h
  | sint w => exact fmtInt_text h
  | usize => exact fmtInt_text h
  | isize => exact fmtInt_text h
  | f32 => exact fmtInt_text h
  | f64 => exact fmtInt_text h

/-- ASCII text is the encoding of characters. -/
theorem ascii_encode : ∀ (l : Bytes), (∀ b ∈ l, 0x20 ≤ b.toNat ∧ b.toNat < 0x80 ∧ b.toNat ≠ 0x22 ∧ b.toNat ≠ 0x5C) →
    ∃ cs, l = Utf8.encode cs ∧ Lit l cs
  | [], _ => ⟨[], rfl, Lit.nil⟩
  | b :: l, h => by
    obtain ⟨cs, h1, h2⟩ := ascii_encode l (fun x hx => h x (by simp [hx]))
    obtain ⟨h3, h4, h5, h6⟩ := h b (by simp)
    have hc : (Char.ofNat b.toNat).toNat = b.toNat := by
      unfold Char.ofNat
      rw [dif_pos (by left; omega)]
      simp [Char.ofNatAux, Char.toNat]
    have he : Utf8.encodeChar (Char.ofNat b.toNat) = [b] := by
      rw [encodeChar_ascii (by omega), hc, BitVec.ofNat_toNat, BitVec.setWidth_eq]
    refine ⟨Char.ofNat b.toNat :: cs, by rw [Utf8.encode_cons, he, ← h1]; rfl, ?_⟩
    have := Lit.plain (c := Char.ofNat b.toNat) (by omega) (by rw [char_ne_of, hc]; exact h5)
      (by rw [char_ne_of, hc]; exact h6) h2
    rw [he] at this
    exact this

theorem digits_ascii {l : Bytes} (h : Digits l) : ∀ b ∈ l,
    0x20 ≤ b.toNat ∧ b.toNat < 0x80 ∧ b.toNat ≠ 0x22 ∧ b.toNat ≠ 0x5C := by
  intro b hb
  have := h b hb
  unfold Digit at this
  omega

theorem fmtInt_ascii {p : Prim} {v : p.Val} {s : Bytes} (h : fmtInt p v = .ok s) : ∀ b ∈ s,
    0x20 ≤ b.toNat ∧ b.toNat < 0x80 ∧ b.toNat ≠ 0x22 ∧ b.toNat ≠ 0x5C := by
  have hs : ∀ {w : Nat} (v : BitVec w), ∀ b ∈ fmtSigned v,
      0x20 ≤ b.toNat ∧ b.toNat < 0x80 ∧ b.toNat ≠ 0x22 ∧ b.toNat ≠ 0x5C := by
    intro w v b hb
    rw [fmtSigned_eq, List.mem_append] at hb
    rcases hb with hb | hb
    · unfold sign at hb
      split at hb
      · simp at hb; subst hb; decide
      · simp at hb
    · exact digits_ascii (decimal_spec _).1 b hb
  cases p with
  | uint w => cases h; exact digits_ascii (decimal_spec _).1
  | sint w => cases h; exact hs (w := w.bits) v
  | usize => cases h; exact digits_ascii (decimal_spec _).1
  | isize => cases h; exact hs (w := 64) v
  | bool => cases h
  | char => cases h
  | f32 => cases h
  | f64 => cases h

theorem encPrimKey_text {p : Prim} {v : p.Val} {s : Bytes} (h : encPrimKey p v = .ok s) :
    PrimKey p v s := by
  unfold encPrimKey at h
  cases hb : fmtInt p v with
  | error e => rw [hb] at h; cases h
  | ok b =>
    rw [hb] at h
    cases h
    obtain ⟨cs, h1, h2⟩ := ascii_encode b (fmtInt_ascii hb)
    have h3 := fmtInt_text hb
    rw [h1] at h3
    cases p with
    | bool => cases hb
    | char => cases hb
    | f32 => cases hb
    | f64 => cases hb
    | _ => exact ⟨cs, h3, b, h2, rfl⟩

theorem encNameK_text {n : Name} {s : Bytes} (h : encNameK n = .ok s) : NameKey n s := by
  cases n with
  | idx n =>
    have := encPrimKey_text (p := .usize) (v := n) (s := s) h
    exact this
  | str n => cases h; exact strText_str n

theorem encNameV_text {n : Name} {s : Bytes} (h : encNameV n = .ok s) : NameText n s := by
  cases n with
  | idx n => cases h; exact natText_fmt n
  | str n => cases h; exact strText_str n

theorem encKey_text : ∀ (t : Ty) (v : t.Val) (s : Bytes), encKey t v = .ok s → KeyText t v s
  | .prim p, v, s, h => encPrimKey_text h
  | .nonZero _ _, v, s, h => encPrimKey_text h
  | .string, v, s, h => by cases h; exact strText_str v
  | .boxed t, v, s, h => encKey_text t v s h
  | .wrapping t, v, s, h => encKey_text t v s h
  | .transparent t, v, s, h => encKey_text t v s h
  | .unitEnum _ names, v, s, h => encNameK_text h
  | .unit, _, _, h => by cases h
  | .bytes, _, _, h => by cases h
  | .byteArray _, _, _, h => by cases h
  | .option _, _, _, h => by cases h
  | .array _ _, _, _, h => by cases h
  | .vec _, _, _, h => by cases h
  | .set _, _, _, h => by cases h
  | .map _ _, _, _, h => by cases h
  | .tuple _, _, _, h => by cases h
  | .result _ _ _, _, _, h => by cases h
  | .unitStruct, _, _, h => by cases h
  | .strct _ _, _, _, h => by cases h
  | .packed _ _, _, _, h => by cases h
  | .enm _ _, _, _, h => by cases h

/-! ## Sequences and objects -/

/-- One more element. -/
theorem after_consI {first : Bool} {p : Bytes → Prop} {ps : List (Bytes → Prop)} {c x r : Bytes}
    (hc : (if first then .ok [] else .ok [0x2C#8] : Enc) = .ok c) (hx : p x) (hr : After false ps r) :
    After first (p :: ps) (c ++ (x ++ r)) := by
  cases first with
  | true => cases hc; exact ⟨[], x, r, ws_nil, hx, hr, rfl⟩
  | false => cases hc; exact ⟨[], [], x, r, ws_nil, ws_nil, hx, hr, rfl⟩

theorem after_nilI (first : Bool) : After first [] [] := by
  cases first <;> exact ws_nil

theorem sepAll_after {α} {f : α → Enc} {p : α → Bytes → Prop} :
    ∀ (l : List α), (∀ a ∈ l, ∀ x, f a = .ok x → p a x) → ∀ (first : Bool) (s : Bytes),
      sepAll f first l = .ok s → After first (l.map p) s
  | [], _, first, s, h => by cases h; exact after_nilI first
  | a :: l, hp, first, s, h => by
    obtain ⟨c, y, hc, hy, rfl⟩ := Enc.seq_eq_ok.mp h
    obtain ⟨x, r, hx, hr, rfl⟩ := Enc.seq_eq_ok.mp hy
    exact after_consI hc (hp a (by simp) x hx)
      (sepAll_after l (fun b hb => hp b (by simp [hb])) false r hr)

theorem brackets_arr {ps : List (Bytes → Prop)} {b : Enc} {s : Bytes} (h : brackets b = .ok s)
    (hb : ∀ e, b = .ok e → After true ps e) : Arr ps s := by
  obtain ⟨c, y, hc, hy, rfl⟩ := Enc.seq_eq_ok.mp h
  obtain ⟨e, d, he, hd, rfl⟩ := Enc.seq_eq_ok.mp hy
  cases hc; cases hd
  exact ⟨e, hb e he, rfl⟩

theorem braces_obj {ps : List (Bytes → Prop)} {b : Enc} {s : Bytes} (h : braces b = .ok s)
    (hb : ∀ e, b = .ok e → After true ps e) : Obj ps s := by
  obtain ⟨c, y, hc, hy, rfl⟩ := Enc.seq_eq_ok.mp h
  obtain ⟨e, d, he, hd, rfl⟩ := Enc.seq_eq_ok.mp hy
  cases hc; cases hd
  exact ⟨e, hb e he, rfl⟩

theorem member_encL {k l p : Bytes → Prop} (hl : l []) {a b : Enc} {s : Bytes}
    (h : (a +> .ok [0x3A#8] +> b) = .ok s) (hk : ∀ x, a = .ok x → k x) (hv : ∀ x, b = .ok x → p x) :
    MemberL k l p s := by
  obtain ⟨x, y, hx, hy, rfl⟩ := Enc.seq_eq_ok.mp h
  obtain ⟨c, z, hc, hz, rfl⟩ := Enc.seq_eq_ok.mp hy
  cases hc
  exact ⟨x, [], [], z, hk x hx, ws_nil, hl, hv z hz, rfl⟩

theorem member_enc {k p : Bytes → Prop} {a b : Enc} {s : Bytes}
    (h : (a +> .ok [0x3A#8] +> b) = .ok s) (hk : ∀ x, a = .ok x → k x) (hv : ∀ x, b = .ok x → p x) :
    Member k p s := member_encL ws_nil h hk hv

theorem bytesBody_after : ∀ (l : Bytes) (b : Byte),
    Separated ((b :: l).map (fun b => NatText b.toNat)) (bytesBody (b :: l))
  | [], b => ⟨[], _, [], ws_nil, natText_fmt b, ws_nil, by simp [bytesBody]⟩
  | c :: l, b => by
    obtain ⟨a, x, r, ha, hx, hr, he⟩ := bytesBody_after l c
    refine ⟨[], fmtUnsigned b, 0x2C#8 :: bytesBody (c :: l), ws_nil, natText_fmt b, ?_, rfl⟩
    exact ⟨[], a, x, r, ws_nil, ha, hx, hr, by rw [he]; rfl⟩

theorem encBytes_arr {l s : Bytes} (h : encBytes l = .ok s) :
    Arr (l.map (fun b => NatText b.toNat)) s := by
  cases h
  refine ⟨_, ?_, rfl⟩
  cases l with
  | nil => exact ws_nil
  | cons b l => exact bytesBody_after l b

theorem not_null_of_head {b : Byte} (hb : b ≠ 0x6E#8) {r : Bytes} :
    b :: r ≠ [0x6E#8, 0x75#8, 0x6C#8, 0x6C#8] := by
  intro h; cases h; exact hb rfl

theorem number_head {b : Byte} (h : Token.ofByte b = .number) : b ≠ 0x6E#8 := by
  rintro rfl; exact absurd h (by decide)

theorem strText_not_null {cs : List Char} {s : Bytes} (h : StrText cs s) : s ≠ strNull := by
  obtain ⟨l, _, rfl⟩ := h
  exact not_null_of_head (by decide)

theorem intText_not_null {n : Int} {s : Bytes} (h : IntText n s) : s ≠ strNull := by
  obtain ⟨neg, num, hn, _, rfl⟩ := h
  obtain ⟨b, r, rfl, hb⟩ := numeral_cons hn
  cases neg with
  | true => exact not_null_of_head (by decide)
  | false => exact not_null_of_head (number_head (digit_token hb))

theorem natText_not_null {n : Nat} {s : Bytes} (h : NatText n s) : s ≠ strNull :=
  intText_not_null (n := n) ⟨false, s, h.1, by simp [signedValue, h.2], rfl⟩

theorem number_not_null {s : Bytes} (h : Number s) : s ≠ strNull := by
  obtain ⟨b, r, rfl, hb⟩ := number_cons h
  exact not_null_of_head (number_head hb)

theorem primText_not_null {p : Prim} {v : p.Val} {s : Bytes} (h : PrimText p v s) : s ≠ strNull := by
  cases p with
  | bool =>
    have h : s = if v = true then _ else _ := h
    rw [h]
    split <;> exact not_null_of_head (by decide)
  | char => exact strText_not_null h
  | uint w => exact natText_not_null h
  | sint w => exact intText_not_null h
  | usize => exact natText_not_null h
  | isize => exact intText_not_null h
  | f32 => exact number_not_null h.1
  | f64 => exact number_not_null h.1

theorem arr_not_null {ps : List (Bytes → Prop)} {s : Bytes} (h : Arr ps s) : s ≠ strNull := by
  obtain ⟨e, _, rfl⟩ := h
  exact not_null_of_head (by decide)

theorem obj_not_null {ps : List (Bytes → Prop)} {s : Bytes} (h : Obj ps s) : s ≠ strNull := by
  obtain ⟨e, _, rfl⟩ := h
  exact not_null_of_head (by decide)

section
variable (env : Env)

theorem denotes_not_null : ∀ (t : Ty), t.nullable = false → ∀ (v : t.Val) (s : Bytes),
    Denotes env t v s → s ≠ strNull
  | .prim _, _, v, s, h => by simp only [Denotes] at h; exact primText_not_null h
  | .nonZero _ _, _, v, s, h => by simp only [Denotes] at h; exact primText_not_null h
  | .unit, hn, _, _, _ => by simp [Ty.nullable] at hn
  | .bytes, _, v, s, h => by simp only [Denotes] at h; exact arr_not_null h
  | .string, _, v, s, h => by
    simp only [Denotes] at h
    obtain ⟨cs, _, h⟩ := h
    exact strText_not_null h
  | .byteArray _, _, v, s, h => by simp only [Denotes] at h; exact arr_not_null h
  | .option t, hn, _, s, h => by simp [Ty.nullable] at hn
  | .array _ t, _, v, s, h => by simp only [Denotes] at h; exact arr_not_null h
  | .vec t, _, v, s, h => by simp only [Denotes] at h; exact arr_not_null h
  | .set t, _, v, s, h => by simp only [Denotes] at h; exact arr_not_null h
  | .map k t, _, v, s, h => by simp only [Denotes] at h; exact obj_not_null h
  | .tuple ts, _, v, s, h => by
    simp only [Denotes] at h
    obtain ⟨n, h⟩ := h
    exact arr_not_null h
  | .result nt t u, _, .inl v, s, h => by simp only [Denotes] at h; exact obj_not_null h
  | .result nt t u, _, .inr v, s, h => by simp only [Denotes] at h; exact obj_not_null h
  | .boxed t, hn, v, s, h => by
    simp only [Denotes] at h
    exact denotes_not_null t (by simpa [Ty.nullable] using hn) v s h
  | .wrapping t, hn, v, s, h => by
    simp only [Denotes] at h
    exact denotes_not_null t (by simpa [Ty.nullable] using hn) v s h
  | .transparent t, hn, v, s, h => by
    simp only [Denotes] at h
    exact denotes_not_null t (by simpa [Ty.nullable] using hn) v s h
  | .unitStruct, _, v, s, h => by
    simp only [Denotes] at h
    obtain ⟨_, r, rfl⟩ := h
    exact not_null_of_head (by decide)
  | .strct nt fs, _, v, s, h => by
    simp only [Denotes] at h
    obtain ⟨es, _, _, h⟩ := h
    exact obj_not_null h
  | .packed _ fs, _, v, s, h => by
    simp only [Denotes] at h
    obtain ⟨n, h⟩ := h
    exact arr_not_null h
  | .unitEnum _ names, _, v, s, h => by
    simp only [Denotes] at h
    revert h
    cases names[v] with
    | idx n => exact natText_not_null
    | str n => rintro ⟨cs, _, h⟩; exact strText_not_null h
  | .enm _ vs, _, v, s, h => by simp only [Denotes] at h; exact obj_not_null h

/-- The members for the fields that are written. -/
theorem entries_members (known : (fs : Fields) → fs.Known → Bytes → Prop) {n d sk t} {fs : Fields}
    (v : (Fields.cons n d sk t fs).Val)
    (hk : ∀ k, known (.cons n d sk t fs) (.inr k) = known fs k) :
    (((Fields.cons n d sk t fs).entries env v).map
      (fun k => reprEntry (.cons n d sk t fs) (known (.cons n d sk t fs)) (.inl k))) =
    (if fieldPresent env sk t v.1 then
      [MemberL (NameKey n) (Lead t) (known (.cons n d sk t fs) (.inl v.1))] else []) ++
    ((fs.entries env v.2).map (fun k => reprEntry fs (known fs) (.inl k))) := by
  simp only [Fields.entries, List.map_append, List.map_map]
  congr 1
  · split <;> rfl
  · apply List.map_congr_left
    intro k _
    show MemberL (NameKey (fs.keyOf k)) (leadKnown fs k) (known (.cons n d sk t fs) (.inr k)) = _
    rw [hk]
    rfl

mutual

theorem encJ_denotes : ∀ (t : Ty), t.jsonOk = true → t.jsonNames = true → t.envOk env →
    ∀ (v : t.Val) (s : Bytes), encJ env t v = .ok s → Denotes env t v s
  | .prim _, _, _, _, v, s, h => by
    simp only [encJ] at h; simp only [Denotes]; exact encPrim_text h
  | .nonZero _ _, _, _, _, v, s, h => by
    simp only [encJ] at h; simp only [Denotes]; exact encPrim_text h
  | .unit, _, _, _, v, s, h => by
    simp only [encJ] at h; simp only [Denotes]; cases h; exact Text.null
  | .bytes, _, _, _, v, s, h => by
    simp only [encJ] at h; simp only [Denotes]; exact encBytes_arr h
  | .string, _, _, _, v, s, h => by
    simp only [encJ] at h; simp only [Denotes]; cases h; exact strText_str v
  | .byteArray _, _, _, _, v, s, h => by
    simp only [encJ] at h; simp only [Denotes]; exact encBytes_arr h
  | .option t, _, _, _, none, s, h => by
    simp only [encJ] at h; simp only [Denotes]; cases h; rfl
  | .option t, ho, hn, he, some x, s, h => by
    simp only [encJ] at h
    simp only [Denotes]
    simp only [Ty.jsonOk, Bool.and_eq_true, Bool.not_eq_true'] at ho
    have := encJ_denotes t ho.2 (by simpa only [Ty.jsonNames] using hn)
      (by simpa only [Ty.envOk] using he) x s h
    exact ⟨this, denotes_not_null env t ho.1 x s this⟩
  | .array _ t, ho, hn, he, v, s, h => by
    simp only [encJ] at h
    simp only [Denotes]
    refine brackets_arr h fun e h => sepAll_after v.1 ?_ true e h
    intro a _ x hx
    exact encJ_denotes t (by simpa only [Ty.jsonOk] using ho) (by simpa only [Ty.jsonNames] using hn)
      (by simpa only [Ty.envOk] using he) a x hx
  | .vec t, ho, hn, he, v, s, h => by
    simp only [encJ] at h
    simp only [Denotes]
    refine brackets_arr h fun e h => sepAll_after v ?_ true e h
    intro a _ x hx
    exact encJ_denotes t (by simpa only [Ty.jsonOk] using ho) (by simpa only [Ty.jsonNames] using hn)
      (by simpa only [Ty.envOk] using he) a x hx
  | .set t, ho, hn, he, v, s, h => by
    simp only [encJ] at h
    simp only [Denotes]
    refine brackets_arr h fun e h => sepAll_after v ?_ true e h
    intro a _ x hx
    exact encJ_denotes t (by simpa only [Ty.jsonOk] using ho) (by simpa only [Ty.jsonNames] using hn)
      (by simpa only [Ty.envOk] using he) a x hx
  | .map k t, ho, hn, he, v, s, h => by
    simp only [encJ] at h
    simp only [Denotes]
    simp only [Ty.jsonNames, Bool.and_eq_true] at hn
    simp only [Ty.envOk] at he
    simp only [Ty.jsonOk] at ho
    refine braces_obj h fun e h => sepAll_after v ?_ true e h
    intro a _ x hx
    exact member_encL lead_nil hx (fun x hx => encKey_text k a.1 x hx)
      (fun x hx => encJ_denotes t ho hn.2 he.2 a.2 x hx)
  | .tuple ts, ho, hn, he, v, s, h => by
    simp only [encJ] at h
    simp only [Denotes]
    simp only [Ty.jsonOk] at ho
    simp only [Ty.jsonNames] at hn
    simp only [Ty.envOk] at he
    refine ⟨0, brackets_arr h fun e h => ?_⟩
    rw [List.replicate_zero, List.append_nil]
    exact encTysJ_denotes ts ho hn he v true e h
  | .result nt t u, ho, hn, he, .inl v, s, h => by
    simp only [encJ] at h
    simp only [Denotes]
    simp only [Ty.jsonOk, Bool.and_eq_true] at ho
    simp only [Ty.jsonNames, Bool.and_eq_true] at hn
    simp only [Ty.envOk] at he
    refine braces_obj h fun e h => ?_
    exact ⟨[], e, [], ws_nil, member_encL lead_nil h (fun x hx => encNameK_text hx)
      (fun x hx => encJ_denotes t ho.1 hn.1 he.1 v x hx), ws_nil, by simp⟩
  | .result nt t u, ho, hn, he, .inr v, s, h => by
    simp only [encJ] at h
    simp only [Denotes]
    simp only [Ty.jsonOk, Bool.and_eq_true] at ho
    simp only [Ty.jsonNames, Bool.and_eq_true] at hn
    simp only [Ty.envOk] at he
    refine braces_obj h fun e h => ?_
    exact ⟨[], e, [], ws_nil, member_encL lead_nil h (fun x hx => encNameK_text hx)
      (fun x hx => encJ_denotes u ho.2 hn.2 he.2 v x hx), ws_nil, by simp⟩
  | .boxed t, ho, hn, he, v, s, h => by
    simp only [encJ] at h
    simp only [Denotes]
    exact encJ_denotes t (by simpa only [Ty.jsonOk] using ho) (by simpa only [Ty.jsonNames] using hn)
      (by simpa only [Ty.envOk] using he) v s h
  | .wrapping t, ho, hn, he, v, s, h => by
    simp only [encJ] at h
    simp only [Denotes]
    exact encJ_denotes t (by simpa only [Ty.jsonOk] using ho) (by simpa only [Ty.jsonNames] using hn)
      (by simpa only [Ty.envOk] using he) v s h
  | .transparent t, ho, hn, he, v, s, h => by
    simp only [encJ] at h
    simp only [Denotes]
    exact encJ_denotes t (by simpa only [Ty.jsonOk] using ho) (by simpa only [Ty.jsonNames] using hn)
      (by simpa only [Ty.envOk] using he) v s h
  | .unitStruct, _, _, _, v, s, h => by
    simp only [encJ] at h
    simp only [Denotes]
    cases h
    exact ⟨Text.emptyObject (ws := []) ws_nil, _, rfl⟩
  | .strct nt fs, ho, hn, he, v, s, h => by
    simp only [encJ] at h
    simp only [Denotes]
    simp only [Ty.jsonOk, Bool.and_eq_true] at ho
    simp only [Ty.jsonNames, Bool.and_eq_true] at hn
    simp only [Ty.envOk] at he
    refine ⟨(fs.entries env v).map .inl, ?_, ?_, ?_⟩
    · intro n hn
      obtain ⟨_, _, h⟩ := List.mem_map.1 hn
      cases h
    · have : (List.map Sum.inl (fs.entries env v)).filterMap
          (Sum.getLeft? (α := fs.Known) (β := Name)) = fs.entries env v := by
        rw [List.filterMap_map]
        exact List.filterMap_some
      rw [this]
      exact assemble_perm env fs ho.1 he v _ (List.Perm.refl _)
    · rw [List.map_map]
      exact braces_obj h fun e h => encFieldsJ_denotes fs ho.2 hn.2 he v true e h
  | .packed _ fs, ho, hn, he, v, s, h => by
    simp only [encJ] at h
    simp only [Denotes]
    simp only [Ty.jsonOk, Bool.and_eq_true] at ho
    simp only [Ty.jsonNames] at hn
    simp only [Ty.envOk] at he
    refine ⟨0, brackets_arr h fun e h => ?_⟩
    rw [List.replicate_zero, List.append_nil]
    exact encPackJ_denotes fs ho.2 ho.1 hn he v true e h
  | .unitEnum _ names, _, _, _, v, s, h => by
    simp only [encJ] at h; simp only [Denotes]; exact encNameV_text h
  | .enm _ vs, ho, hn, he, v, s, h => by
    simp only [encJ] at h
    simp only [Denotes]
    simp only [Ty.jsonOk] at ho
    simp only [Ty.jsonNames, Bool.and_eq_true] at hn
    simp only [Ty.envOk] at he
    refine braces_obj h fun e h => ?_
    exact ⟨[], e, [], ws_nil, encVariantsJ_denotes vs ho hn.2 he v e h, ws_nil, by simp⟩

theorem encTysJ_denotes : ∀ (ts : Tys), ts.jsonOk = true → ts.jsonNames = true → ts.envOk env →
    ∀ (v : ts.Val) (first : Bool) (s : Bytes), encTysJ env ts first v = .ok s →
      After first (reprTys env ts v) s
  | .nil, _, _, _, v, first, s, h => by
    simp only [encTysJ] at h; cases h; simp only [reprTys]; exact after_nilI first
  | .cons t ts, ho, hn, he, v, first, s, h => by
    simp only [encTysJ] at h
    simp only [reprTys]
    simp only [Tys.jsonOk, Bool.and_eq_true] at ho
    simp only [Tys.jsonNames, Bool.and_eq_true] at hn
    simp only [Tys.envOk] at he
    obtain ⟨c, y, hc, hy, rfl⟩ := Enc.seq_eq_ok.mp h
    obtain ⟨x, r, hx, hr, rfl⟩ := Enc.seq_eq_ok.mp hy
    exact after_consI hc (encJ_denotes t ho.1 hn.1 he.1 v.1 x hx)
      (encTysJ_denotes ts ho.2 hn.2 he.2 v.2 false r hr)

theorem encFieldsJ_denotes : ∀ (fs : Fields), fs.jsonOk = true → fs.jsonNames = true →
    fs.envOk env → ∀ (v : fs.Val) (first : Bool) (s : Bytes), encFieldsJ env fs first v = .ok s →
      After first ((fs.entries env v).map (reprEntry fs (reprKnown env fs) ∘ Sum.inl)) s
  | .nil, _, _, _, v, first, s, h => by
    simp only [encFieldsJ] at h; cases h; exact after_nilI first
  | .cons n d sk t fs, ho, hn, he, v, first, s, h => by
    simp only [encFieldsJ] at h
    simp only [Fields.jsonOk, Bool.and_eq_true] at ho
    simp only [Fields.jsonNames, Bool.and_eq_true] at hn
    simp only [Fields.envOk] at he
    have hm := entries_members env (fun fs => reprKnown env fs) (n := n) (d := d) v
      (fun k => by funext s; simp only [reprKnown])
    have hm' : ((Fields.cons n d sk t fs).entries env v).map
      (reprEntry (.cons n d sk t fs) (reprKnown env (.cons n d sk t fs)) ∘ Sum.inl) = _ := hm
    rw [hm']
    cases hp : fieldPresent env sk t v.1 with
    | false =>
      rw [hp] at h
      simp only [Bool.false_eq_true, if_false, List.nil_append] at h ⊢
      exact encFieldsJ_denotes fs ho.2 hn.2 he.2.2 v.2 first s h
    | true =>
      rw [hp] at h
      simp only [if_true, List.cons_append, List.nil_append] at h ⊢
      obtain ⟨c, y, hc, hy, rfl⟩ := Enc.seq_eq_ok.mp h
      obtain ⟨kx, z, hk, hz, rfl⟩ := Enc.seq_eq_ok.mp hy
      obtain ⟨co, z', hco, hz', rfl⟩ := Enc.seq_eq_ok.mp hz
      obtain ⟨x, r, hx, hr, rfl⟩ := Enc.seq_eq_ok.mp hz'
      cases hco
      have hmem : MemberL (NameKey n) (Lead t) (reprKnown env (.cons n d sk t fs) (.inl v.1))
          (kx ++ (0x3A#8 :: x)) :=
        ⟨kx, [], [], x, encNameK_text hk, ws_nil, lead_nil, by
          simp only [reprKnown]
          exact encJ_denotes t ho.1 hn.1 he.2.1 v.1 x hx, rfl⟩
      have := after_consI hc hmem (encFieldsJ_denotes fs ho.2 hn.2 he.2.2 v.2 false r hr)
      simpa [Function.comp_def] using this

theorem encPackJ_denotes : ∀ (fs : Fields), fs.jsonOk = true → fs.neverSkip = true →
    fs.jsonNames = true → fs.envOk env →
    ∀ (v : fs.Val) (first : Bool) (s : Bytes), encPackJ env fs first v = .ok s →
      After first (reprFields env fs v) s
  | .nil, _, _, _, _, v, first, s, h => by
    simp only [encPackJ] at h; cases h; simp only [reprFields]; exact after_nilI first
  | .cons n d sk t ts, ho, hs, hn, he, v, first, s, h => by
    simp only [encPackJ] at h
    simp only [reprFields]
    simp only [Fields.jsonOk, Bool.and_eq_true] at ho
    simp only [Fields.jsonNames, Bool.and_eq_true] at hn
    simp only [Fields.envOk] at he
    simp only [Fields.neverSkip, Bool.and_eq_true, Option.isNone_iff_eq_none] at hs
    rw [hs.1] at h
    simp only [fieldPresent, if_true] at h
    obtain ⟨c, y, hc, hy, rfl⟩ := Enc.seq_eq_ok.mp h
    obtain ⟨x, r, hx, hr, rfl⟩ := Enc.seq_eq_ok.mp hy
    exact after_consI hc (encJ_denotes t ho.1 hn.1 he.2.1 v.1 x hx)
      (encPackJ_denotes ts ho.2 hs.2 hn.2 he.2.2 v.2 false r hr)

theorem encVariantsJ_denotes : ∀ (vs : Variants), vs.jsonOk = true → vs.jsonNames = true →
    vs.envOk env → ∀ (v : vs.Val) (s : Bytes), encVariantsJ env vs v = .ok s →
      reprVariant env vs v s
  | .nil, _, _, _, v, _, _ => nomatch v
  | .cons n t vs, ho, hn, he, .inl x, s, h => by
    simp only [encVariantsJ] at h
    simp only [reprVariant]
    simp only [Variants.jsonOk, Bool.and_eq_true] at ho
    simp only [Variants.jsonNames, Bool.and_eq_true] at hn
    simp only [Variants.envOk] at he
    exact member_encL lead_nil h (fun x hx => encNameK_text hx)
      (fun y hy => encJ_denotes t ho.1 hn.1 he.1 x y hy)
  | .cons n t vs, ho, hn, he, .inr x, s, h => by
    simp only [encVariantsJ] at h
    simp only [reprVariant]
    simp only [Variants.jsonOk, Bool.and_eq_true] at ho
    simp only [Variants.jsonNames, Bool.and_eq_true] at hn
    simp only [Variants.envOk] at he
    exact encVariantsJ_denotes vs ho.2 hn.2 he.2 x s h

end
end

end Musli.Json
